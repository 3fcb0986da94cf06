import Verif.Model.Memory
/-
Model of field access, indexing and string creation: rudy-db/src/debug_info.rs, and of the synthetic
methods: rudy-db/src/synthetic_methods.rs.

Same conventions as `Model/Memory.lean`: 64-bit arithmetic is checked, messages are dropped.
-/
namespace Rudy.Data
open Rudy Rudy.Layout

/-! ### Fields and indexing -/

/-- Models `DebugInfo::get_struct_field`, debug_info.rs:501-541; a `TypedPointer` is the pair of its
address and type. -/
def getStructField (a : Nat) (t : TypeDef) (name : Str) : Res (Nat × TypeDef) :=
  match t.layout with
  | .struct _ _ _ fields =>
    (Res.ofOption (fields.toList.find? fun f => f.1 == name)).bind fun f =>
    (addU a f.2.1).bind fun fa => .ok (fa, f.2.2)
  | _ => .err

/-- The value of a digit in base `r ≤ 16` (`char::to_digit`, standard library). -/
def digitVal (r : Nat) (c : Char) : Option Nat :=
  let d :=
    if '0' ≤ c ∧ c ≤ '9' then some (c.toNat - '0'.toNat)
    else if 'a' ≤ c ∧ c ≤ 'z' then some (c.toNat - 'a'.toNat + 10)
    else if 'A' ≤ c ∧ c ≤ 'Z' then some (c.toNat - 'A'.toNat + 10)
    else none
  d.bind fun d => if d < r then some d else none

/-- Digits in base `r`, most significant first, failing as soon as the number exceeds `u64::MAX`. -/
def digitsU64 (r : Nat) : (acc : Nat) → Str → Option Nat
  | acc, [] => some acc
  | acc, c :: cs =>
    (digitVal r c).bind fun d =>
    if acc * r + d < u64Max1 then digitsU64 r (acc * r + d) cs else none

/-- `u64::from_str_radix` (standard library): an optional `+`, then at least one digit. `str::parse` is
the case of base 10. -/
def parseU64 (r : Nat) (s : Str) : Option Nat :=
  match s with
  | [] => none
  | '+' :: [] => none
  | '+' :: cs => digitsU64 r 0 cs
  | cs => digitsU64 r 0 cs

/-- Models `extract_numeric_value`, debug_info.rs:1146-1161. -/
def numericValue : Value → Res Nat
  | .scalar _ v =>
    match parseU64 10 v with
    | some n => .ok n
    | none => match v with
      | '0' :: 'x' :: h => .ofOption (parseU64 16 h)
      | _ => .err
  | _ => .err

/-- `BTreeMap::get` on the fields of a struct value. -/
def fieldGet (fields : List (Str × Value)) (n : Str) : Option Value :=
  (fields.find? fun f => f.1 == n).map (·.2)

/-- Models `extract_slice_info`, debug_info.rs:1119-1143. -/
def sliceInfo : Value → Res (Nat × Nat)
  | .struct _ fields =>
    (Res.ofOption ((fieldGet fields (chars! "data_ptr")).or (fieldGet fields (chars! "ptr")))).bind fun p =>
    (Res.ofOption ((fieldGet fields (chars! "len")).or (fieldGet fields (chars! "length")))).bind fun l =>
    (numericValue p).bind fun p => (numericValue l).bind fun l => .ok (p, l)
  | _ => .err

/-- `base + index * element_size` with the size of the element type, debug_info.rs:593-603, 619-630,
645-655. -/
def elementAt (base index : Nat) (e : TypeDef) : Res (Nat × TypeDef) :=
  (elemSize e).bind fun esz => (mulU index esz).bind fun o => (addU base o).bind fun p => .ok (p, e)

/-- Models `DebugInfo::index_array_or_slice`, debug_info.rs:570-667; `fuel` as in `readMem`. -/
def indexSeq (T : Target) (fuel a : Nat) (t : TypeDef) (index : Nat) : Res (Nat × TypeDef) :=
  match t.layout with
  | .array e n => if index ≥ n then .err else elementAt a index e
  | .slice e _ _ =>
    (readMem T fuel a t).bind fun v => (sliceInfo v).bind fun (data, len) =>
    if index ≥ len then .err else elementAt data index e
  | .vec lenOff dataOff _ e =>
    (vecInfo T a lenOff dataOff).bind fun (data, len) =>
    if index ≥ len then .err else elementAt data index e
  | _ => .err

/-- `str::trim_matches('"')` (standard library). -/
def trimQuotes (s : Str) : Str :=
  ((s.dropWhile (· == '"')).reverse.dropWhile (· == '"')).reverse

/-- Models `values_equal`, debug_info.rs:1164-1175. -/
def valuesEqual : Value → Value → Bool
  | .scalar _ a, .scalar _ b => trimQuotes a == trimQuotes b
  | _, _ => false

/-- Models the search loop of `index_map`, debug_info.rs:711-730. -/
def findKey (T : Target) (fuel : Nat) (kt vt : TypeDef) (key : Value) : List (Nat × Nat) → Res (Nat × TypeDef)
  | [] => .err
  | (k, v) :: r => (readMem T fuel k kt).bind fun mk =>
    if valuesEqual key mk then .ok (v, vt) else findKey T fuel kt vt key r

/-- Models `DebugInfo::index_map`, debug_info.rs:697-737. -/
def indexMap (T : Target) (fuel a : Nat) (t : TypeDef) (key : Value) : Res (Nat × TypeDef) :=
  match t.layout with
  | .map variant kt vt => (mapEntries T a variant kt vt).bind fun es => findKey T fuel kt vt key es
  | _ => .err

/-! ### Synthetic methods -/

/-- Models `get_synthetic_methods`, synthetic_methods.rs:91-178 (the names; the signatures are fixed
texts and `takes_args` is always false). -/
def syntheticMethods : Layout → List Str
  | .vec .. => [chars! "len", chars! "capacity", chars! "is_empty"]
  | .string .. => [chars! "len", chars! "is_empty"]
  | .option .. => [chars! "is_some", chars! "is_none"]
  | .result .. => [chars! "is_ok", chars! "is_err"]
  | .slice .. => [chars! "len", chars! "is_empty"]
  | .strSlice .. => [chars! "len", chars! "is_empty"]
  | .array .. => [chars! "len"]
  | _ => []

/-- `Value::Scalar { ty: "usize", value: n.to_string() }`. -/
def usizeValue (n : Nat) : Value := .scalar (chars! "usize") (natStr n)

/-- `Value::Scalar { ty: "bool", value: b.to_string() }`. -/
def boolValue (b : Bool) : Value :=
  .scalar (chars! "bool") (if b then chars! "true" else chars! "false")

/-- Models `usize_from_bytes`, synthetic_methods.rs:478-486. -/
def usizeFromBytes (bs : List UInt8) : Res Nat :=
  if bs.length = 8 then .ok (leNat bs) else if bs.length = 4 then .ok (leNat bs) else .err

/-- The repeated read of synthetic_methods.rs:243-245: 8 bytes at `address + offset`. -/
def readUsize (T : Target) (a off : Nat) : Res Nat :=
  (addU a off).bind fun p => (T.readE p 8).bind usizeFromBytes

/-- Models `evaluate_vec_method`, synthetic_methods.rs:235-274. -/
def vecMethod (T : Target) (a lenOff capOff : Nat) (method : Str) : Res Value :=
  if method = chars! "len" then (readUsize T a lenOff).bind fun n => .ok (usizeValue n)
  else if method = chars! "capacity" then (readUsize T a capOff).bind fun n => .ok (usizeValue n)
  else if method = chars! "is_empty" then (readUsize T a lenOff).bind fun n => .ok (boolValue (n == 0))
  else .err

/-- Models `evaluate_string_method`, synthetic_methods.rs:276-290. -/
def stringMethod (T : Target) (a lenOff capOff : Nat) (method : Str) : Res Value :=
  if method = chars! "len" then vecMethod T a lenOff capOff (chars! "len")
  else if method = chars! "is_empty" then vecMethod T a lenOff capOff (chars! "is_empty")
  else if method = chars! "capacity" then vecMethod T a lenOff capOff (chars! "capacity")
  else .err

/-- Models the discriminant read of synthetic_methods.rs:299-310 and 334-345: the bytes and their value. -/
def readTag (T : Target) (a : Nat) (disc : Disc) : Res (Nat × Nat) :=
  (addU a disc.offset).bind fun da => (T.readE da disc.size).bind fun bs =>
  if bs.length = 1 ∨ bs.length = 2 ∨ bs.length = 4 ∨ bs.length = 8 then .ok (bs.length, leNat bs) else .err

/-- Models `evaluate_option_method`, synthetic_methods.rs:292-325. -/
def optionMethod (T : Target) (a : Nat) (disc : Disc) (method : Str) : Res Value :=
  (readTag T a disc).bind fun (_, d) =>
  if method = chars! "is_some" then .ok (boolValue (d != 0))
  else if method = chars! "is_none" then .ok (boolValue (d == 0))
  else .err

/-- The high-bit test of synthetic_methods.rs:362-366 and 374-378: is the value `d` of `len` bytes an
`Ok`? `d & 0x8000000000000000` of a `u64` is non-zero iff `d ≥ 2^63`; `d & 0x80000000` of a zero-extended
`u32` is non-zero iff `d ≥ 2^31`. -/
def resultIsOk (len d : Nat) : Bool :=
  if len = 8 then decide (d < 2 ^ 63) else if len = 4 then decide (d < 2 ^ 31) else d == 0

/-- Models `evaluate_result_method`, synthetic_methods.rs:327-386. -/
def resultMethod (T : Target) (a : Nat) (disc : Disc) (method : Str) : Res Value :=
  (readTag T a disc).bind fun (len, d) =>
  if method = chars! "is_ok" then .ok (boolValue (resultIsOk len d))
  else if method = chars! "is_err" then .ok (boolValue (!resultIsOk len d))
  else .err

/-- Models `evaluate_slice_method` and `evaluate_str_slice_method`, synthetic_methods.rs:404-463 (the
same code twice): the length is always read 8 bytes after the start. -/
def sliceMethod (T : Target) (a : Nat) (method : Str) : Res Value :=
  if method = chars! "len" then (readUsize T a 8).bind fun n => .ok (usizeValue n)
  else if method = chars! "is_empty" then (readUsize T a 8).bind fun n => .ok (boolValue (n == 0))
  else .err

/-- Models `evaluate_array_method`, synthetic_methods.rs:465-476. -/
def arrayMethod (length : Nat) (method : Str) : Res Value :=
  if method = chars! "len" then .ok (usizeValue length) else .err

/-- Models `evaluate_synthetic_method`, synthetic_methods.rs:181-233, with `evaluate_map_method`
(388-402), which is always an error. -/
def evalSynthetic (T : Target) (a : Nat) (t : TypeDef) (method : Str) : Res Value :=
  match t.layout with
  | .vec lenOff _ capOff _ => vecMethod T a lenOff capOff method
  | .string lenOff _ capOff _ => stringMethod T a lenOff capOff method
  | .option _ disc _ _ _ => optionMethod T a disc method
  | .result _ disc _ _ _ _ _ => resultMethod T a disc method
  | .slice .. => sliceMethod T a method
  | .strSlice .. => sliceMethod T a method
  | .array _ n => arrayMethod n method
  | _ => .err

/-! ### Creating strings in the target -/

/-- The part of `DataResolver` (data.rs:17-110) that creating a value uses, as operations on the state
`σ` of the debugged process; `none` is an error, which may have changed the process too. An arbitrary
implementation. -/
structure Remote (σ : Type) where
  alloc : Nat → σ → Option Nat × σ
  write : Nat → List UInt8 → σ → Option Unit × σ
  read : Nat → Nat → σ → Option (List UInt8)
  lossy : List UInt8 → Str

/-- A computation on the process: errors and panics keep the effects made before them. -/
def Act (σ α : Type) : Type := σ → Res α × σ

namespace Act
variable {σ α β : Type}

/-- The `?` operator. -/
def bind (x : Act σ α) (f : α → Act σ β) : Act σ β := fun s =>
  match x s with
  | (.ok a, s') => f a s'
  | (.err, s') => (.err, s')
  | (.panic, s') => (.panic, s')

/-- A result that does not depend on the process. -/
def lift (r : Res α) : Act σ α := fun s => (r, s)
end Act

/-- `allocate_memory(n)?`. -/
def Remote.allocate {σ : Type} (R : Remote σ) (n : Nat) : Act σ Nat := fun s =>
  let r := R.alloc n s; (Res.ofOption r.1, r.2)

/-- `write_memory(a, bs)?`. -/
def Remote.store {σ : Type} (R : Remote σ) (a : Nat) (bs : List UInt8) : Act σ Unit := fun s =>
  let r := R.write a bs s; (Res.ofOption r.1, r.2)

/-- `read_memory(a, n)?`. -/
def Remote.load {σ : Type} (R : Remote σ) (a n : Nat) : Act σ (List UInt8) := fun s => (Res.ofOption (R.read a n s), s)

/-- `str::as_bytes` (standard library). -/
def utf8 (s : Str) : List UInt8 := s.flatMap String.utf8EncodeChar

/-- `to_le_bytes` of a `u64` (standard library). -/
def le8 (v : Nat) : List UInt8 :=
  [UInt8.ofNat v, UInt8.ofNat (v / 256), UInt8.ofNat (v / 256 ^ 2), UInt8.ofNat (v / 256 ^ 3),
    UInt8.ofNat (v / 256 ^ 4), UInt8.ofNat (v / 256 ^ 5), UInt8.ofNat (v / 256 ^ 6), UInt8.ofNat (v / 256 ^ 7)]

/-- `u64::from_le_bytes(bytes.try_into().unwrap())`, debug_info.rs:946-947. -/
def eightBytes (bs : List UInt8) : Res Nat := if bs.length = 8 then .ok (leNat bs) else .panic

/-- Models `create_str_slice_with_layout`, debug_info.rs:866-997. -/
def createStr {σ : Type} (R : Remote σ) (text : Str) (dataOff lenOff : Nat) : Act σ Nat :=
  let bytes := utf8 text
  if dataOff > 16 ∨ lenOff > 16 then .lift .err
  else
    (Act.lift (addU bytes.length 16)).bind fun total =>
    (R.allocate total).bind fun base =>
    (R.store base bytes).bind fun _ =>
    (Act.lift (addU base bytes.length)).bind fun fat =>
    (Act.lift (addU fat dataOff)).bind fun pa =>
    (R.store pa (le8 base)).bind fun _ =>
    (Act.lift (addU fat lenOff)).bind fun la =>
    (R.store la (le8 bytes.length)).bind fun _ =>
    (R.load pa 8).bind fun pb => (R.load la 8).bind fun lb =>
    (Act.lift (eightBytes pb)).bind fun p => (Act.lift (eightBytes lb)).bind fun l =>
    if p ≠ base then .lift .err
    else if l ≠ bytes.length then .lift .err
    else if l > 1024 * 1024 then .lift .err
    else
      (R.load p l).bind fun bs => .lift (if R.lossy bs ≠ text then .err else .ok fat)

/-- Models `create_owned_string_with_layout`, debug_info.rs:1000-1078; the size of a `String` is 24
(`Layout.size`). -/
def createString {σ : Type} (R : Remote σ) (text : Str) (lenOff dataOff capOff : Nat) : Act σ Nat :=
  let bytes := utf8 text
  (R.allocate bytes.length).bind fun content =>
  (R.store content bytes).bind fun _ =>
  (R.allocate 24).bind fun addr =>
  (R.store addr (List.replicate 24 0)).bind fun _ =>
  (Act.lift (addU addr lenOff)).bind fun la =>
  (R.store la (le8 bytes.length)).bind fun _ =>
  (Act.lift (addU addr dataOff)).bind fun pa =>
  (R.store pa (le8 content)).bind fun _ =>
  (Act.lift (addU addr capOff)).bind fun ca =>
  (R.store ca (le8 bytes.length)).bind fun _ => .lift (.ok addr)

/-- Models `DebugInfo::create_typed_value`, debug_info.rs:842-863. -/
def createTyped {σ : Type} (R : Remote σ) (text : Str) (t : TypeDef) : Act σ Nat :=
  match t.layout with
  | .strSlice dataOff lenOff => createStr R text dataOff lenOff
  | .string lenOff dataOff capOff _ => createString R text lenOff dataOff capOff
  | _ => .lift .err

end Rudy.Data
