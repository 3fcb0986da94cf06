import Verif.Model.Value
/-
Model of reading values from the memory of the debugged process: rudy-db/src/data.rs.

Addresses and lengths are natural numbers; sums, differences and products of `u64`/`usize` are checked
(`addU`, `subU`, `mulU`), as in a debug build.  Log output (`tracing`) and error messages are dropped.
Recursion through pointers and aliases (`read_from_memory`) is bounded by a fuel argument that stands
for the stack: running out of it is a `panic`.
-/
namespace Rudy.Data
open Rudy Rudy.Layout

/-- What reading needs from outside data.rs.
* `read` is `DataResolver::read_memory` (data.rs:33-37), an arbitrary implementation: `none` is an
  error, and nothing forces it to return as many bytes as were asked for;
* `resolve` is `rudy_dwarf::types::resolve_type_offset` (crates/rudy-dwarf/src/types/mod.rs) on a
  debug-info entry;
* `lossy` is `String::from_utf8_lossy` on bytes, `floatStr size bits` is `f32`/`f64` `to_string`
  (standard library). -/
structure Target where
  read : Nat → Nat → Option (List UInt8)
  resolve : Nat → Res TypeDef
  lossy : List UInt8 → Str
  floatStr : Nat → Nat → Str

/-- `u*::from_le_bytes` / `usize::from_le_bytes` (standard library). -/
def leNat : List UInt8 → Nat
  | [] => 0
  | b :: bs => b.toNat + 256 * leNat bs

/-- `i*::from_le_bytes` (standard library): two's complement of the `bs.length` bytes. -/
def leInt (bs : List UInt8) : Int :=
  if 2 * leNat bs < 256 ^ bs.length then (leNat bs : Int) else (leNat bs : Int) - (256 ^ bs.length : Nat)

/-- `to_string` of a signed number (standard library). -/
def intStr (i : Int) : Str := if i < 0 then '-' :: natStr i.natAbs else natStr i.natAbs

/-- `{:#x}` of an unsigned number (standard library). -/
def hexStr (n : Nat) : Str := chars! "0x" ++ Nat.toDigits 16 n

/-- `char::from_u32` (standard library). -/
def charFromU32 (n : Nat) : Option Char := if h : n.isValidChar then some (Char.ofNatAux n h) else none

namespace Target
variable (T : Target)

/-- `data_resolver.read_memory(a, n)?`. -/
def readE (a n : Nat) : Res (List UInt8) := .ofOption (T.read a n)

/-- `data_resolver.read_memory(a, n)?.try_into().unwrap()`: bytes of the wrong number panic. -/
def readExact (a n : Nat) : Res (List UInt8) :=
  (T.readE a n).bind fun bs => if bs.length = n then .ok bs else .panic

/-- `usize::from_le_bytes(data_resolver.read_memory(a, n)?.try_into().unwrap())`, e.g. data.rs:142-143. -/
def readNat (a n : Nat) : Res Nat := (T.readExact a n).bind fun bs => .ok (leNat bs)

/-- Models `DataResolver::read_address`, data.rs:50-58. -/
def readAddress (a : Nat) : Res Nat :=
  (T.readE a 8).bind fun bs => if bs.length = 8 then .ok (leNat bs) else .err

/-- `read_memory(a, 8)?.try_into().map(usize::from_le_bytes).map_err(..)?`, data.rs:501-507 and
822-828: bytes of the wrong number are an error. -/
def readLen (a : Nat) : Res Nat :=
  (T.readE a 8).bind fun bs => if bs.length = 8 then .ok (leNat bs) else .err

/-- `resolve_type_offset(db, ty.location)?`; a type not from the debug file has no entry to look up. -/
def resolveAt : Option Nat → Res TypeDef
  | none => .err
  | some e => T.resolve e

/-- Models `resolve_alias`, data.rs:728-735. -/
def resolveAlias (t : TypeDef) : Res TypeDef :=
  match t with
  | .mk loc (.alias _) => T.resolveAt loc
  | t => .ok t

end Target

/-- `element_type.size().with_context(..)? as u64`, data.rs:553-558, 596-601, 792-797, 907-912. -/
def elemSize (t : TypeDef) : Res Nat := t.size.bind Res.ofOption

/-- `Vec::<Value>::with_capacity(n)` (data.rs:561, 604, 800): panics with "capacity overflow" when
`n * size_of::<Value>()` exceeds `isize::MAX`.  A `Value` has at least 48 bytes. Running out of memory
below that bound is not modelled. -/
def withCapacity (n : Nat) : Res Unit := if n * 48 < 2 ^ 63 then .ok () else .panic

/-- Models the element loops data.rs:562-570, 605-613, 802-810: `n` pointers, the address advanced
after each of them (also after the last one). -/
def seqItems (t : TypeDef) (esz : Nat) : Nat → Nat → Res (List Value)
  | _, 0 => .ok []
  | a, n + 1 => (addU a esz).bind fun a' => (seqItems t esz a' n).bind fun r => .ok (.pointer a t :: r)

/-- Models the control-byte loop of a `HashMap`, data.rs:171-195; `found` is `entries.len()`. -/
def hashEntries (pairSize keyOff valueOff items : Nat) :
    (found slot : Nat) → List UInt8 → Res (List (Nat × Nat))
  | _, _, [] => .ok []
  | found, slot, c :: cs =>
    if c < 0x80 then
      (addU slot keyOff).bind fun k => (addU slot valueOff).bind fun v =>
      if found + 1 ≥ items then .ok [(k, v)]
      else (subU slot pairSize).bind fun s =>
        (hashEntries pairSize keyOff valueOff items (found + 1) s cs).bind fun r => .ok ((k, v) :: r)
    else (subU slot pairSize).bind fun s => hashEntries pairSize keyOff valueOff items found s cs

/-- Models the edge part of an iteration of `read_btree_node_entries`, data.rs:928-948: the entries of
the child at index `i`; `edges` is the edge array and the reader of a child (`none` for a leaf). -/
def btreeEdge (T : Target) (edges : Option (Nat × (Nat → Res (List (Nat × Nat))))) (i : Nat) :
    Res (List (Nat × Nat)) :=
  match edges with
  | none => .ok []
  | some (base, sub) =>
    (mulU i 8).bind fun o => (addU base o).bind fun ea => (T.readAddress ea).bind fun e =>
    if e ≠ 0 then sub e else .ok []

/-- Models the loop of `read_btree_node_entries`, data.rs:926-971, from index `i` with `left` keys not
yet visited. -/
def btreeLoop (T : Target) (ks vs keysA valsA : Nat)
    (edges : Option (Nat × (Nat → Res (List (Nat × Nat))))) : (left i : Nat) → Res (List (Nat × Nat))
  | 0, i => btreeEdge T edges i
  | left + 1, i =>
    (btreeEdge T edges i).bind fun p =>
    if ks > 0 ∧ vs > 0 then
      (mulU i ks).bind fun ko => (addU keysA ko).bind fun ka =>
      (mulU i vs).bind fun vo => (addU valsA vo).bind fun va =>
      (btreeLoop T ks vs keysA valsA edges left (i + 1)).bind fun r => .ok (p ++ (ka, va) :: r)
    else (btreeLoop T ks vs keysA valsA edges left (i + 1)).bind fun r => .ok (p ++ r)

/-- Models the start of `read_btree_node_entries`, data.rs:900-916: number of keys, sizes of key and
value, addresses of the key and value arrays. -/
def btreeHead (T : Target) (kt vt : TypeDef) (nl : NodeLayout) (node : Nat) :
    Res (Nat × Nat × Nat × Nat × Nat) :=
  (addU node nl.lenOff).bind fun la => (T.readNat la 2).bind fun len =>
  (elemSize kt).bind fun ks => (elemSize vt).bind fun vs =>
  (addU node nl.keysOff).bind fun keysA => (addU node nl.valsOff).bind fun valsA =>
  .ok (len, ks, vs, keysA, valsA)

/-- Models `read_btree_node_entries`, data.rs:888-974, by recursion on the height. Simplification:
entries are pairs of addresses (the types are always `key_type`, `value_type`) and are returned
instead of pushed; recursion as deep as the stored height is assumed to fit the stack. -/
def btreeNode (T : Target) (kt vt : TypeDef) (nl : NodeLayout) : (height node : Nat) → Res (List (Nat × Nat))
  | 0, node => (btreeHead T kt vt nl node).bind fun (len, ks, vs, keysA, valsA) =>
    btreeLoop T ks vs keysA valsA none len 0
  | h + 1, node => (btreeHead T kt vt nl node).bind fun (len, ks, vs, keysA, valsA) =>
    (addU node nl.edgesOff).bind fun base =>
    btreeLoop T ks vs keysA valsA (some (base, btreeNode T kt vt nl h)) len 0

/-- Models `read_map_entries`, data.rs:122-256: addresses of the keys and values (their types are
the map's key and value type). -/
def mapEntries (T : Target) (a : Nat) (variant : MapVariant) (kt vt : TypeDef) : Res (List (Nat × Nat)) :=
  match variant with
  | .hashMap maskOff ctrlOff itemsOff pairSize keyOff valueOff =>
    (addU a maskOff).bind fun maskA => (addU a ctrlOff).bind fun ctrlA =>
    (addU a itemsOff).bind fun itemsA => (T.readNat itemsA 8).bind fun items =>
    if items = 0 then .ok []
    else
      (T.readNat maskA 8).bind fun mask => (addU mask 1).bind fun capacity =>
      (T.readAddress ctrlA).bind fun ctrl => (subU ctrl pairSize).bind fun slot =>
      (T.readE ctrl capacity).bind fun bytes => hashEntries pairSize keyOff valueOff items 0 slot bytes
  | .btreeMap lengthOff rootOff nodeOff heightOff nl =>
    (addU a lengthOff).bind fun lengthA => (T.readNat lengthA 8).bind fun length =>
    if length = 0 then .ok []
    else
      (addU a rootOff).bind fun rootA => (T.readNat rootA 8).bind fun disc =>
      if disc = 0 then .ok []
      else
        (addU rootA nodeOff).bind fun nodeA => (addU rootA heightOff).bind fun heightA =>
        (T.readAddress nodeA).bind fun node => (T.readNat heightA 8).bind fun height =>
        btreeNode T kt vt nl height node
  | .indexMap => .panic

/-- Models the discriminant reads of `read_enum` and `read_c_enum`, data.rs:279-309 and 398-428. -/
def readDisc (T : Target) (a : Nat) : DiscTy → Res Int
  | .int s => (T.readE a s).bind fun bs =>
    if s = 1 ∨ s = 2 ∨ s = 4 ∨ s = 8 then (if bs.length = s then .ok (leInt bs) else .panic) else .err
  | .uint s => (T.readE a s).bind fun bs =>
    if s = 1 ∨ s = 2 ∨ s = 4 ∨ s = 8 then (if bs.length = s then .ok (leNat bs : Int) else .panic) else .err
  | .implicit => .err

/-- Models `variants.iter().enumerate().find(|(i, _)| *i as i128 == disc_value)`, data.rs:319-328 with
an implicit discriminant, counting from `i`. -/
def findIndexed (d : Int) : Nat → List (Str × Option Int × TypeDef) → Option (Str × TypeDef)
  | _, [] => none
  | i, (n, _, t) :: r => if (i : Int) = d then some (n, t) else findIndexed d (i + 1) r

/-- Models the choice of the variant, data.rs:319-346. -/
def pickVariant (d : Int) (explicit : Bool) (vs : List (Str × Option Int × TypeDef)) : Option (Str × TypeDef) :=
  if explicit then
    match vs.find? (fun v => v.2.1 == some d) with
    | some v => some (v.1, v.2.2)
    | none => (vs.find? (fun v => v.2.1.isNone)).map fun v => (v.1, v.2.2)
  else findIndexed d 0 vs

/-- Models the final re-formatting of `read_enum`, data.rs:354-382. -/
def reformatVariant (name variant : Str) : Value → Value
  | .struct _ fields =>
    if fields.isEmpty then .scalar (name ++ chars! "::" ++ variant) variant
    else if fields.all (fun f => (chars! "__").isPrefixOf f.1) then
      .tuple (name ++ chars! "::" ++ variant) (fields.map (·.2))
    else .struct (name ++ chars! "::" ++ variant) fields
  | v => v

/-- Models `read_enum`, data.rs:258-383; `rec` is `read_from_memory`. -/
def readEnum (T : Target) (rec : Nat → TypeDef → Res Value) (a : Nat) (name : Str) (disc : Disc)
    (vs : List (Str × Option Int × TypeDef)) : Res Value :=
  (addU a disc.offset).bind fun da =>
  (match disc.ty with
    | .implicit => (addU da disc.offset).bind fun da' => (T.readExact da' 4).bind fun bs => .ok (leInt bs)
    | ty => readDisc T da ty).bind fun d =>
  (Res.ofOption (pickVariant d (decide (disc.ty ≠ DiscTy.implicit)) vs)).bind fun v =>
  (rec a v.2).bind fun inner => .ok (reformatVariant name v.1 inner)

/-- Models `read_c_enum`, data.rs:385-447. -/
def readCEnum (T : Target) (a : Nat) (name : Str) (disc : DiscTy) (vs : List (Str × Int)) : Res Value :=
  (readDisc T a disc).bind fun d =>
  (Res.ofOption (vs.find? (fun v => v.2 == d))).bind fun v =>
  .ok (.scalar (name ++ chars! "::" ++ v.1) (intStr d))

/-- Models the struct arm of `read_from_memory`, data.rs:460-477: a pointer per field, inserted into a
`BTreeMap` under its name. -/
def structFields (a : Nat) : List (Str × Nat × TypeDef) → OMap Str Value → Res (OMap Str Value)
  | [], m => .ok m
  | (n, o, t) :: r, m => (addU a o).bind fun fa => structFields a r (m.insert compare n (.pointer fa t))

/-- The value of a string shown between double quotes (data.rs:635, 840). -/
def quoted (s : Str) : Str := '"' :: (s ++ chars! "\"")

/-- Models `extract_vec_info`, data.rs:491-518. -/
def vecInfo (T : Target) (a lenOff dataOff : Nat) : Res (Nat × Nat) :=
  (addU a lenOff).bind fun la => (T.readLen la).bind fun len =>
  (addU a dataOff).bind fun pa => (T.readAddress pa).bind fun data => .ok (data, len)

/-- Models `read_primitive_from_memory`, data.rs:520-726, `read_std_from_memory`, 768-884,
`read_option_from_memory`, 737-766, and the dispatch of `read_from_memory`, 449-488, with `rec` for the
recursive calls of `read_from_memory`. -/
def readLayout (T : Target) (rec : Nat → TypeDef → Res Value) (a : Nat) (loc : Option Nat) : Layout → Res Value
  | .bool => (T.readE a 1).bind fun bs =>
    match bs with
    | [] => .panic
    | b :: _ => .ok (.scalar (chars! "bool") (if b != 0 then chars! "true" else chars! "false"))
  | .char => (T.readNat a 4).bind fun n =>
    match charFromU32 n with
    | none => .err
    | some c => .ok (.scalar (chars! "char") ['\'', c, '\''])
  | .function ret args =>
    .ok (.scalar (Layout.displayName (.function ret args)) (chars! "fn at " ++ hexStr a))
  | .array e n =>
    (T.resolveAlias e).bind fun et => (elemSize et).bind fun esz => (withCapacity n).bind fun _ =>
    (seqItems et esz a n).bind fun items =>
    .ok (.array (chars! "[" ++ et.displayName ++ chars! "; " ++ natStr n ++ chars! "]") items)
  | .pointer _ t => (T.readAddress a).bind fun p => (rec p t).bind fun v => .ok (v.prefixType (chars! "*"))
  | .reference _ t => (T.readAddress a).bind fun p => (rec p t).bind fun v => .ok (v.prefixType (chars! "&"))
  | .slice e dataOff lenOff =>
    (addU a lenOff).bind fun la => (T.readNat la 8).bind fun len =>
    (T.resolveAlias e).bind fun et => (elemSize et).bind fun esz =>
    (addU a dataOff).bind fun pa => (T.readAddress pa).bind fun data =>
    (withCapacity len).bind fun _ => (seqItems et esz data len).bind fun items =>
    .ok (.array (chars! "&[" ++ et.displayName ++ chars! "]") items)
  | .strSlice dataOff lenOff =>
    (addU a dataOff).bind fun pa => (addU a lenOff).bind fun la =>
    (T.readAddress pa).bind fun data => (T.readNat la 8).bind fun len =>
    (T.readE data len).bind fun bs => .ok (.scalar (chars! "str") (quoted (T.lossy bs)))
  | .uint s => (T.readE a s).bind fun bs =>
    if s = 1 ∨ s = 2 ∨ s = 4 ∨ s = 8 ∨ s = 16 then
      (if bs.length = s then .ok (.scalar (Layout.displayName (.uint s)) (natStr (leNat bs))) else .panic)
    else .err
  | .float s => (T.readE a s).bind fun bs =>
    if s = 4 ∨ s = 8 then
      (if bs.length = s then .ok (.scalar (chars! "f" ++ natStr (s * 8)) (T.floatStr s (leNat bs))) else .panic)
    else .err
  | .int s => (T.readE a s).bind fun bs =>
    if s = 1 ∨ s = 2 ∨ s = 4 ∨ s = 8 ∨ s = 16 then
      (if bs.length = s then .ok (.scalar (Layout.displayName (.int s)) (intStr (leInt bs))) else .panic)
    else .err
  | .never => .ok (.scalar (chars! "Never") (chars! "unreachable"))
  | .str => .panic
  | .tuple .. => .panic
  | .unit => .ok (.scalar (chars! "()") (chars! "()"))
  | .option _ disc someOff someTy _ =>
    (addU a disc.offset).bind fun da => (T.readE da disc.size).bind fun bs =>
    match bs with
    | [] => .panic
    | b :: _ =>
      if b = 0 then .ok ((Value.scalar someTy.displayName (chars! "None")).wrapType (chars! "Option"))
      else (addU a someOff).bind fun sa => (rec sa someTy).bind fun v => .ok (v.wrapType (chars! "Option"))
  | .vec lenOff dataOff _ e =>
    (T.resolveAlias e).bind fun et => (elemSize et).bind fun esz =>
    (vecInfo T a lenOff dataOff).bind fun (data, len) =>
    (withCapacity len).bind fun _ => (seqItems et esz data len).bind fun items =>
    .ok (.array (chars! "Vec<" ++ et.displayName ++ chars! ">") items)
  | .string lenOff dataOff _ _ =>
    (addU a lenOff).bind fun la => (T.readLen la).bind fun len =>
    (addU a dataOff).bind fun pa => (T.readAddress pa).bind fun data =>
    (T.readE data len).bind fun bs => .ok (.scalar (chars! "String") (quoted (T.lossy bs)))
  | .map v k w => (mapEntries T a v k w).bind fun es =>
    .ok (.map (Layout.displayName (.map v k w)) (es.map fun e => (.pointer e.1 k, .pointer e.2 w)))
  | .smartPtr v t innerOff dataOff =>
    match v with
    | .mutex | .refCell =>
      (addU a innerOff).bind fun ia => (rec ia t).bind fun x => .ok (x.wrapType v.name)
    | .box => (T.readAddress a).bind fun p => (rec p t).bind fun x => .ok (x.wrapType v.name)
    | .rc | .arc =>
      (addU a innerOff).bind fun ia => (T.readAddress ia).bind fun p => (addU p dataOff).bind fun da =>
      (rec da t).bind fun x => .ok (x.wrapType v.name)
    | _ => .panic
  | .result .. => .panic
  | .struct name _ _ fields =>
    (structFields a fields.toList ⟨[]⟩).bind fun m => .ok (.struct name m.entries)
  | .enum name disc vs _ => readEnum T rec a name disc vs.toList
  | .cenum name disc vs _ => readCEnum T a name disc vs
  | .alias _ => (T.resolveAt loc).bind fun t => rec a t

/-- Models `read_from_memory`, data.rs:449-488, with a stack for `fuel` nested calls. -/
def readMem (T : Target) : (fuel : Nat) → Nat → TypeDef → Res Value
  | 0, _, _ => .panic
  | f + 1, a, .mk loc l => readLayout T (readMem T f) a loc l

end Rudy.Data
