import Verif.Model.Remote
import Verif.Model.Eval
import Verif.Model.Variables
/-
Model of the evaluator as the conversation it is: every look at the process is an event sent to the client, whose answer the
server waits for. rudy-lldb/src/evaluator.rs with the parts of rudy-db that reach the process through a `DataResolver`
(rudy-db/src/data.rs, debug_info.rs, synthetic_methods.rs, crates/rudy-dwarf/src/expressions.rs).

`Model/Memory.lean`, `Index.lean`, `Eval.lean` and `Variables.lean` describe the same code as functions of a process that is
at hand; `Props/Ask.lean` proves that both agree. The order of the events is the order of the calls of the `DataResolver` in
the code. Messages and log output are dropped.
-/
namespace Rudy.Ask
open Rudy Rudy.Server Rudy.Expr Rudy.Data Rudy.Layout Rudy.Eval

/-- What the evaluator has from the debug information of the program and from the standard library, without asking. The
context of `vars` is not used: registers are asked for. -/
structure Info where
  resolve : Nat → Res TypeDef
  lossy : List UInt8 → Str
  floatStr : Nat → Nat → Str
  vars : Vars.World
  methods : Ptr → Res (List Callee)
  functions : Str → Res (List Callee)
  isFloat : Str → Bool
  stack : Nat

/-- A result that needs no event. -/
abbrev lift {α : Type} (r : Res α) : Conv α := .ofRes r

/-! ### Reading memory -/

/-- `data_resolver.read_memory(a, n)?`, evaluator.rs:52-61. -/
def readE (a n : Nat) : Conv (List UInt8) := Remote.readMemory a n

/-- `data_resolver.read_memory(a, n)?.try_into().unwrap()`. -/
def readExact (a n : Nat) : Conv (List UInt8) :=
  (readE a n).bind fun bs => if bs.length = n then .ok bs else .panic

/-- `usize::from_le_bytes(data_resolver.read_memory(a, n)?.try_into().unwrap())`. -/
def readNat (a n : Nat) : Conv Nat := (readExact a n).bind fun bs => .ok (leNat bs)

/-- Models `read_address`, evaluator.rs:83-89. -/
def readAddress (a : Nat) : Conv Nat := Remote.readAddress a

/-- `read_memory(a, 8)?.try_into().map(usize::from_le_bytes).map_err(..)?`, data.rs:501-507 and 822-828. -/
def readLen (a : Nat) : Conv Nat := (readE a 8).bind fun bs => if bs.length = 8 then .ok (leNat bs) else .err

section
variable (I : Info)

/-- `resolve_type_offset(db, ty.location)?`. -/
def resolveAt : Option Nat → Res TypeDef
  | none => .err
  | some e => I.resolve e

/-- Models `resolve_alias`, data.rs:728-735. -/
def resolveAlias (t : TypeDef) : Res TypeDef :=
  match t with
  | .mk loc (.alias _) => resolveAt I loc
  | t => .ok t

/-- Models the edge part of an iteration of `read_btree_node_entries`, data.rs:928-948. -/
def btreeEdge (edges : Option (Nat × (Nat → Conv (List (Nat × Nat))))) (i : Nat) : Conv (List (Nat × Nat)) :=
  match edges with
  | none => .ok []
  | some (base, sub) =>
    (lift (mulU i 8)).bind fun o => (lift (addU base o)).bind fun ea => (readAddress ea).bind fun e =>
    if e ≠ 0 then sub e else .ok []

/-- Models the loop of `read_btree_node_entries`, data.rs:926-971. -/
def btreeLoop (ks vs keysA valsA : Nat) (edges : Option (Nat × (Nat → Conv (List (Nat × Nat))))) :
    (left i : Nat) → Conv (List (Nat × Nat))
  | 0, i => btreeEdge edges i
  | left + 1, i =>
    (btreeEdge edges i).bind fun p =>
    if ks > 0 ∧ vs > 0 then
      (lift (mulU i ks)).bind fun ko => (lift (addU keysA ko)).bind fun ka =>
      (lift (mulU i vs)).bind fun vo => (lift (addU valsA vo)).bind fun va =>
      (btreeLoop ks vs keysA valsA edges left (i + 1)).bind fun r => .ok (p ++ (ka, va) :: r)
    else (btreeLoop ks vs keysA valsA edges left (i + 1)).bind fun r => .ok (p ++ r)

/-- Models the start of `read_btree_node_entries`, data.rs:900-916. -/
def btreeHead (kt vt : TypeDef) (nl : NodeLayout) (node : Nat) : Conv (Nat × Nat × Nat × Nat × Nat) :=
  (lift (addU node nl.lenOff)).bind fun la => (readNat la 2).bind fun len =>
  (lift (elemSize kt)).bind fun ks => (lift (elemSize vt)).bind fun vs =>
  (lift (addU node nl.keysOff)).bind fun keysA => (lift (addU node nl.valsOff)).bind fun valsA =>
  .ok (len, ks, vs, keysA, valsA)

/-- Models `read_btree_node_entries`, data.rs:888-974, with the simplification of `Data.btreeNode`. -/
def btreeNode (kt vt : TypeDef) (nl : NodeLayout) : (height node : Nat) → Conv (List (Nat × Nat))
  | 0, node => (btreeHead kt vt nl node).bind fun (len, ks, vs, keysA, valsA) =>
    btreeLoop ks vs keysA valsA none len 0
  | h + 1, node => (btreeHead kt vt nl node).bind fun (len, ks, vs, keysA, valsA) =>
    (lift (addU node nl.edgesOff)).bind fun base =>
    btreeLoop ks vs keysA valsA (some (base, btreeNode kt vt nl h)) len 0

/-- Models `read_map_entries`, data.rs:122-256. -/
def mapEntries (a : Nat) (variant : MapVariant) (kt vt : TypeDef) : Conv (List (Nat × Nat)) :=
  match variant with
  | .hashMap maskOff ctrlOff itemsOff pairSize keyOff valueOff =>
    (lift (addU a maskOff)).bind fun maskA => (lift (addU a ctrlOff)).bind fun ctrlA =>
    (lift (addU a itemsOff)).bind fun itemsA => (readNat itemsA 8).bind fun items =>
    if items = 0 then .ok []
    else
      (readNat maskA 8).bind fun mask => (lift (addU mask 1)).bind fun capacity =>
      (readAddress ctrlA).bind fun ctrl => (lift (subU ctrl pairSize)).bind fun slot =>
      (readE ctrl capacity).bind fun bytes => lift (hashEntries pairSize keyOff valueOff items 0 slot bytes)
  | .btreeMap lengthOff rootOff nodeOff heightOff nl =>
    (lift (addU a lengthOff)).bind fun lengthA => (readNat lengthA 8).bind fun length =>
    if length = 0 then .ok []
    else
      (lift (addU a rootOff)).bind fun rootA => (readNat rootA 8).bind fun disc =>
      if disc = 0 then .ok []
      else
        (lift (addU rootA nodeOff)).bind fun nodeA => (lift (addU rootA heightOff)).bind fun heightA =>
        (readAddress nodeA).bind fun node => (readNat heightA 8).bind fun height =>
        btreeNode kt vt nl height node
  | .indexMap => .panic

/-- Models the discriminant reads of `read_enum` and `read_c_enum`, data.rs:279-309 and 398-428. -/
def readDisc (a : Nat) : DiscTy → Conv Int
  | .int s => (readE a s).bind fun bs =>
    if s = 1 ∨ s = 2 ∨ s = 4 ∨ s = 8 then (if bs.length = s then .ok (leInt bs) else .panic) else .err
  | .uint s => (readE a s).bind fun bs =>
    if s = 1 ∨ s = 2 ∨ s = 4 ∨ s = 8 then (if bs.length = s then .ok (leNat bs : Int) else .panic) else .err
  | .implicit => .err

/-- Models `read_enum`, data.rs:258-383; `rec` is `read_from_memory`. -/
def readEnum (rec : Nat → TypeDef → Conv Value) (a : Nat) (name : Str) (disc : Disc)
    (vs : List (Str × Option Int × TypeDef)) : Conv Value :=
  (lift (addU a disc.offset)).bind fun da =>
  (match disc.ty with
    | .implicit => (lift (addU da disc.offset)).bind fun da' => (readExact da' 4).bind fun bs => .ok (leInt bs)
    | ty => readDisc da ty).bind fun d =>
  (lift (Res.ofOption (pickVariant d (decide (disc.ty ≠ DiscTy.implicit)) vs))).bind fun v =>
  (rec a v.2).bind fun inner => .ok (reformatVariant name v.1 inner)

/-- Models `read_c_enum`, data.rs:385-447. -/
def readCEnum (a : Nat) (name : Str) (disc : DiscTy) (vs : List (Str × Int)) : Conv Value :=
  (readDisc a disc).bind fun d =>
  (lift (Res.ofOption (vs.find? (fun v => v.2 == d)))).bind fun v =>
  .ok (.scalar (name ++ chars! "::" ++ v.1) (intStr d))

/-- Models `extract_vec_info`, data.rs:491-518. -/
def vecInfo (a lenOff dataOff : Nat) : Conv (Nat × Nat) :=
  (lift (addU a lenOff)).bind fun la => (readLen la).bind fun len =>
  (lift (addU a dataOff)).bind fun pa => (readAddress pa).bind fun data => .ok (data, len)

/-- Models `read_primitive_from_memory`, data.rs:520-726, `read_std_from_memory`, 768-884, `read_option_from_memory`, 737-766,
and the dispatch of `read_from_memory`, 449-488, with `rec` for the recursive calls of `read_from_memory`. -/
def readLayout (rec : Nat → TypeDef → Conv Value) (a : Nat) (loc : Option Nat) : Layout → Conv Value
  | .bool => (readE a 1).bind fun bs =>
    match bs with
    | [] => .panic
    | b :: _ => .ok (.scalar (chars! "bool") (if b != 0 then chars! "true" else chars! "false"))
  | .char => (readNat a 4).bind fun n =>
    match charFromU32 n with
    | none => .err
    | some c => .ok (.scalar (chars! "char") ['\'', c, '\''])
  | .function ret args =>
    .ok (.scalar (Layout.displayName (.function ret args)) (chars! "fn at " ++ hexStr a))
  | .array e n =>
    (lift (resolveAlias I e)).bind fun et => (lift (elemSize et)).bind fun esz => (lift (withCapacity n)).bind fun _ =>
    (lift (seqItems et esz a n)).bind fun items =>
    .ok (.array (chars! "[" ++ et.displayName ++ chars! "; " ++ natStr n ++ chars! "]") items)
  | .pointer _ t => (readAddress a).bind fun p => (rec p t).bind fun v => .ok (v.prefixType (chars! "*"))
  | .reference _ t => (readAddress a).bind fun p => (rec p t).bind fun v => .ok (v.prefixType (chars! "&"))
  | .slice e dataOff lenOff =>
    (lift (addU a lenOff)).bind fun la => (readNat la 8).bind fun len =>
    (lift (resolveAlias I e)).bind fun et => (lift (elemSize et)).bind fun esz =>
    (lift (addU a dataOff)).bind fun pa => (readAddress pa).bind fun data =>
    (lift (withCapacity len)).bind fun _ => (lift (seqItems et esz data len)).bind fun items =>
    .ok (.array (chars! "&[" ++ et.displayName ++ chars! "]") items)
  | .strSlice dataOff lenOff =>
    (lift (addU a dataOff)).bind fun pa => (lift (addU a lenOff)).bind fun la =>
    (readAddress pa).bind fun data => (readNat la 8).bind fun len =>
    (readE data len).bind fun bs => .ok (.scalar (chars! "str") (quoted (I.lossy bs)))
  | .uint s => (readE a s).bind fun bs =>
    if s = 1 ∨ s = 2 ∨ s = 4 ∨ s = 8 ∨ s = 16 then
      (if bs.length = s then .ok (.scalar (Layout.displayName (.uint s)) (natStr (leNat bs))) else .panic)
    else .err
  | .float s => (readE a s).bind fun bs =>
    if s = 4 ∨ s = 8 then
      (if bs.length = s then .ok (.scalar (chars! "f" ++ natStr (s * 8)) (I.floatStr s (leNat bs))) else .panic)
    else .err
  | .int s => (readE a s).bind fun bs =>
    if s = 1 ∨ s = 2 ∨ s = 4 ∨ s = 8 ∨ s = 16 then
      (if bs.length = s then .ok (.scalar (Layout.displayName (.int s)) (intStr (leInt bs))) else .panic)
    else .err
  | .never => .ok (.scalar (chars! "Never") (chars! "unreachable"))
  | .str => .panic
  | .tuple .. => .panic
  | .unit => .ok (.scalar (chars! "()") (chars! "()"))
  | .option _ disc someOff someTy _ =>
    (lift (addU a disc.offset)).bind fun da => (readE da disc.size).bind fun bs =>
    match bs with
    | [] => .panic
    | b :: _ =>
      if b = 0 then .ok ((Value.scalar someTy.displayName (chars! "None")).wrapType (chars! "Option"))
      else (lift (addU a someOff)).bind fun sa => (rec sa someTy).bind fun v => .ok (v.wrapType (chars! "Option"))
  | .vec lenOff dataOff _ e =>
    (lift (resolveAlias I e)).bind fun et => (lift (elemSize et)).bind fun esz =>
    (vecInfo a lenOff dataOff).bind fun (data, len) =>
    (lift (withCapacity len)).bind fun _ => (lift (seqItems et esz data len)).bind fun items =>
    .ok (.array (chars! "Vec<" ++ et.displayName ++ chars! ">") items)
  | .string lenOff dataOff _ _ =>
    (lift (addU a lenOff)).bind fun la => (readLen la).bind fun len =>
    (lift (addU a dataOff)).bind fun pa => (readAddress pa).bind fun data =>
    (readE data len).bind fun bs => .ok (.scalar (chars! "String") (quoted (I.lossy bs)))
  | .map v k w => (mapEntries a v k w).bind fun es =>
    .ok (.map (Layout.displayName (.map v k w)) (es.map fun e => (.pointer e.1 k, .pointer e.2 w)))
  | .smartPtr v t innerOff dataOff =>
    match v with
    | .mutex | .refCell =>
      (lift (addU a innerOff)).bind fun ia => (rec ia t).bind fun x => .ok (x.wrapType v.name)
    | .box => (readAddress a).bind fun p => (rec p t).bind fun x => .ok (x.wrapType v.name)
    | .rc | .arc =>
      (lift (addU a innerOff)).bind fun ia => (readAddress ia).bind fun p => (lift (addU p dataOff)).bind fun da =>
      (rec da t).bind fun x => .ok (x.wrapType v.name)
    | _ => .panic
  | .result .. => .panic
  | .struct name _ _ fields =>
    (lift (structFields a fields.toList ⟨[]⟩)).bind fun m => .ok (.struct name m.entries)
  | .enum name disc vs _ => readEnum rec a name disc vs.toList
  | .cenum name disc vs _ => readCEnum a name disc vs
  | .alias _ => (lift (resolveAt I loc)).bind fun t => rec a t

/-- Models `read_from_memory`, data.rs:449-488, with a stack for `fuel` nested calls. -/
def readMem : (fuel : Nat) → Nat → TypeDef → Conv Value
  | 0, _, _ => .panic
  | f + 1, a, .mk loc l => readLayout I (readMem f) a loc l

/-! ### Indexing and built-in methods -/

/-- Models `DebugInfo::index_array_or_slice`, debug_info.rs:570-667. -/
def indexSeq (a : Nat) (t : TypeDef) (index : Nat) : Conv Ptr :=
  match t.layout with
  | .array e n => if index ≥ n then .err else lift (elementAt a index e)
  | .slice e _ _ =>
    (readMem I I.stack a t).bind fun v => (lift (sliceInfo v)).bind fun (data, len) =>
    if index ≥ len then .err else lift (elementAt data index e)
  | .vec lenOff dataOff _ e =>
    (vecInfo a lenOff dataOff).bind fun (data, len) =>
    if index ≥ len then .err else lift (elementAt data index e)
  | _ => .err

/-- Models the search loop of `index_map`, debug_info.rs:711-730. -/
def findKey (kt vt : TypeDef) (key : Value) : List (Nat × Nat) → Conv Ptr
  | [] => .err
  | (k, v) :: r => (readMem I I.stack k kt).bind fun mk =>
    if valuesEqual key mk then .ok (v, vt) else findKey kt vt key r

/-- Models `DebugInfo::index_map`, debug_info.rs:697-737. -/
def indexMap (a : Nat) (t : TypeDef) (key : Value) : Conv Ptr :=
  match t.layout with
  | .map variant kt vt => (mapEntries a variant kt vt).bind fun es => findKey I kt vt key es
  | _ => .err

/-- synthetic_methods.rs:243-245: 8 bytes at `address + offset`. -/
def readUsize (a off : Nat) : Conv Nat :=
  (lift (addU a off)).bind fun p => (readE p 8).bind fun bs => lift (usizeFromBytes bs)

/-- Models `evaluate_vec_method`, synthetic_methods.rs:235-274. -/
def vecMethod (a lenOff capOff : Nat) (method : Str) : Conv Value :=
  if method = chars! "len" then (readUsize a lenOff).bind fun n => .ok (usizeValue n)
  else if method = chars! "capacity" then (readUsize a capOff).bind fun n => .ok (usizeValue n)
  else if method = chars! "is_empty" then (readUsize a lenOff).bind fun n => .ok (boolValue (n == 0))
  else .err

/-- Models `evaluate_string_method`, synthetic_methods.rs:276-290. -/
def stringMethod (a lenOff capOff : Nat) (method : Str) : Conv Value :=
  if method = chars! "len" then vecMethod a lenOff capOff (chars! "len")
  else if method = chars! "is_empty" then vecMethod a lenOff capOff (chars! "is_empty")
  else if method = chars! "capacity" then vecMethod a lenOff capOff (chars! "capacity")
  else .err

/-- Models the discriminant read of synthetic_methods.rs:299-310 and 334-345. -/
def readTag (a : Nat) (disc : Disc) : Conv (Nat × Nat) :=
  (lift (addU a disc.offset)).bind fun da => (readE da disc.size).bind fun bs =>
  if bs.length = 1 ∨ bs.length = 2 ∨ bs.length = 4 ∨ bs.length = 8 then .ok (bs.length, leNat bs) else .err

/-- Models `evaluate_option_method`, synthetic_methods.rs:292-325. -/
def optionMethod (a : Nat) (disc : Disc) (method : Str) : Conv Value :=
  (readTag a disc).bind fun (_, d) =>
  if method = chars! "is_some" then .ok (boolValue (d != 0))
  else if method = chars! "is_none" then .ok (boolValue (d == 0))
  else .err

/-- Models `evaluate_result_method`, synthetic_methods.rs:327-386. -/
def resultMethod (a : Nat) (disc : Disc) (method : Str) : Conv Value :=
  (readTag a disc).bind fun (len, d) =>
  if method = chars! "is_ok" then .ok (boolValue (resultIsOk len d))
  else if method = chars! "is_err" then .ok (boolValue (!resultIsOk len d))
  else .err

/-- Models `evaluate_slice_method` and `evaluate_str_slice_method`, synthetic_methods.rs:404-463. -/
def sliceMethod (a : Nat) (method : Str) : Conv Value :=
  if method = chars! "len" then (readUsize a 8).bind fun n => .ok (usizeValue n)
  else if method = chars! "is_empty" then (readUsize a 8).bind fun n => .ok (boolValue (n == 0))
  else .err

/-- Models `evaluate_synthetic_method`, synthetic_methods.rs:181-233. -/
def evalSynthetic (a : Nat) (t : TypeDef) (method : Str) : Conv Value :=
  match t.layout with
  | .vec lenOff _ capOff _ => vecMethod a lenOff capOff method
  | .string lenOff _ capOff _ => stringMethod a lenOff capOff method
  | .option _ disc _ _ _ => optionMethod a disc method
  | .result _ disc _ _ _ _ _ => resultMethod a disc method
  | .slice .. => sliceMethod a method
  | .strSlice .. => sliceMethod a method
  | .array _ n => lift (arrayMethod n method)
  | _ => .err

/-! ### Creating strings -/

/-- Models `create_str_slice_with_layout`, debug_info.rs:866-997. -/
def createStr (text : Str) (dataOff lenOff : Nat) : Conv Nat :=
  let bytes := utf8 text
  if dataOff > 16 ∨ lenOff > 16 then .err
  else
    (lift (addU bytes.length 16)).bind fun total =>
    (Remote.allocateMemory total).bind fun base =>
    (Remote.writeMemory base bytes).bind fun _ =>
    (lift (addU base bytes.length)).bind fun fat =>
    (lift (addU fat dataOff)).bind fun pa =>
    (Remote.writeMemory pa (le8 base)).bind fun _ =>
    (lift (addU fat lenOff)).bind fun la =>
    (Remote.writeMemory la (le8 bytes.length)).bind fun _ =>
    (readE pa 8).bind fun pb => (readE la 8).bind fun lb =>
    (lift (eightBytes pb)).bind fun p => (lift (eightBytes lb)).bind fun l =>
    if p ≠ base then .err
    else if l ≠ bytes.length then .err
    else if l > 1024 * 1024 then .err
    else (readE p l).bind fun bs => if I.lossy bs ≠ text then .err else .ok fat

/-- Models `create_owned_string_with_layout`, debug_info.rs:1000-1078. -/
def createString (text : Str) (lenOff dataOff capOff : Nat) : Conv Nat :=
  let bytes := utf8 text
  (Remote.allocateMemory bytes.length).bind fun content =>
  (Remote.writeMemory content bytes).bind fun _ =>
  (Remote.allocateMemory 24).bind fun addr =>
  (Remote.writeMemory addr (List.replicate 24 0)).bind fun _ =>
  (lift (addU addr lenOff)).bind fun la =>
  (Remote.writeMemory la (le8 bytes.length)).bind fun _ =>
  (lift (addU addr dataOff)).bind fun pa =>
  (Remote.writeMemory pa (le8 content)).bind fun _ =>
  (lift (addU addr capOff)).bind fun ca =>
  (Remote.writeMemory ca (le8 bytes.length)).bind fun _ => .ok addr

/-- Models `DebugInfo::create_typed_value`, debug_info.rs:842-863. -/
def createTyped (text : Str) (t : TypeDef) : Conv Nat :=
  match t.layout with
  | .strSlice dataOff lenOff => createStr I text dataOff lenOff
  | .string lenOff dataOff capOff _ => createString text lenOff dataOff capOff
  | _ => .err

/-! ### Variables -/

/-- expressions.rs:50-67: the loop of `get_function_frame_base`; `get_stack_pointer` is an error (evaluator.rs:63-65). -/
def frameLoop : Vars.Eval → Conv (List Vars.Loc)
  | .complete ps => .ok ps
  | .fail => .err
  | .cfa _ => .err
  | .frameBase _ => .panic
  | .register _ _ => .panic
  | .relocated _ _ => .panic
  | .other => .panic

/-- expressions.rs:38-89 `get_function_frame_base`. -/
def frameBase (fb : Option Vars.Eval) : Conv Nat :=
  match fb with
  | none => .err
  | some e =>
    (frameLoop e).bind fun ps =>
      match ps with
      | [.address a] => .ok a
      | [.register r] => Remote.getRegister r
      | [.other] => .err
      | _ => .panic

/-- expressions.rs:103-132: the loop of `resolve_data_location`. -/
def dataLoop (fb : Option Vars.Eval) (base : Nat) : Vars.Eval → Conv (List Vars.Loc)
  | .complete ps => .ok ps
  | .fail => .err
  | .frameBase k => (frameBase fb).bind fun x => dataLoop fb base (k x)
  | .register r k => (Remote.getRegister r).bind fun x => dataLoop fb base (k x)
  | .relocated a k => (lift (addU base a)).bind fun x => dataLoop fb base (k x)
  | .cfa _ => .panic
  | .other => .panic

/-- expressions.rs:91-155 `resolve_data_location`. -/
def dataLocation (fb : Option Vars.Eval) (base : Nat) (loc : Option Vars.Eval) : Conv (Option Nat) :=
  match loc with
  | none => .ok none
  | some e =>
    (dataLoop fb base e).bind fun ps =>
      match ps with
      | [.address a] => .ok (some a)
      | _ => .panic

/-- debug_info.rs:1081-1116 `variable_info`. -/
def variableInfo (f : Vars.Fn) (base : Nat) (v : Vars.Var) : Conv Vars.VarInfo :=
  (dataLocation f.frameBase base v.loc).bind fun a =>
    (lift (Vars.fullType I.vars.resolve v.ty)).bind fun ty =>
      .ok { name := v.name.getD (chars! "_"), address := a, ty := ty }

/-- debug_info.rs:279-339 `get_variable_at_pc`. -/
def getVariableAtPc (address : Nat) (name : Str) : Conv (Option Vars.VarInfo) :=
  match I.vars.lookupAddress address with
  | none => .ok none
  | some (fn, _) =>
    match I.vars.getFunction fn with
    | none => .ok none
    | some f =>
      (lift (Vars.resolveFunctionVariables I.vars.parse f.toks)).bind fun vars =>
        (lift (Res.ofOption (I.vars.baseAddress fn))).bind fun base =>
          match vars.params.find? fun v => v.name == some name with
          | some v => (variableInfo I f base v).bind fun i => .ok (some i)
          | none =>
            match vars.locals.find? fun v => v.name == some name with
            | some v => (variableInfo I f base v).bind fun i => .ok (some i)
            | none => .ok none

/-- The variable as a place, outputs.rs:49-54 `as_pointer`. -/
def place (i : Vars.VarInfo) : Option Ptr := i.address.map fun a => (a, i.ty)

end

/-! ### The evaluator -/

/-- A method of `EvalContext`: what is known of the program counter (evaluator.rs:124-127) goes in and out. Errors and panics
keep what happened before them. -/
def Ask (α : Type) : Type := Option Nat → Conv (Res α × Option Nat)

/-- A computation with its outcome as a value. -/
def capture {α : Type} : Conv α → Conv (Res α)
  | .ok a => .ok (.ok a)
  | .err => .ok .err
  | .panic => .ok .panic
  | .ask e k => .ask e fun a => capture (k a)

namespace Ask
variable {α β : Type}

/-- The `?` operator. -/
def bind (x : Ask α) (f : α → Ask β) : Ask β := fun pc =>
  Conv.bind (x pc) fun r =>
    match r.1 with
    | .ok a => f a r.2
    | .err => .ok (.err, r.2)
    | .panic => .ok (.panic, r.2)

/-- A computation that does not need the program counter. -/
def conv (c : Conv α) : Ask α := fun pc => Conv.bind (capture c) fun r => .ok (r, pc)

/-- A result that needs no event. -/
def res (r : Res α) : Ask α := fun pc => .ok (r, pc)

/-- `match x { Ok(a) => f(a), Err(_) => g }`. -/
def orElse (x : Ask α) (f : α → Ask β) (g : Ask β) : Ask β := fun pc =>
  Conv.bind (x pc) fun r =>
    match r.1 with
    | .ok a => f a r.2
    | .err => g r.2
    | .panic => .ok (.panic, r.2)

/-- What the session makes of it, with a new `EvalContext` (evaluator.rs:129-136). -/
def run (x : Ask α) : Conv α := Conv.bind (x none) fun r => Conv.ofRes r.1
end Ask

section
variable (I : Info)

/-- The same as `Eval.expandList`, evaluator.rs:195-198, 223-226. -/
def expandList (f : Value → Conv Value) : List Value → Conv (List Value)
  | [] => .ok []
  | v :: vs => (f v).bind fun x => (expandList f vs).bind fun xs => .ok (x :: xs)

/-- The same for the fields of a struct, evaluator.rs:205-211. -/
def expandFields (f : Value → Conv Value) : List (Str × Value) → Conv (List (Str × Value))
  | [] => .ok []
  | (k, v) :: vs => (f v).bind fun x => (expandFields f vs).bind fun xs => .ok ((k, x) :: xs)

/-- The same for the entries of a map, evaluator.rs:233-239. -/
def expandEntries (f : Value → Conv Value) : List (Value × Value) → Conv (List (Value × Value))
  | [] => .ok []
  | (k, v) :: vs => (f k).bind fun y => (f v).bind fun x => (expandEntries f vs).bind fun xs => .ok ((y, x) :: xs)

/-- Models `read_pointer_recursive`, evaluator.rs:184-242. -/
def expand : (depth : Nat) → Value → Conv Value
  | 0, v => .ok v
  | d + 1, v =>
    match v with
    | .pointer a t => (readMem I I.stack a t).bind fun v => expand d v
    | .scalar t v => .ok (.scalar t v)
    | .array t xs => (expandList (expand d) xs).bind fun ys => .ok (.array t ys)
    | .struct t fs => (expandFields (expand d) fs).bind fun ys => .ok (.struct t ys)
    | .tuple t xs => (expandList (expand d) xs).bind fun ys => .ok (.tuple t ys)
    | .map t es => (expandEntries (expand d) es).bind fun ys => .ok (.map t ys)

/-- Models `pointer_to_result`, evaluator.rs:173-182. -/
def pointerToResult (p : Ptr) : Ask Shown := .conv <|
  (readMem I I.stack p.1 p.2).bind fun v =>
  (expand I 8 v).bind fun v => .ok (formatValue v, p.2.displayName)

/-- Models `get_pc`, evaluator.rs:138-154. -/
def getPc : Ask Nat := fun pc =>
  match pc with
  | some p => .ok (.ok p, some p)
  | none => Conv.bind (capture Remote.getPc) fun r =>
    match r with
    | .ok p => .ok (.ok p, some p)
    | _ => .ok (.err, none)

/-- Models `evaluate_variable_to_ref`, evaluator.rs:543-553. -/
def variableRef (name : Str) : Ask Ptr :=
  getPc.bind fun pc => (Ask.conv (getVariableAtPc I pc name)).bind fun v =>
  .res (match v.map (place) with
    | some (some p) => .ok p
    | _ => .err)

/-- Models `read_integer_from_memory`, evaluator.rs:658-675. -/
def readInt : (fuel : Nat) → Ptr → Conv Nat
  | 0, _ => .panic
  | f + 1, p => (readMem I I.stack p.1 p.2).bind fun v =>
    match v with
    | .scalar t x => lift (numericValue (.scalar t x))
    | .pointer a t => readInt f (a, t)
    | _ => .err

/-- Models `read_string_from_memory`, evaluator.rs:678-690. -/
def readString : (fuel : Nat) → Ptr → Conv Str
  | 0, _ => .panic
  | f + 1, p => (readMem I I.stack p.1 p.2).bind fun v =>
    match v with
    | .scalar _ x => .ok (trimQuotes x)
    | .pointer _ _ => readString f p
    | _ => .err

/-- Models the indexing of evaluator.rs:580-602 and 696-725. -/
def indexRef (p : Ptr) (key : Ask Str) (index : Ask Nat) : Ask Ptr :=
  if isMap p.2 then
    key.bind fun k => .conv (indexMap I p.1 p.2 (.scalar (chars! "String") k))
  else index.bind fun i => .conv (indexSeq I p.1 p.2 i)

/-- Models `fallback_eval_result_to_method_arg`, evaluator.rs:1122-1152. -/
def fallbackArg (r : Shown) : Res Arg :=
  if r.2 = chars! "bool" ∧ (r.1 = chars! "true" ∨ r.1 = chars! "false") then
    .ok ⟨if r.1 = chars! "true" then chars! "1" else chars! "0", .bool, none⟩
  else if I.isFloat r.1 then
    if containsStr r.2 (chars! "f32") || containsStr r.2 (chars! "f64") then .ok ⟨r.1, .float, none⟩
    else .ok ⟨r.1, .integer, none⟩
  else .err

/-- The argument made from a string literal, evaluator.rs:1057-1082. -/
def stringArg (text : Str) (target : Option TypeDef) : Ask Arg :=
  match target with
  | none => .res .err
  | some t => (Ask.conv (createTyped I text t)).bind fun a =>
    .res (t.size.bind fun sz => .ok ⟨hexStr a, .pointer, sz⟩)

/-- Models `convert_expression_to_method_arg_typed`, evaluator.rs:1046-1119. -/
def convertArg (e : Expr) (target : Option TypeDef) (ref : Ask Ptr) (val : Ask Shown) : Ask Arg :=
  match e with
  | .num n => .res (.ok ⟨natStr n, .integer, none⟩)
  | .str s => stringArg I s target
  | .var _ | .field _ _ | .index _ _ | .method _ _ _ | .call _ _ =>
    ref.orElse (fun p => .res (refArg p)) (val.bind fun r => .res (fallbackArg I r))
  | _ => .res .err

/-- Models evaluator.rs:338-441 and 786-904. -/
def executeMethod (p : Ptr) (name : Str) (args : List TypeDef → Ask (List Arg)) : Ask (CallResult × Option TypeDef) :=
  (Ask.res (I.methods p)).bind fun ms =>
  (Ask.res (Res.ofOption (ms.find? fun m => m.name == name))).bind fun m =>
  if m.address = 0 then .res .err
  else (args m.params).bind fun as => (Ask.res (sizeOpt m.ret)).bind fun sz =>
    (Ask.conv (Remote.callMethod m.address p.1 as sz)).bind fun r => .res (.ok (r, m.ret))

/-- Models evaluator.rs:452-535 and 915-1041. -/
def executeFunction (name : Str) (n : Nat) (args : List TypeDef → Ask (List Arg)) : Ask (CallResult × Option TypeDef) :=
  (Ask.res (I.functions name)).bind fun fs =>
  (Ask.res (Res.ofOption fs.head?)).bind fun f =>
  if f.address = 0 then .res .err
  else if n ≠ f.params.length then .res .err
  else (args f.params).bind fun as => (Ask.res (sizeOpt f.ret)).bind fun sz =>
    (Ask.conv (Remote.callFunction f.address as sz)).bind fun r => .res (.ok (r, f.ret))

/-- The result of a call for display, evaluator.rs:871-901 and 1008-1037. -/
def callShown (r : CallResult × Option TypeDef) : Ask Shown :=
  match r with
  | (.simple v t, _) => .res (.ok (natStr v, t))
  | (.complex a _ _, some t) => pointerToResult I (a, t)
  | (.complex a _ _, none) =>
    .res (.ok (chars! "<complex value at " ++ hexStr a ++ chars! ">", chars! "unknown"))

/-- Models `evaluate_method_call`, evaluator.rs:728-776, on the evaluated base. -/
def methodShown (p : Ptr) (name : Str) (n : Nat) (args : List TypeDef → Ask (List Arg)) : Ask Shown :=
  if (syntheticMethods p.2.layout).contains name then
    if n ≠ 0 then .res .err
    else .conv ((evalSynthetic p.1 p.2 name).bind fun v => .ok (formatValue v, syntheticType v))
  else (executeMethod I p name args).bind (callShown I)

/-- Models `evaluate_method_call_to_ref`, evaluator.rs:316-443, on the evaluated base. -/
def methodRef (p : Ptr) (name : Str) (args : List TypeDef → Ask (List Arg)) : Ask Ptr :=
  if (syntheticMethods p.2.layout).contains name then .res .err
  else (executeMethod I p name args).bind fun r => .res (callRef r)

mutual
/-- Models `evaluate_to_ref`, evaluator.rs:284-313, with `evaluate_field_access_to_ref` (561-571),
`evaluate_index_to_ref` (573-602) and `evaluate_function_call_to_ref` (446-535). -/
def toRef : Expr → Ask Ptr
  | .var n => variableRef I n
  | .field b f => (toRef b).bind fun p => .res (getStructField p.1 p.2 f)
  | .index b i => (toRef b).bind fun p => indexRef I p (toStr i) (toInt i)
  | .method b m as => (toRef b).bind fun p => methodRef I p m (convertArgs as)
  | .call f as => (executeFunction I f as.length (convertArgs as)).bind fun r => .res (callRef r)
  | _ => .res .err
/-- Models `evaluate_to_int`, evaluator.rs:605-623. -/
def toInt : Expr → Ask Nat
  | .num n => .res (.ok n)
  | .var n => (variableRef I n).bind fun p => .conv (readInt I I.stack p)
  | .field b f => (toRef b).bind fun p => (Ask.res (getStructField p.1 p.2 f)).bind fun p =>
    .conv (readInt I I.stack p)
  | .index b i => (toRef b).bind fun p => (indexRef I p (toStr i) (toInt i)).bind fun p =>
    .conv (readInt I I.stack p)
  | .paren e => toInt e
  | _ => .res .err
/-- Models `evaluate_to_string`, evaluator.rs:626-645. -/
def toStr : Expr → Ask Str
  | .str s => .res (.ok s)
  | .var n => (variableRef I n).bind fun p => .conv (readString I I.stack p)
  | .field b f => (toRef b).bind fun p => (Ask.res (getStructField p.1 p.2 f)).bind fun p =>
    .conv (readString I I.stack p)
  | .index b i => (toRef b).bind fun p => (indexRef I p (toStr i) (toInt i)).bind fun p =>
    .conv (readString I I.stack p)
  | .paren e => toStr e
  | _ => .res .err
/-- Models `evaluate`, evaluator.rs:245-281, with `evaluate_variable` (537-541),
`evaluate_field_access` (555-559), `evaluate_index` (692-725) and `evaluate_function_call` (909-1043). -/
def evaluate : Expr → Ask Shown
  | .var n => (variableRef I n).bind (pointerToResult I)
  | .field b f => (toRef b).bind fun p => (Ask.res (getStructField p.1 p.2 f)).bind (pointerToResult I)
  | .index b i => (toRef b).bind fun p => (indexRef I p (toStr i) (toInt i)).bind (pointerToResult I)
  | .num n => .res (.ok (natStr n, chars! "u64"))
  | .str s => .res (.ok (quoted s, chars! "String"))
  | .paren e => evaluate e
  | .method b m as => (toRef b).bind fun p => methodShown I p m as.length (convertArgs as)
  | .call f as => (executeFunction I f as.length (convertArgs as)).bind (callShown I)
  | _ => .res .err
/-- Models the argument loops, evaluator.rs:360-395, 481-487, 808-850, 948-986. -/
def convertArgs : List Expr → List TypeDef → Ask (List Arg)
  | [], _ => .res (.ok [])
  | e :: es, ts => (convertArg I e ts.head? (toRef e) (evaluate e)).bind fun a =>
    (convertArgs es ts.tail).bind fun as => .res (.ok (a :: as))
end

end
end Rudy.Ask
