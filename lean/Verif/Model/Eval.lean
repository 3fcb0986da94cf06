import Verif.Model.Server
import Verif.Model.Index
/-
Model of the expression evaluator: rudy-lldb/src/evaluator.rs.

The debugged process has a state; its memory is read in that state (reading does not change it), while
executing a call and creating a value may change it.  The calls the evaluator asks the debugger to
execute are recorded, because a call has effects: they are part of what a user observes.  Messages and
log output are dropped.  As in `Model/Memory.lean` a fuel argument stands for the stack of the recursive
readers; the recursion of the evaluator over the expression itself is structural and its stack is not
modelled.
-/
namespace Rudy.Eval
open Rudy Rudy.Expr Rudy.Data Rudy.Layout Rudy.Server

/-- A `TypedPointer` (rudy-db/src/outputs.rs:57-64): address and type. -/
abbrev Ptr := Nat × TypeDef

/-- What the evaluator uses of a `DiscoveredMethod` or `DiscoveredFunction`
(rudy-db/src/function_discovery.rs). -/
structure Callee where
  name : Str
  address : Nat
  params : List TypeDef
  ret : Option TypeDef

/-- What the evaluator needs from rudy-db and from the debugger; `σ` is the state of the debugged
process. Any implementation.
* `target` is the memory as rudy-db reads it (`RemoteDataAccess::read_memory`, evaluator.rs:51-60);
* `frame` is the answer of `GetFrameInfo` (`none`: any other answer);
* `variableAt` is `get_variable_at_pc` with `as_pointer` of the variable found;
* `methods`, `functions` are `discover_methods_for_pointer`, `discover_functions`;
* `execute` is the debugger's answer to `ExecuteMethod`/`ExecuteFunction` (`none`: an error or an answer
  of the wrong kind, evaluator.rs:439-441, 902-904);
* `remote` is used by `create_typed_value`;
* `isFloat s` is `s.parse::<f64>().is_ok()`; `stack` is the fuel of the readers. -/
structure World (σ : Type) where
  target : σ → Target
  frame : σ → Option Nat
  variableAt : σ → Nat → Str → Res (Option (Option Ptr))
  methods : Ptr → Res (List Callee)
  functions : Str → Res (List Callee)
  execute : Event → σ → Option CallResult × σ
  remote : Remote σ
  isFloat : Str → Bool
  stack : Nat

/-- The state of an evaluation: `EvalContext::pc` (evaluator.rs:124-127), the calls executed so far, the
process. -/
structure St (σ : Type) where
  pc : Option Nat
  calls : List Event
  proc : σ

/-- An evaluation: errors and panics keep the effects made before them. -/
def Ev (σ α : Type) : Type := St σ → Res α × St σ

namespace Ev
variable {σ α β : Type}

/-- The `?` operator. -/
def bind (x : Ev σ α) (f : α → Ev σ β) : Ev σ β := fun s =>
  match x s with
  | (.ok a, s') => f a s'
  | (.err, s') => (.err, s')
  | (.panic, s') => (.panic, s')

/-- A result that does not depend on the process. -/
def lift (r : Res α) : Ev σ α := fun s => (r, s)

/-- A result computed by reading the process. -/
def reading (f : σ → Res α) : Ev σ α := fun s => (f s.proc, s)

/-- `match x { Ok(a) => f(a), Err(_) => g }`: the effects of `x` stay. -/
def orElse (x : Ev σ α) (f : α → Ev σ β) (g : Ev σ β) : Ev σ β := fun s =>
  match x s with
  | (.ok a, s') => f a s'
  | (.err, s') => g s'
  | (.panic, s') => (.panic, s')
end Ev

/-! ### Showing values -/

/-- `iter().map(..).collect::<Result<Vec<_>, _>>()`, evaluator.rs:195-198, 223-226. -/
def expandList (f : Value → Res Value) : List Value → Res (List Value)
  | [] => .ok []
  | v :: vs => (f v).bind fun x => (expandList f vs).bind fun xs => .ok (x :: xs)

/-- The same for the fields of a struct, evaluator.rs:205-211. -/
def expandFields (f : Value → Res Value) : List (Str × Value) → Res (List (Str × Value))
  | [] => .ok []
  | (k, v) :: vs => (f v).bind fun x => (expandFields f vs).bind fun xs => .ok ((k, x) :: xs)

/-- The same for the entries of a map, evaluator.rs:233-239. -/
def expandEntries (f : Value → Res Value) : List (Value × Value) → Res (List (Value × Value))
  | [] => .ok []
  | (k, v) :: vs => (f k).bind fun y => (f v).bind fun x => (expandEntries f vs).bind fun xs => .ok ((y, x) :: xs)

/-- Models `read_pointer_recursive`, evaluator.rs:184-242, on the memory `T`. The `BTreeMap` built at
211-217 has the keys of the map it is built from. -/
def expand (T : Target) (stack : Nat) : (depth : Nat) → Value → Res Value
  | 0, v => .ok v
  | d + 1, v =>
    match v with
    | .pointer a t => (readMem T stack a t).bind fun v => expand T stack d v
    | .scalar t v => .ok (.scalar t v)
    | .array t xs => (expandList (expand T stack d) xs).bind fun ys => .ok (.array t ys)
    | .struct t fs => (expandFields (expand T stack d) fs).bind fun ys => .ok (.struct t ys)
    | .tuple t xs => (expandList (expand T stack d) xs).bind fun ys => .ok (.tuple t ys)
    | .map t es => (expandEntries (expand T stack d) es).bind fun ys => .ok (.map t ys)

/-- `str::lines` (standard library): the pieces between line feeds, without a last empty piece; a
carriage return before a line feed is dropped too. -/
def linesOf : Str → List Str
  | [] => []
  | c :: cs =>
    if c = '\n' then [] :: linesOf cs
    else match linesOf cs with
      | [] => [[c]]
      | l :: ls => if c = '\r' ∧ cs.head? = some '\n' then [] :: ls else (c :: l) :: ls

/-- Models `indent` at level 1 (the only one used), evaluator.rs:1182-1188. -/
def indent (s : Str) : Str := joinWith (chars! "\n") ((linesOf s).map fun l => chars! "  " ++ l)

mutual
/-- Models `format_value`, evaluator.rs:1191-1228. -/
def formatValue : Value → Str
  | .scalar _ v => v
  | .array _ xs =>
    if xs.length ≤ 10 then chars! "[\n" ++ indent (joinWith (chars! ",\n") (formatList xs)) ++ chars! "\n]"
    else chars! "[" ++ natStr xs.length ++ chars! " items]"
  | .struct t fs => t ++ chars! " {\n" ++ indent (joinWith (chars! ",\n") (formatFields fs)) ++ chars! "\n}"
  | .map _ es =>
    if es.length ≤ 10 then chars! "{\n" ++ indent (joinWith (chars! ",\n") (formatEntries es)) ++ chars! "\n}"
    else chars! "{ " ++ natStr es.length ++ chars! " entries }"
  | .tuple t xs => t ++ chars! " (\n" ++ indent (joinWith (chars! ",\n") (formatList xs)) ++ chars! "\n)"
  | .pointer a t => chars! "<" ++ t.displayName ++ chars! " @ " ++ hexStr a ++ chars! ">"
/-- `iter().map(format_value)`. -/
def formatList : List Value → List Str
  | [] => []
  | v :: vs => formatValue v :: formatList vs
/-- evaluator.rs:1203-1206. -/
def formatFields : List (Str × Value) → List Str
  | [] => []
  | (k, v) :: vs => (k ++ chars! ": " ++ formatValue v) :: formatFields vs
/-- evaluator.rs:1211-1214. -/
def formatEntries : List (Value × Value) → List Str
  | [] => []
  | (k, v) :: vs => (formatValue k ++ chars! ": " ++ formatValue v) :: formatEntries vs
end

/-- Models `EvalResult`, evaluator.rs:1155-1163: the value and the type, as shown. -/
abbrev Shown := Str × Str

section
variable {σ : Type} (W : World σ)

/-- Models `pointer_to_result`, evaluator.rs:173-182. -/
def pointerToResult (p : Ptr) : Ev σ Shown := .reading fun s =>
  (readMem (W.target s) W.stack p.1 p.2).bind fun v =>
  (expand (W.target s) W.stack 8 v).bind fun v => .ok (formatValue v, p.2.displayName)

/-- Models `get_pc`, evaluator.rs:138-154. -/
def getPc : Ev σ Nat := fun s =>
  match s.pc with
  | some pc => (.ok pc, s)
  | none => match W.frame s.proc with
    | some pc => (.ok pc, { s with pc := some pc })
    | none => (.err, s)

/-- Models `evaluate_variable_to_ref`, evaluator.rs:543-553. -/
def variableRef (name : Str) : Ev σ Ptr :=
  (getPc W).bind fun pc => (Ev.reading fun s => W.variableAt s pc name).bind fun v =>
  .lift (match v with
    | some (some p) => .ok p
    | _ => .err)

/-- Models `read_integer_from_memory`, evaluator.rs:658-675; `numericValue` is the same parsing
(660-671, debug_info.rs:1146-1161). -/
def readInt (T : Target) (stack : Nat) : (fuel : Nat) → Ptr → Res Nat
  | 0, _ => .panic
  | f + 1, p => (readMem T stack p.1 p.2).bind fun v =>
    match v with
    | .scalar t x => numericValue (.scalar t x)
    | .pointer a t => readInt T stack f (a, t)
    | _ => .err

/-- Models `read_string_from_memory`, evaluator.rs:678-690: for a pointer it calls itself with the same
argument. -/
def readString (T : Target) (stack : Nat) : (fuel : Nat) → Ptr → Res Str
  | 0, _ => .panic
  | f + 1, p => (readMem T stack p.1 p.2).bind fun v =>
    match v with
    | .scalar _ x => .ok (trimQuotes x)
    | .pointer _ _ => readString T stack f p
    | _ => .err

/-- Models `supports_string_indexing`, evaluator.rs:648-655. -/
def isMap (t : TypeDef) : Bool :=
  match t.layout with
  | .map .. => true
  | _ => false

/-- Models the indexing of evaluator.rs:580-602 and 696-725: by key for a map, by number otherwise.
`key` and `index` evaluate the index expression to a string and to a number. -/
def indexRef (p : Ptr) (key : Ev σ Str) (index : Ev σ Nat) : Ev σ Ptr :=
  if isMap p.2 then
    key.bind fun k => .reading fun s => indexMap (W.target s) W.stack p.1 p.2 (.scalar (chars! "String") k)
  else index.bind fun i => .reading fun s => indexSeq (W.target s) W.stack p.1 p.2 i

/-- `a.contains(b)` on strings (standard library). -/
def containsStr : (a b : Str) → Bool
  | [], b => b.isEmpty
  | c :: a, b => b.isPrefixOf (c :: a) || containsStr a b

/-- Models `fallback_eval_result_to_method_arg`, evaluator.rs:1122-1152. -/
def fallbackArg (r : Shown) : Res Arg :=
  if r.2 = chars! "bool" ∧ (r.1 = chars! "true" ∨ r.1 = chars! "false") then
    .ok ⟨if r.1 = chars! "true" then chars! "1" else chars! "0", .bool, none⟩
  else if W.isFloat r.1 then
    if containsStr r.2 (chars! "f32") || containsStr r.2 (chars! "f64") then .ok ⟨r.1, .float, none⟩
    else .ok ⟨r.1, .integer, none⟩
  else .err

/-- `layout.size()` of an optional type (`Layout::size`, a panic for layouts it does not support). -/
def sizeOpt : Option TypeDef → Res (Option Nat)
  | none => .ok none
  | some t => t.size

/-- The argument made from a reference, evaluator.rs:1099-1105. -/
def refArg (p : Ptr) : Res Arg := p.2.size.bind fun sz => .ok ⟨hexStr p.1, .pointer, sz⟩

/-- The argument made from a string literal, evaluator.rs:1057-1082. -/
def stringArg (text : Str) (target : Option TypeDef) : Ev σ Arg := fun s =>
  match target with
  | none => (.err, s)
  | some t => match createTyped W.remote text t s.proc with
    | (.ok a, p) => (t.size.bind fun sz => .ok ⟨hexStr a, .pointer, sz⟩, { s with proc := p })
    | (.err, p) => (.err, { s with proc := p })
    | (.panic, p) => (.panic, { s with proc := p })

/-- Models `convert_expression_to_method_arg_typed`, evaluator.rs:1046-1119; `ref` and `val` are
`evaluate_to_ref` and `evaluate` of the argument. -/
def convertArg (e : Expr) (target : Option TypeDef) (ref : Ev σ Ptr) (val : Ev σ Shown) : Ev σ Arg :=
  match e with
  | .num n => .lift (.ok ⟨natStr n, .integer, none⟩)
  | .str s => stringArg W s target
  | .var _ | .field _ _ | .index _ _ | .method _ _ _ | .call _ _ =>
    ref.orElse (fun p => .lift (refArg p)) (val.bind fun r => .lift (fallbackArg W r))
  | _ => .lift .err

/-- Sends an execution to the debugger (`send_event_request`) and records it. -/
def execute (e : Event) : Ev σ CallResult := fun s =>
  match W.execute e s.proc with
  | (some r, p) => (.ok r, { s with calls := s.calls ++ [e], proc := p })
  | (none, p) => (.err, { s with calls := s.calls ++ [e], proc := p })

/-- Models evaluator.rs:338-441 and 786-904: finds the method, converts the arguments (`args` converts
them for given parameter types), has it executed. -/
def executeMethod (p : Ptr) (name : Str) (args : List TypeDef → Ev σ (List Arg)) :
    Ev σ (CallResult × Option TypeDef) :=
  (Ev.lift (W.methods p)).bind fun ms =>
  (Ev.lift (Res.ofOption (ms.find? fun m => m.name == name))).bind fun m =>
  if m.address = 0 then .lift .err
  else (args m.params).bind fun as => (Ev.lift (sizeOpt m.ret)).bind fun sz =>
    (execute W (.executeMethod m.address p.1 as sz)).bind fun r => .lift (.ok (r, m.ret))

/-- Models evaluator.rs:452-535 and 915-1041: the first function found, with as many parameters as there
are arguments (`n`). -/
def executeFunction (name : Str) (n : Nat) (args : List TypeDef → Ev σ (List Arg)) :
    Ev σ (CallResult × Option TypeDef) :=
  (Ev.lift (W.functions name)).bind fun fs =>
  (Ev.lift (Res.ofOption fs.head?)).bind fun f =>
  if f.address = 0 then .lift .err
  else if n ≠ f.params.length then .lift .err
  else (args f.params).bind fun as => (Ev.lift (sizeOpt f.ret)).bind fun sz =>
    (execute W (.executeFunction f.address as sz)).bind fun r => .lift (.ok (r, f.ret))

/-- The result of a call as a reference, evaluator.rs:413-437 and 506-531. -/
def callRef (r : CallResult × Option TypeDef) : Res Ptr :=
  match r with
  | (.complex a _ _, some t) => .ok (a, t)
  | _ => .err

/-- The result of a call for display, evaluator.rs:871-901 and 1008-1037. -/
def callShown (r : CallResult × Option TypeDef) : Ev σ Shown :=
  match r with
  | (.simple v t, _) => .lift (.ok (natStr v, t))
  | (.complex a _ _, some t) => pointerToResult W (a, t)
  | (.complex a _ _, none) =>
    .lift (.ok (chars! "<complex value at " ++ hexStr a ++ chars! ">", chars! "unknown"))

/-- The type shown for the value of a synthetic method, evaluator.rs:764-770. -/
def syntheticType : Value → Str
  | .scalar t _ => t
  | .pointer _ t => t.displayName
  | _ => chars! "unknown"

/-- Models `evaluate_method_call`, evaluator.rs:728-776, on the evaluated base. -/
def methodShown (p : Ptr) (name : Str) (n : Nat) (args : List TypeDef → Ev σ (List Arg)) : Ev σ Shown :=
  if (syntheticMethods p.2.layout).contains name then
    if n ≠ 0 then .lift .err
    else .reading fun s => (evalSynthetic (W.target s) p.1 p.2 name).bind fun v =>
      .ok (formatValue v, syntheticType v)
  else (executeMethod W p name args).bind (callShown W)

/-- Models `evaluate_method_call_to_ref`, evaluator.rs:316-443, on the evaluated base. -/
def methodRef (p : Ptr) (name : Str) (args : List TypeDef → Ev σ (List Arg)) : Ev σ Ptr :=
  if (syntheticMethods p.2.layout).contains name then .lift .err
  else (executeMethod W p name args).bind fun r => .lift (callRef r)

mutual
/-- Models `evaluate_to_ref`, evaluator.rs:284-313, with `evaluate_field_access_to_ref` (561-571),
`evaluate_index_to_ref` (573-602) and `evaluate_function_call_to_ref` (446-535). -/
def toRef : Expr → Ev σ Ptr
  | .var n => variableRef W n
  | .field b f => (toRef b).bind fun p => .lift (getStructField p.1 p.2 f)
  | .index b i => (toRef b).bind fun p => indexRef W p (toStr i) (toInt i)
  | .method b m as => (toRef b).bind fun p => methodRef W p m (convertArgs as)
  | .call f as => (executeFunction W f as.length (convertArgs as)).bind fun r => .lift (callRef r)
  | _ => .lift .err
/-- Models `evaluate_to_int`, evaluator.rs:605-623. -/
def toInt : Expr → Ev σ Nat
  | .num n => .lift (.ok n)
  | .var n => (variableRef W n).bind fun p => .reading fun s => readInt (W.target s) W.stack W.stack p
  | .field b f => (toRef b).bind fun p => (Ev.lift (getStructField p.1 p.2 f)).bind fun p =>
    .reading fun s => readInt (W.target s) W.stack W.stack p
  | .index b i => (toRef b).bind fun p => (indexRef W p (toStr i) (toInt i)).bind fun p =>
    .reading fun s => readInt (W.target s) W.stack W.stack p
  | .paren e => toInt e
  | _ => .lift .err
/-- Models `evaluate_to_string`, evaluator.rs:626-645. -/
def toStr : Expr → Ev σ Str
  | .str s => .lift (.ok s)
  | .var n => (variableRef W n).bind fun p => .reading fun s => readString (W.target s) W.stack W.stack p
  | .field b f => (toRef b).bind fun p => (Ev.lift (getStructField p.1 p.2 f)).bind fun p =>
    .reading fun s => readString (W.target s) W.stack W.stack p
  | .index b i => (toRef b).bind fun p => (indexRef W p (toStr i) (toInt i)).bind fun p =>
    .reading fun s => readString (W.target s) W.stack W.stack p
  | .paren e => toStr e
  | _ => .lift .err
/-- Models `evaluate`, evaluator.rs:245-281, with `evaluate_variable` (537-541),
`evaluate_field_access` (555-559), `evaluate_index` (692-725) and `evaluate_function_call` (909-1043). -/
def evaluate : Expr → Ev σ Shown
  | .var n => (variableRef W n).bind (pointerToResult W)
  | .field b f => (toRef b).bind fun p => (Ev.lift (getStructField p.1 p.2 f)).bind (pointerToResult W)
  | .index b i => (toRef b).bind fun p => (indexRef W p (toStr i) (toInt i)).bind (pointerToResult W)
  | .num n => .lift (.ok (natStr n, chars! "u64"))
  | .str s => .lift (.ok (quoted s, chars! "String"))
  | .paren e => evaluate e
  | .method b m as => (toRef b).bind fun p => methodShown W p m as.length (convertArgs as)
  | .call f as => (executeFunction W f as.length (convertArgs as)).bind (callShown W)
  | _ => .lift .err
/-- Models the argument loops, evaluator.rs:360-395, 481-487, 808-850, 948-986: in order, each with the
type of its parameter if there is one. -/
def convertArgs : List Expr → List TypeDef → Ev σ (List Arg)
  | [], _ => .lift (.ok [])
  | e :: es, ts => (convertArg W e ts.head? (toRef e) (evaluate e)).bind fun a =>
    (convertArgs es ts.tail).bind fun as => .lift (.ok (a :: as))
end

/-- A new `EvalContext` (evaluator.rs:129-136). -/
def St.new {σ : Type} (p : σ) : St σ := ⟨none, [], p⟩

end

end Rudy.Eval
