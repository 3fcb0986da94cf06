import Verif.Model.Die
import Verif.Model.Layout
/-
Model of variable lookup: crates/rudy-dwarf/src/function/variables.rs,
crates/rudy-dwarf/src/expressions.rs and the variable queries of rudy-db/src/debug_info.rs.
-/
namespace Rudy.Vars
open Rudy.Walker Rudy.Dwarf
open Rudy.Layout (TypeDef)

/-- `gimli::Location`, the kinds the code tells apart. -/
inductive Loc where
  | address (a : Nat)
  | register (r : Nat)
  /-- a value, implicit value, implicit pointer, or empty (optimised out) location -/
  | other
deriving DecidableEq, Repr

/-- The evaluation of a DWARF expression as gimli's `Evaluation` presents it to its caller: it either
completes with pieces, fails, or asks for something and goes on with the answer (contract-level model
of gimli; `other` is any request the code does not handle: memory, TLS, entry values, ...). -/
inductive Eval where
  | complete (pieces : List Loc)
  | fail
  | frameBase (k : Nat → Eval)
  | register (r : Nat) (k : Nat → Eval)
  | relocated (a : Nat) (k : Nat → Eval)
  | cfa (k : Nat → Eval)
  | other

/-- expressions.rs:33-36 `ExpressionContext`. -/
structure Ctx where
  reg : Nat → Res Nat
  sp : Res Nat

/-- expressions.rs:50-67: the loop of `get_function_frame_base`. Unhandled requests are `todo!()`. -/
def frameLoop (c : Ctx) : Eval → Res (List Loc)
  | .complete ps => .ok ps
  | .fail => .err
  | .cfa k =>
    match c.sp with
    | .ok sp => frameLoop c (k sp)
    | .err => .err
    | .panic => .panic
  | .frameBase _ => .panic
  | .register _ _ => .panic
  | .relocated _ _ => .panic
  | .other => .panic

/-- expressions.rs:38-89 `get_function_frame_base`. `none` is a missing or non-expression
`DW_AT_frame_base`. The `debug_assert_eq!` on one piece panics. -/
def frameBase (c : Ctx) (fb : Option Eval) : Res Nat :=
  match fb with
  | none => .err
  | some e =>
    (frameLoop c e).bind fun ps =>
      match ps with
      | [.address a] => .ok a
      | [.register r] => c.reg r
      | [.other] => .err
      | _ => .panic

/-- expressions.rs:103-132: the loop of `resolve_data_location`. -/
def dataLoop (c : Ctx) (fb : Option Eval) (base : Nat) : Eval → Res (List Loc)
  | .complete ps => .ok ps
  | .fail => .err
  | .frameBase k =>
    match frameBase c fb with
    | .ok x => dataLoop c fb base (k x)
    | .err => .err
    | .panic => .panic
  | .register r k =>
    match c.reg r with
    | .ok x => dataLoop c fb base (k x)
    | .err => .err
    | .panic => .panic
  | .relocated a k =>
    match addU base a with
    | .ok x => dataLoop c fb base (k x)
    | .err => .err
    | .panic => .panic
  | .cfa _ => .panic
  | .other => .panic

/-- expressions.rs:91-155 `resolve_data_location`. `none` is a missing or non-expression
`DW_AT_location` (lines 96-98). -/
def dataLocation (c : Ctx) (fb : Option Eval) (base : Nat) (loc : Option Eval) : Res (Option Nat) :=
  match loc with
  | none => .ok none
  | some e =>
    (dataLoop c fb base e).bind fun ps =>
      match ps with
      | [.address a] => .ok (some a)
      | _ => .panic

/-- function/variables.rs:20-27 `Variable`. `die` is the entry (`origin`), `line` the line of the
declaration if there is one, `loc` its location attribute, `ty` its type. -/
structure Var where
  die : Die
  name : Option Str
  line : Option Nat
  loc : Option Eval
  ty : TypeDef

/-- function/variables.rs:46-50 `ResolvedVariables`, also the state of `VariableVisitor`. -/
structure Resolved where
  params : List Var := []
  locals : List Var := []

/-- visitor.rs:303-341: the tags whose children the default `visit_die` visits (as far as
`VariableVisitor` does not override them). -/
def descends (d : Die) : Bool :=
  match d.tag with
  | .namespace | .subprogram | .structureType | .enumerationType | .baseType | .pointerType
  | .arrayType | .lexicalBlock | .unionType => true
  | _ => false

/-- function/variables.rs:66-73 and 83-91: one variable or parameter. One that does not parse is logged and
dropped; a panic ends everything (`.panic` as state). -/
def collect (parse : Die → Res Var) (add : Resolved → Var → Resolved) (s : Res Resolved) (d : Die) : Res Resolved :=
  s.bind fun r =>
    match parse d with
    | .ok v => .ok (add r v)
    | .err => .ok r
    | .panic => .panic

/-- function/variables.rs:57-93 `VariableVisitor`. `parse` is `variable()` (lines 126-133): an error when
the type or position cannot be resolved. -/
def visitor (parse : Die → Res Var) : Visitor (Res Resolved) Die where
  enter s d :=
    match d.tag with
    | .variable => (collect parse (fun r v => { r with locals := r.locals ++ [v] }) s d, .skip)
    | .formalParameter => (collect parse (fun r v => { r with params := r.params ++ [v] }) s d, .skip)
    | _ => (s, if descends d then .walk else .skip)
  leave s _ _ := s

/-- function/variables.rs:97-124 `resolve_function_variables`. -/
def resolveFunctionVariables (parse : Die → Res Var) (toks : List (Tok Die)) : Res Resolved :=
  match walkDie (visitor parse) (.ok {}) toks with
  | (.panic, _) => .panic
  | (s, .ok) => s
  | (_, .err) => .err
  | (_, .panic) => .panic
  | (_, .unfinished) => .err

/-- rudy-db `VariableInfo` (debug_info.rs). -/
structure VarInfo where
  name : Str
  address : Option Nat
  ty : TypeDef

/-- A function as the variable queries see it: the entries below its declaration (as the walker reads
them), its frame base attribute. -/
structure Fn where
  toks : List (Tok Die)
  frameBase : Option Eval

/-- What the queries consult: address lookup (query.rs:59-74), the function index, the symbol index'
base address, the variable parser, `resolve_type_offset`, and the process. -/
structure World where
  lookupAddress : Nat → Option (Nat × Nat)
  getFunction : Nat → Option Fn
  baseAddress : Nat → Option Nat
  parse : Die → Res Var
  resolve : Nat → Res TypeDef
  ctx : Ctx

/-- debug_info.rs:1101-1107: a type known by name only is resolved by the entry the name was found at. (Types of variables have an entry, so
the second case does not occur.) -/
def fullType (resolve : Nat → Res TypeDef) : TypeDef → Res TypeDef
  | .mk loc l =>
    match l with
    | .alias _ =>
      match loc with
      | some e => resolve e
      | none => .err
    | _ => .ok (.mk loc l)

/-- debug_info.rs:1081-1116 `variable_info`. -/
def variableInfo (W : World) (f : Fn) (base : Nat) (v : Var) : Res VarInfo :=
  (dataLocation W.ctx f.frameBase base v.loc).bind fun a =>
    (fullType W.resolve v.ty).bind fun ty =>
      .ok { name := v.name.getD (chars! "_"), address := a, ty := ty }

/-- debug_info.rs:279-339 `get_variable_at_pc`. -/
def getVariableAtPc (W : World) (address : Nat) (name : Str) : Res (Option VarInfo) :=
  match W.lookupAddress address with
  | none => .ok none
  | some (fn, _) =>
    match W.getFunction fn with
    | none => .ok none
    | some f =>
      (resolveFunctionVariables W.parse f.toks).bind fun vars =>
        (Res.ofOption (W.baseAddress fn)).bind fun base =>
          match vars.params.find? fun v => v.name == some name with
          | some v => (variableInfo W f base v).bind fun i => .ok (some i)
          | none =>
            match vars.locals.find? fun v => v.name == some name with
            | some v => (variableInfo W f base v).bind fun i => .ok (some i)
            | none => .ok none

/-- `.map(variable_info).collect::<Result<Vec<_>>>()` (debug_info.rs:402-406, 418-419). -/
def infos (W : World) (f : Fn) (base : Nat) : List Var → Res (List VarInfo)
  | [] => .ok []
  | v :: vs =>
    (variableInfo W f base v).bind fun i => (infos W f base vs).bind fun is => .ok (i :: is)

/-- debug_info.rs:411-417: the filter on locals. -/
def definedAt (line : Nat) (v : Var) : Bool :=
  match v.line with
  | some l => decide (l < line)
  | none => false

/-- debug_info.rs:372-425 `get_all_variables_at_pc`; globals are always empty. -/
def getAllVariablesAtPc (W : World) (address : Nat) : Res (List VarInfo × List VarInfo) :=
  match W.lookupAddress address with
  | none => .ok ([], [])
  | some (fn, line) =>
    match W.getFunction fn with
    | none => .ok ([], [])
    | some f =>
      (resolveFunctionVariables W.parse f.toks).bind fun vars =>
        (Res.ofOption (W.baseAddress fn)).bind fun base =>
          (infos W f base vars.params).bind fun ps =>
            (infos W f base (vars.locals.filter fun v => definedAt line v)).bind fun ls => .ok (ps, ls)

end Rudy.Vars
