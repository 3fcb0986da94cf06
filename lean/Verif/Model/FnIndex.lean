import Verif.Model.Die
import Verif.Model.Resolve
/-
Model of the per-file function index: crates/rudy-dwarf/src/function/index.rs and the default
`visit_cu` of crates/rudy-dwarf/src/visitor.rs.
-/
namespace Rudy.FnIndex
open Rudy.Walker Rudy.Dwarf Rudy.Address Rudy.Resolve

/-- parser/primitives.rs:417-419 `rust_cu`: a missing language attribute, or one that is not a
language code, is an error (unlike die/cu.rs:30-51 `is_rust_cu`). -/
def rustCu (d : Die) : Res Bool :=
  match d.attr .language with
  | some (.lang b) => .ok b
  | _ => .err

/-- A linked symbol (symbols/mod.rs `Symbol`): its name (interned, a number) and address. -/
structure Sym where
  name : Nat
  address : Nat
deriving DecidableEq, Repr

/-- function/index.rs:22-36 `FunctionData` (`specification_die` is always `None`,
`alternate_locations` always empty). -/
structure Entry where
  die : Die
  range : Option (Nat × Nat)
deriving DecidableEq, Repr

/-- function/index.rs:77-81 `FunctionIndexBuilder`. The `BTreeMap` is only looked up by name: it is a
partial function. -/
structure Builder where
  functions : Nat → Option Entry := fun _ => none
  byAddress : List FnInfo := []

/-- `BTreeMap::insert`. -/
def put (m : Nat → Option Entry) (n : Nat) (e : Entry) : Nat → Option Entry :=
  fun k => if k = n then some e else m k

/-- function/index.rs:113-198 `visit_function`. -/
def visitFunction (syms : Str → Option Sym) (file : Nat) (relocatable : Bool) (b : Builder) (d : Die) :
    Builder × Act :=
  match d.stringAttrOpt .linkageName with
  | .ok none => (b, .skip)
  | .ok (some l) =>
    match syms (if relocatable then '_' :: l else l) with
    | none => (b, .skip)
    | some s =>
      match d.range with
      | none => ({ b with functions := put b.functions s.name { die := d, range := none } }, .skip)
      | some r =>
        match registerFn s.address r file s.name with
        | .ok f =>
          ({ functions := put b.functions s.name { die := d, range := some r },
             byAddress := b.byAddress ++ [f] }, .skip)
        | _ => (b, .panic)
  | _ => (b, .fail)

/-- function/index.rs:96-110 `visit_die`: only namespaces and structures are entered. -/
def visitor (syms : Str → Option Sym) (file : Nat) (relocatable : Bool) : Visitor Builder Die where
  enter b d :=
    match d.tag with
    | .subprogram => visitFunction syms file relocatable b d
    | .namespace | .structureType => (b, .walk)
    | _ => (b, .skip)
  leave b _ _ := b

/-- visitor.rs:296-301: the default `visit_cu`. -/
def cuVisitor : Visitor Builder Die where
  enter b d :=
    match rustCu d with
    | .ok true => (b, .walk)
    | .ok false => (b, .skip)
    | _ => (b, .fail)
  leave b _ _ := b

/-- function/index.rs:201-233 `function_index`: an error ends the walk and what was found is kept; a
panic propagates. The address tree is `AddressTree::new` of `byAddress` (`Address.Built`). -/
def functionIndex (syms : Str → Option Sym) (file : Nat) (relocatable : Bool)
    (units : List (List (Tok Die))) : Res Builder :=
  match walkFile (fun d => decide (d.tag = .compileUnit)) cuVisitor (visitor syms file relocatable) {} units with
  | (_, .panic) => .panic
  | (b, _) => .ok b

end Rudy.FnIndex
