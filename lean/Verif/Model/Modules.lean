import Verif.Model.Die
/-
Model of `crates/rudy-dwarf/src/modules.rs`: the index from debug-info offsets and module paths to
namespaces.
-/
namespace Rudy.Modules
open Rudy.Walker Rudy.Dwarf

/-- modules.rs:54-61 `ModuleRange`. -/
structure ModuleRange where
  path : List Str
  die : Die
  start : Nat
  stop : Nat
deriving DecidableEq, Repr

/-- modules.rs:9-13 `Module`. Simplification: the `BTreeMap` of submodules is an association list in
insertion order (only looked up by key). -/
inductive Module where
  | mk (modules : List (Str × Module)) (entries : List Die)

/-- modules.rs:10. -/
def Module.modules : Module → List (Str × Module)
  | .mk ms _ => ms

/-- modules.rs:12. -/
def Module.entries : Module → List Die
  | .mk _ es => es

/-- `Module::default()`. -/
def Module.empty : Module := .mk [] []

/-- modules.rs:185-193: walk or create the path (`entry(segment).or_default()`), then push the entry
(and nothing else changes). `put` is the update of one association list. -/
def putWith (f : Module → Module) (s : Str) : List (Str × Module) → List (Str × Module)
  | [] => [(s, f .empty)]
  | (k, m) :: ms => if k = s then (k, f m) :: ms else (k, m) :: putWith f s ms

/-- modules.rs:185-193. -/
def Module.push : List Str → Die → Module → Module
  | [], d, m => .mk m.modules (m.entries ++ [d])
  | s :: path, d, m => .mk (putWith (Module.push path d) s m.modules) m.entries

/-- modules.rs:42-50 `find_by_path`. -/
def Module.find : List Str → Module → Option Module
  | [], m => some m
  | s :: path, m =>
    match m.modules.find? (·.1 == s) with
    | some (_, sub) => sub.find path
    | none => none

/-- modules.rs:83-90 `ModuleRangeBuilder`. -/
structure Builder where
  ranges : List ModuleRange := []
  modules : Module := .empty
  lastSeen : Nat := 0
  /-- (path segment, die, start offset), outermost first. -/
  stack : List (Str × Die × Nat) := []

/-- modules.rs:112-118, 157-163, 201-207: the path of the stack without its first element. -/
def pathOf (stack : List (Str × Die × Nat)) : List Str := (stack.drop 1).map (·.1)

/-- modules.rs:93-129 `visit_cu`: reset, walk the unit if it is Rust, close the last range at the end
of the unit. -/
def cuVisitor : Visitor Builder Die where
  enter b d :=
    if d.isRustCu then ({ b with stack := [([], d, d.off)], lastSeen := d.off }, .walk)
    else (b, .skip)
  leave b d _ :=
    { b with
      ranges := b.ranges ++
        [{ path := pathOf b.stack, die := d, start := b.lastSeen, stop := d.off + d.unitLength }] }

/-- modules.rs:131-229 `visit_die` and `visit_namespace`: everything but namespaces is skipped;
entering a namespace closes the range before it, leaving it closes its own range at the next entry.
A namespace without a readable name panics (modules.rs:146-148). -/
def visitor : Visitor Builder Die where
  enter b d :=
    if d.tag = .namespace then
      match d.stringAttrOpt .name with
      | .ok (some nm) =>
        let b : Builder :=
          match b.stack.getLast? with
          | some (_, last, _) =>
            if b.lastSeen < d.off then
              { b with
                lastSeen := d.off
                ranges := b.ranges ++
                  [{ path := pathOf b.stack, die := last, start := b.lastSeen, stop := d.off }] }
            else b
          | none => b
        let b : Builder := { b with stack := b.stack ++ [(nm, d, d.off)] }
        ({ b with modules := b.modules.push (pathOf b.stack) d }, .walk)
      | _ => (b, .panic)
    else (b, .skip)
  leave b d next :=
    match next with
    | none => b
    | some e =>
      match b.stack.getLast? with
      | none => b
      | some (seg, _, _) =>
        let b' : Builder := { b with stack := b.stack.dropLast }
        if b.lastSeen < e.off then
          { b' with
            lastSeen := e.off
            ranges := b.ranges ++
              [{ path := pathOf b'.stack ++ [seg], die := d, start := b.lastSeen, stop := e.off }] }
        else b'

/-- modules.rs:16-21 `ModuleIndex`. -/
structure ModuleIndex where
  byOffset : List ModuleRange
  byName : Module

/-- modules.rs:232-252 `module_index`: walk all units (an error ends the walk but keeps what was
found, a panic propagates), sort the ranges by start offset (stable). -/
def moduleIndex (units : List (List (Tok Die))) : Res ModuleIndex :=
  match walkFile (fun d => decide (d.tag = .compileUnit)) cuVisitor visitor {} units with
  | (_, .panic) => .panic
  | (b, _) =>
    .ok { byOffset := b.ranges.mergeSort (fun a b => decide (a.start ≤ b.start)), byName := b.modules }

/-- modules.rs:25-40 `find_by_offset`. `partition_point` on the sorted ranges is the length of the
prefix satisfying the predicate. -/
def ModuleIndex.findByOffset (ix : ModuleIndex) (offset : Nat) : Option ModuleRange :=
  let pos := (ix.byOffset.takeWhile fun r => decide (r.start ≤ offset)).length
  (ix.byOffset.take pos).reverse.find? fun r => decide (r.start ≤ offset) && decide (offset < r.stop)

/-- modules.rs:42-50 `find_by_path`. -/
def ModuleIndex.findByPath (ix : ModuleIndex) (path : List Str) : Option Module := ix.byName.find path

/-- modules.rs:254-260 `get_containing_module`. -/
def ModuleIndex.containing (ix : ModuleIndex) (d : Die) : Option (List Str) :=
  (ix.findByOffset d.off).map (·.path)

end Rudy.Modules
