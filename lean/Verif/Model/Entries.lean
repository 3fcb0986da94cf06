import Verif.Model.Modules
import Verif.Model.Parser
import Verif.Model.TypeNames
/-
Model of how single entries of a debug file and their children are read: crates/rudy-dwarf/src/die/mod.rs:115-142 `children`
and die/mod.rs:277-310 `with_entry`, on top of gimli's `UnitHeader::entry` and `EntriesTree` (external contracts).
The bytes of the units are the sequences of items of `Model/Walker.lean`.
-/
namespace Rudy.Entries
open Rudy.Walker Rudy.Dwarf Rudy.Parse Rudy.Layout Rudy.Modules Rudy.TypeNames

/-- gimli's `UnitHeader::entries_at_offset`: reading starts at the entry with the offset. Simplification: an offset at which no
entry starts (gimli decodes whatever is there) has nothing to read. -/
def fromEntry (o : Nat) : List (Tok Die) → Option (List (Tok Die))
  | [] => none
  | .entry d k s :: ts => if d.off = o then some (.entry d k s :: ts) else fromEntry o ts
  | .null :: ts => fromEntry o ts
  | .bad :: ts => fromEntry o ts

/-- The items of the unit an entry is in, from the entry on. In the code an entry carries its unit (die/mod.rs:26-31); here it is found
by the offset of the entry in the file. -/
def readFrom (units : List (List (Tok Die))) (o : Nat) : Option (List (Tok Die)) := units.findSome? (fromEntry o)

/-- gimli's `EntriesTree::next(1)` after the first child: jump over the current entry by its sibling attribute or by counting the depth, and
go on to the next item at depth 1; `true` if that is an entry. The bound is the number of items left (each step reads one). -/
def treeLoop : Nat → Cursor Die → Int → Res (Cursor Die × Bool)
  | 0, _, _ => .err
  | n + 1, c, depth =>
    let (rest, depth) : List (Tok Die) × Int :=
      match c.cur with
      | some (_, _, some k) => (c.rest.drop k, depth)
      | some (_, true, none) => (c.rest, depth + 1)
      | some (_, false, none) => (c.rest, depth)
      | none => (c.rest, depth - 1)
    match rest with
    | [] => .ok ({ rest := [], cur := none }, false)
    | .bad :: _ => .err
    | .null :: ts => if depth = 1 then .ok ({ rest := ts, cur := none }, false) else treeLoop n { rest := ts, cur := none } depth
    | .entry d k s :: ts =>
      if depth = 1 then .ok ({ rest := ts, cur := some (d, k, s) }, true) else treeLoop n { rest := ts, cur := some (d, k, s) } depth

/-- die/mod.rs:130-141: the loop over the children, from the one the tree stands on. -/
def childLoop : Nat → Cursor Die → Res (List Nat)
  | 0, _ => .err
  | n + 1, c =>
    match c.cur with
    | none => .ok []
    | some (d, _, _) =>
      (treeLoop (c.rest.length + 1) c 1).bind fun r =>
        if r.2 then (childLoop n r.1).bind fun ds => .ok (d.off :: ds) else .ok [d.off]

/-- die/mod.rs:115-142 `children`, with `EntriesTree::root` and the first step of its `next`. -/
def childrenAt : List (Tok Die) → Res (List Nat)
  | .entry _ true _ :: ts =>
    match ts with
    | [] => .ok []
    | .bad :: _ => .err
    | .null :: _ => .ok []
    | .entry d k s :: r => childLoop ts.length { rest := r, cur := some (d, k, s) }
  | .entry _ false _ :: _ => .ok []
  | _ => .err

/-- The entries of a file as the parsers see them: die/mod.rs:115-142 `children`, 277-310 `with_entry`. -/
def fileDb (units : List (List (Tok Die))) : Db where
  entry := fun o =>
    match readFrom units o with
    | some (.entry d _ _ :: _) => some d
    | _ => none
  children := fun o =>
    match readFrom units o with
    | some ts => childrenAt ts
    | none => .err

/-- types/index.rs:13-38 `get_die_typename` for the entries of a file, with its module index (modules.rs:236-255). -/
def fileTypedef (lib : Lib) (units : List (List (Tok Die))) (e : Nat) : Res (Option Layout) :=
  (moduleIndex units).bind fun ix => dieTypedef lib ix (fileDb units) e

end Rudy.Entries
