import Verif.Model.Remap
/-
Model of how debug files are opened and remembered: crates/rudy-dwarf/src/file/mod.rs (`File::build`, `load`) and
rudy-db/src/database.rs (`load_binary`, `get_sync_ref`).

`File` is a salsa input: every `File::build` makes a new one, whatever was built before. `load` is a salsa query: its
result for a file is computed when it is first asked for, by whichever session, and kept for ever after. All sessions
of a server share one store (database.rs:133-138); a query runs once even if two threads ask at the same time, so
histories are sequences. Simplification: a loaded file is its contents at that time (it is mapped into memory, so it
does change if the file is overwritten in place rather than replaced).
-/
namespace Rudy.Cache
open Rudy Rudy.Remap

variable {C D : Type}

/-- What happens, in order: the contents of a file on disk change (`none`: it is gone), a file is built, a file is
loaded. -/
inductive Op (C : Type) where
  | change (path : Path) (contents : Option C)
  | build (path : Path) (member : Option Str)
  | load (file : Nat)

/-- The disk, the files built (by number), and what has been loaded. -/
structure State (C D : Type) where
  disk : Path → Option C
  files : List (Path × Option Str)
  memo : List (Nat × Option D)

/-- What an operation returns: the number of the file built (`none`: an error), or what was loaded (`none`: an
error). -/
inductive Out (D : Type) where
  | nothing
  | file (number : Option Nat)
  | loaded (result : Option D)

/-- The parameters: the source map, and how the contents of a file (a member of an archive, or the file itself) are read
as an object file with debug information (`object`, `loader::load`). -/
structure Env (C D : Type) where
  maps : List (Path × Path)
  read : Option Str → C → Option D

/-- Models `File::build`, file/mod.rs:70-87. The times and sizes recorded are not used anywhere. -/
def build (E : Env C D) (s : State C D) (p : Path) (m : Option Str) : Out D × State C D :=
  match s.disk (remapPath E.maps p) with
  | some _ => (.file (some s.files.length), { s with files := s.files ++ [(remapPath E.maps p, m)] })
  | none => (.file none, s)

/-- What `load`, file/mod.rs:150-201, computes for a file. -/
def compute (E : Env C D) (s : State C D) (f : Nat) : Option D :=
  match s.files[f]? with
  | some (p, m) => (s.disk (remapPath E.maps p)).bind (E.read m)
  | none => none

/-- Models the query `load`, file/mod.rs:150-201. -/
def load (E : Env C D) (s : State C D) (f : Nat) : Out D × State C D :=
  match s.memo.lookup f with
  | some r => (.loaded r, s)
  | none => (.loaded (compute E s f), { s with memo := (f, compute E s f) :: s.memo })

/-- One operation. -/
def step (E : Env C D) (s : State C D) : Op C → Out D × State C D
  | .change p c => (.nothing, { s with disk := fun q => if q = p then c else s.disk q })
  | .build p m => build E s p m
  | .load f => load E s f

/-- The state after a history. -/
def run (E : Env C D) (s : State C D) : List (Op C) → State C D
  | [] => s
  | o :: os => run E (step E s o).2 os

/-- A new store. -/
def fresh (disk : Path → Option C) : State C D := ⟨disk, [], []⟩

/-- What the operation returns after a history on a new store. -/
def answer (E : Env C D) (disk : Path → Option C) (h : List (Op C)) (o : Op C) : Out D := (step E (run E (fresh disk) h) o).1

end Rudy.Cache
