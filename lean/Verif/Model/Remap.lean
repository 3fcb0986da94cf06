import Verif.Model.Basic
/-
Model of source path remapping: crates/rudy-dwarf/src/lib.rs:35-59, its uses when a file is opened
(crates/rudy-dwarf/src/file/mod.rs:66-90, 149-158) and when the path of a source file is computed
(crates/rudy-dwarf/src/die/utils.rs:88-133).
-/
namespace Rudy.Remap

/-- `std::path::Component` on Unix. -/
inductive Comp where
  | root | cur | parent
  | normal (s : Str)
deriving DecidableEq, Repr

/-- `std::path::PathBuf` up to the equality of `Path` (its components): `/a//b/` and `/a/b` are equal
paths. -/
abbrev Path := List Comp

/-- Splitting at slashes. -/
def split : Str → List Str
  | [] => [[]]
  | c :: cs =>
    if c = '/' then [] :: split cs
    else match split cs with
      | s :: ss => (c :: s) :: ss
      | [] => [[c]]

/-- One segment of a path inside `Components` (empty segments and `.` vanish). -/
def comp : Str → Option Comp
  | [] => none
  | ['.'] => none
  | ['.', '.'] => some .parent
  | s => some (.normal s)

/-- `Path::components` (Unix): `.` only counts at the very beginning. -/
def components (s : Str) : Path :=
  match s with
  | '/' :: _ => .root :: (split s).filterMap comp
  | _ =>
    match split s with
    | ['.'] :: ss => .cur :: ss.filterMap comp
    | ss => ss.filterMap comp

/-- `Path::strip_prefix`: by components. -/
def stripPrefix (p source : Path) : Option Path :=
  if source.isPrefixOf p then some (p.drop source.length) else none

/-- `Path::join`: an absolute second path replaces the first; a leading `.` only stays if the first
path is empty. -/
def join (t q : Path) : Path :=
  match q with
  | .root :: _ => q
  | .cur :: r => if t = [] then q else t ++ r
  | _ => t ++ q

/-- lib.rs:38-55 `remap_path`. -/
def remapPath (maps : List (Path × Path)) (p : Path) : Path :=
  maps.foldl (fun p m =>
    if m.1 = m.2 then p
    else match stripPrefix p m.1 with
      | some rest => join m.2 rest
      | none => p) p

/-- file/mod.rs:70-87 `File::build`: `opens p` says whether a file can be opened and its metadata
read. The result is the path the file is known under. -/
def build (maps : List (Path × Path)) (opens : Path → Bool) (p : Path) : Option Path :=
  if opens (remapPath maps p) then some (remapPath maps p) else none

/-- file/mod.rs:149-157: `load` opens the known path, remapped (again). -/
def loadPath (maps : List (Path × Path)) (known : Path) : Path := remapPath maps known

/-- die/utils.rs:108-128: the text of the path of an entry of the file table: its directory (if
there is one and it is readable), the compilation directory of the unit, its name. -/
def entryText (compDir dir : Option Str) (name : Str) : Str :=
  match dir with
  | none => name
  | some d =>
    if ['/'].isPrefixOf d then d ++ '/' :: name
    else (compDir.getD ['/']) ++ '/' :: d ++ '/' :: name

/-- die/utils.rs:85-133 `file_entry_to_path`, for an entry whose name is readable. -/
def fileEntryToPath (maps : List (Path × Path)) (compDir dir : Option Str) (name : Str) : Path :=
  remapPath maps (components (entryText compDir dir name))

end Rudy.Remap
