import Verif.Model.Resolve
import Verif.Model.TypeRes
import Verif.Model.Variables
/-
Model of how one variable is read: crates/rudy-dwarf/src/function/variables.rs:126-133 `variable` and
crates/rudy-dwarf/src/die/mod.rs:308-346 `position`.
-/
namespace Rudy.Declared
open Rudy.Dwarf Rudy.Parse Rudy.Layout Rudy.TypeRes Rudy.Resolve
open Rudy.Remap (Path)

/-- What `position` reads of a unit: its line program, if it has one, and the path of the unit's own source file
(file number 0 before DWARF 5; `some none`: it cannot be converted to a path). -/
structure UnitFiles where
  lines : Option LineProgram
  own : Option (Option Path)

/-- gimli's `LineProgramHeader::file(index)` (external contract) with `file_entry_to_path` (die/utils.rs:84-133). -/
def UnitFiles.file (u : UnitFiles) (lp : LineProgram) (i : Nat) : Option (Option Path) :=
  if lp.version ≥ 5 then lp.files[i]? else if i = 0 then u.own else lp.files[i - 1]?

/-- die/mod.rs:308-346 `position`. -/
def position (u : UnitFiles) : Parser (Option Location) := fun db e =>
  match getAttr .declFile db e with
  | .ok v =>
    match udataAttr .declLine db e with
    | .ok line =>
      match v with
      | .file i =>
        match u.lines with
        | none => .err
        | some lp =>
          match u.file lp i with
          | some (some p) => .ok (some { file := p, line := line, column := none })
          | _ => .err
      | _ => .err
    | _ => .ok none
  | _ => .ok none

/-- function/variables.rs:126-133 `variable`. -/
def «variable» (sh : Sh) (u : UnitFiles) : Parser (Option Str × TypeDef × Option Location) :=
  both (filterP (stringAttr .name)) (both (andThen entryType (fun _ t => sh t)) (position u))

/-- What the queries keep of a variable (function/variables.rs:20-27). `u` tells the unit an entry is in (die/mod.rs:313), `loc` is the location attribute of the entry, which is read later
from the entry kept as `origin` (expressions.rs:96). -/
def variableOf (sh : Sh) (u : Die → UnitFiles) (db : Db) (loc : Die → Option Vars.Eval) (d : Die) : Res Vars.Var :=
  («variable» sh (u d) db d.off).bind fun (n, t, p) =>
    .ok { die := d, name := n, line := p.map (·.line), loc := loc d, ty := t }

end Rudy.Declared
