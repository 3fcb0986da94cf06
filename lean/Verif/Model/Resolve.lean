import Verif.Model.Address
import Verif.Model.Symbols
import Verif.Model.Remap
/-
Model of address <-> source location resolution:
crates/rudy-dwarf/src/address/resolution.rs, crates/rudy-dwarf/src/function/index.rs,
crates/rudy-dwarf/src/die/utils.rs (to_range), rudy-db/src/query.rs, rudy-db/src/index.rs.
-/
namespace Rudy.Resolve
open Rudy Rudy.Address
open Rudy.Remap (Path)

/-- A line-table row as returned by gimli's `next_row` (external), with the accessors used in
resolution.rs:32-57 and 153-164. -/
structure Row where
  endSeq : Bool
  address : Nat
  fileIndex : Nat
  line : Option Nat
  column : Option Nat
deriving DecidableEq, Repr

/-- Result of one `rows.next_row()` call that is not the end: a row or a decode error. -/
inductive RowItem where
  | row (r : Row)
  | bad
deriving DecidableEq, Repr

/-- A line program: DWARF version, the header's file table with each entry already converted by
`file_entry_to_path` (die/utils.rs:84-133; `none` = conversion failed), and its rows. -/
structure LineProgram where
  version : Nat
  files : List (Option Path)
  rows : List RowItem
deriving Repr

/-- gimli's `LineProgramHeader::file(index)` as used through `row.file(header)` at
resolution.rs:48 (external contract): 0-based from DWARF 5 on, 1-based before. Simplification: for
DWARF < 5 and index 0 gimli may return the unit's primary file; we treat it as absent. -/
def LineProgram.fileAt (lp : LineProgram) (i : Nat) : Option (Option Path) :=
  if lp.version ≥ 5 then lp.files[i]? else if i = 0 then none else lp.files[i - 1]?

/-- A resolved source location (`SourceLocation`). -/
structure Location where
  file : Path
  line : Nat
  column : Option Nat
deriving DecidableEq, Repr

/-- Row loop of `address_to_location`, resolution.rs:30-63. -/
def addressToLocationRows (lp : LineProgram) (rel : Nat) : List RowItem → Option Location
  | [] => none
  | .bad :: _ => none                                        -- 31: `.ok()?`
  | .row r :: rest =>
    if r.endSeq then addressToLocationRows lp rel rest       -- 32-34
    else if r.address = rel then
      match r.line with
      | none => addressToLocationRows lp rel rest            -- 39-42
      | some line =>
        match lp.fileAt r.fileIndex with
        | none => addressToLocationRows lp rel rest          -- 53-56
        | some none => none                                  -- 50: `?`
        | some (some path) => some ⟨path, line, r.column⟩    -- 59
    else addressToLocationRows lp rel rest

/-- Models `address_to_location`, resolution.rs:16-64; the unit's line program may be missing. -/
def addressToLocation (lp : Option LineProgram) (rel : Nat) : Option Location :=
  match lp with
  | none => none
  | some lp => addressToLocationRows lp rel lp.rows

/-- The search for the target file in the header, resolution.rs:114-135: 1-based position of the
first entry with that path, whatever the DWARF version. -/
def targetFileIdx (files : List (Option Path)) (file : Path) : Option Nat :=
  (files.findIdx? (fun f => decide (f = some file))).map (· + 1)

/-- State of the search: closest address so far and its distance, resolution.rs:81-83. -/
structure Best where
  addr : Option Nat := none
  dist : Nat := u64Max1 - 1

/-- Result of scanning: keep going, or return immediately (resolution.rs:205). -/
inductive Scan where
  | go (b : Best)
  | done (addr : Nat)

/-- One row of `location_to_address`, resolution.rs:152-211. The function table query is the model
of `query_address(address, false)`. -/
def rowStep (tree : AddressTree) (idx target : Nat) (b : Best) (r : Row) : Res Scan :=
  if r.endSeq then .ok (.go b)
  else if r.fileIndex = idx then
    match r.line with
    | none => .ok (.go b)
    | some line =>
      if line < target then .ok (.go b)                      -- checked_sub is None
      else
        let diff := line - target
        if b.addr.isNone || decide (diff < b.dist) then
          match tree.queryAddress r.address false with
          | [] => .ok (.go b)
          | f :: _ => do
            let s ← addU f.absStart r.address
            let a ← subU s f.relStart
            if diff = 0 then pure (.done a) else pure (.go ⟨some a, diff⟩)
        else .ok (.go b)
  else .ok (.go b)

/-- Row loop, resolution.rs:150-218: decode errors are skipped. -/
def rowLoop (tree : AddressTree) (idx target : Nat) : List RowItem → Best → Res Scan
  | [], b => .ok (.go b)
  | .bad :: rest, b => rowLoop tree idx target rest b
  | .row r :: rest, b =>
    match rowStep tree idx target b r with
    | .ok (.go b') => rowLoop tree idx target rest b'
    | other => other

/-- Unit loop, resolution.rs:91-219. A unit whose file list does not contain the file is skipped
(92-99); its file list is computed from its line program (die/navigation.rs:95-108), so a unit
without line program is always skipped there. -/
def unitLoop (tree : AddressTree) (file : Path) (target : Nat) :
    List (Option LineProgram) → Best → Res Scan
  | [], b => .ok (.go b)
  | none :: rest, b => unitLoop tree file target rest b
  | some lp :: rest, b =>
    if lp.files.contains (some file) then
      match targetFileIdx lp.files file with
      | none => unitLoop tree file target rest b
      | some idx =>
        match rowLoop tree idx target lp.rows b with
        | .ok (.go b') => unitLoop tree file target rest b'
        | other => other
    else unitLoop tree file target rest b

/-- Models `location_to_address`, resolution.rs:69-221: `(absolute address, line distance)`. -/
def locationToAddress (tree : AddressTree) (units : List (Option LineProgram)) (file : Path)
    (target : Nat) : Res (Option (Nat × Nat)) :=
  match unitLoop tree file target units {} with
  | .ok (.done a) => .ok (some (a, 0))
  | .ok (.go b) => .ok (b.addr.map (fun a => (a, b.dist)))
  | .err => .err
  | .panic => .panic

/-- One iteration of the loop of `to_range`, crates/rudy-dwarf/src/die/utils.rs:138-145. -/
def rangeStep (acc : Option Nat × Option Nat) (r : Nat × Nat) : Option Nat × Option Nat :=
  ((match acc.1 with
    | none => some r.1
    | some lo => if r.1 < lo then some r.1 else some lo),
   (match acc.2 with
    | none => some r.2
    | some hi => if r.2 > hi then some r.2 else some hi))

/-- Models `to_range`, crates/rudy-dwarf/src/die/utils.rs:135-148 (decode errors not modelled). -/
def toRange (ranges : List (Nat × Nat)) : Option (Nat × Nat) :=
  match ranges.foldl rangeStep (none, none) with
  | (some lo, some hi) => some (lo, hi)
  | _ => none

/-- The address entry registered by `visit_function`, crates/rudy-dwarf/src/function/index.rs:166-174:
`absolute_end = symbol.address + relative_end - relative_start`. -/
def registerFn (symAddr : Nat) (range : Nat × Nat) (file name : Nat) : Res FnInfo := do
  let s ← addU symAddr range.2
  let e ← subU s range.1
  pure { absStart := symAddr, absEnd := e, relStart := range.1, relEnd := range.2, file, name }

/-- The runtime-to-debug-file shift of `address_to_locations`, function/index.rs:59. -/
def toRelative (f : FnInfo) (address : Nat) : Res Nat := do
  let d ← subU address f.absStart
  addU f.relStart d

/-- The debug-file-to-runtime shift, resolution.rs:188 and 197. -/
def toAbsolute (f : FnInfo) (rel : Nat) : Res Nat := do
  let s ← addU f.absStart rel
  subU s f.relStart

/-- Per-debug-file function index: the address tree and, by name, the unit of the function's
declaration (function/index.rs:40-45; entries found by name at line 61). -/
structure FnIndex where
  tree : AddressTree
  unitOf : Nat → Option (Option LineProgram)

/-- Models `address_to_locations`, function/index.rs:48-66 (filter_map over the query result). -/
def addressToLocationsList (ix : FnIndex) (address : Nat) :
    List FnInfo → Res (List (Nat × Location))
  | [] => .ok []
  | f :: rest => do
    let rel ← toRelative f address
    let rest' ← addressToLocationsList ix address rest
    match ix.unitOf f.name with
    | none => pure rest'
    | some unit =>
      match addressToLocation unit rel with
      | none => pure rest'
      | some loc => pure ((f.name, loc) :: rest')

/-- Models `address_to_locations`, function/index.rs:48-66. -/
def addressToLocations (ix : FnIndex) (address : Nat) : Res (List (Nat × Location)) :=
  addressToLocationsList ix address (ix.tree.queryAddress address true)

/-- Models the loop of `lookup_position`, rudy-db/src/query.rs:23-54, over the answers
`location_to_address` gives for each debug file in order (`none`: no function index or no match). -/
def lookupPositionLoop : List (Option (Nat × Nat)) → Option Nat → Nat → Option Nat
  | [], closest, _ => closest
  | none :: rest, closest, line => lookupPositionLoop rest closest line
  | some (addr, distance) :: rest, closest, line =>
    let (closest, line) := if distance < line then (some addr, distance) else (closest, line)
    if distance = 0 then closest else lookupPositionLoop rest closest line

/-- Models `lookup_position`, query.rs:11-55. -/
def lookupPosition (answers : List (Option (Nat × Nat))) : Option Nat :=
  lookupPositionLoop answers none (u64Max1 - 1)

/-- Models `lookup_address`, query.rs:59-74: `results.pop()`. -/
def lookupAddress (results : List (Nat × Location)) : Option (Nat × Location) := results.getLast?

/-- itertools `unique`, used at rudy-db/src/index.rs:221: keeps first occurrences. -/
def uniqueL : List Nat → List Nat → List Nat
  | [], _ => []
  | x :: xs, seen => if seen.contains x then uniqueL xs seen else x :: uniqueL xs (x :: seen)

/-- The flat_map of `find_all_by_address`, rudy-db/src/index.rs:222-234. -/
def gather (files : Nat → Option FnIndex) (address : Nat) : List Nat → Res (List (Nat × Location))
  | [] => .ok []
  | df :: rest => do
    let here ← (match files df with
      | none => (.ok [] : Res (List (Nat × Location)))
      | some ix => addressToLocations ix address)
    let more ← gather files address rest
    pure (here ++ more)

/-- Models `find_all_by_address`, rudy-db/src/index.rs:195-235. `files` is
`index.function_index(db, debug_file)`. -/
def findAllByAddress (sym : Symbols.SymbolIndex) (files : Nat → Option FnIndex) (address : Nat) :
    Res (List (Nat × Location)) :=
  match sym.functionAtAddress address with
  | none => .ok []
  | some (_, syms) => gather files address (uniqueL (syms.map (·.debugFile)) [])

end Rudy.Resolve
