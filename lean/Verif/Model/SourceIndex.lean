import Verif.Model.Resolve
/-
Model of how a binary is indexed and of the queries by source position, by address and by name:
crates/rudy-dwarf/src/symbols/mod.rs (index_symbol_map), crates/rudy-dwarf/src/file/index.rs,
crates/rudy-dwarf/src/die/navigation.rs, rudy-db/src/index.rs (debug_index), rudy-db/src/query.rs and
rudy-db/src/debug_info.rs.

Reading ELF/Mach-O and DWARF (crates object and gimli) is not modelled: a binary is given by what these
crates report about it.  The salsa database is modelled as plain function calls (tracked functions are
pure); salsa ids of debug files are numbers: 0 is the binary, `i + 1` the i-th mapped object.
-/
namespace Rudy.SourceIndex
open Rudy Rudy.Address Rudy.Resolve Rudy.Symbols
open Rudy.Remap (Path Comp remapPath components)

/-! ### Paths -/

/-- The declaration order of `std::path::Component` (Unix): `RootDir`, `CurDir`, `ParentDir`, `Normal`. -/
def rank : Comp → Nat
  | .root => 0
  | .cur => 1
  | .parent => 2
  | .normal _ => 3

/-- The text inside `Normal`. -/
def text : Comp → Str
  | .normal s => s
  | _ => []

/-- Derived `Ord for Component`. -/
def cmpComp (a b : Comp) : Ordering := (compare (rank a) (rank b)).then (compare (text a) (text b))

/-- `Ord for Path`: component by component. -/
def cmpPath : Path → Path → Ordering := List.compareLex cmpComp

/-- `Path::ends_with`: by components. -/
def endsWith (p q : Path) : Bool := q.isSuffixOf p

/-- `Path::starts_with`: by components. -/
def startsWith (p q : Path) : Bool := q.isPrefixOf p

/-! ### The symbol map -/

/-- What crate object reports about an entry of `object_map().objects()`: `none` is text that is not
UTF-8 (symbols/mod.rs:62-79). -/
structure MappedObject where
  path : Option Path
  member : Option (Option Str)

/-- What crate object reports about a binary. `mapped` is `object_map().symbols()` with the object each
belongs to. -/
structure BinaryFile where
  path : Path
  hasDebug : Bool
  symbols : List RawEntry
  objects : List MappedObject
  mapped : List (Nat × RawEntry)

/-- Order of the keys of `DebugFiles`, symbols/mod.rs:25 (derived for tuples and `Option`: `None` first). -/
def cmpKey (a b : Path × Option Str) : Ordering := (cmpPath a.1 b.1).then (compare a.2 b.2)

/-- Body of the loop over the mapped objects, symbols/mod.rs:61-96: the key and the debug file of the
object, or nothing. `opens` says which paths can be opened (`File::build`, file/mod.rs:66-90). -/
def objectFile (maps : List (Path × Path)) (opens : Path → Bool) (i : Nat) (o : MappedObject) :
    Option ((Path × Option Str) × Nat) :=
  match o.path, o.member with
  | some p, some m =>
    match Remap.build maps opens p with
    | some known => some ((known, m), i + 1)
    | none => none
  | _, _ => none

/-- symbols/mod.rs:59-97: `indexed_object_files`. -/
def objectFiles (maps : List (Path × Path)) (opens : Path → Bool) (b : BinaryFile) :
    List (Option ((Path × Option Str) × Nat)) :=
  b.objects.mapIdx (objectFile maps opens)

/-- symbols/mod.rs:94: the object is added to `debug_files`. -/
def addFile (m : OMap (Path × Option Str) Nat) : Option ((Path × Option Str) × Nat) → OMap (Path × Option Str) Nat
  | some (k, i) => m.insert cmpKey k i
  | none => m

/-- symbols/mod.rs:47-48 and 94: `debug_files`. -/
def debugFilesOf (maps : List (Path × Path)) (opens : Path → Bool) (b : BinaryFile) :
    OMap (Path × Option Str) Nat :=
  (objectFiles maps opens b).foldl addFile ((⟨[]⟩ : OMap (Path × Option Str) Nat).insert cmpKey (b.path, none) 0)

/-- One group of mapped symbols, symbols/mod.rs:104-113. `indexed_object_files[object_index]` panics when
the index is out of bounds. -/
def groupOp (files : List (Option ((Path × Option Str) × Nat))) (b : BinaryFile) (g : Nat) :
    Res (List IndexOp) :=
  match files[g]? with
  | none => .panic
  | some none => .ok []
  | some (some (_, i)) => .ok [.mapped ((b.mapped.filter (fun s => s.1 == g)).map (·.2)) i]

/-- The loop over the groups, in some order. -/
def groupOps (files : List (Option ((Path × Option Str) × Nat))) (b : BinaryFile) : List Nat → Res (List IndexOp)
  | [] => .ok []
  | g :: gs => (groupOp files b g).bind fun x => (groupOps files b gs).bind fun xs => .ok (x ++ xs)

/-- The operations on the symbol index, symbols/mod.rs:51-55 and 99-113. `order` is the iteration order of
the hash map of groups: a list of the objects that have symbols, each once. -/
def symbolOps (maps : List (Path × Path)) (opens : Path → Bool) (b : BinaryFile) (order : List Nat) :
    Res (List IndexOp) :=
  (groupOps (objectFiles maps opens b) b order).bind fun gs =>
    .ok ((if b.hasDebug then [.binary b.symbols 0] else []) ++ gs)

/-- Models `index_symbol_map`, symbols/mod.rs:31-116, for a binary that can be loaded. -/
def indexSymbolMap (maps : List (Path × Path)) (opens : Path → Bool) (b : BinaryFile) (order : List Nat) :
    Res (OMap (Path × Option Str) Nat × SymbolIndex) :=
  (symbolOps maps opens b order).bind fun ops => .ok (debugFilesOf maps opens b, buildIndex ops)

/-- The possible iteration orders of `grouped_symbols`. -/
def GroupOrder (b : BinaryFile) (order : List Nat) : Prop :=
  order.Nodup ∧ ∀ g, g ∈ order ↔ ∃ s ∈ b.mapped, s.1 = g

/-! ### The debug index -/

/-- What the queries see of a compilation unit: whether its root entry can be read, whether it is a Rust
unit (die/cu.rs:30-51), its address range (`unit_ranges` and `to_range`, die/utils.rs:135-148; `none`: no
range or an error), its line program. -/
structure SrcUnit where
  readable : Bool
  rust : Bool
  range : Option (Nat × Nat)
  lines : Option LineProgram

/-- The sources of one unit, file/index.rs:51-64. -/
def unitSources (u : SrcUnit) : List Path :=
  if u.readable && u.rust then
    match u.lines with
    | some lp => lp.files.filterMap id
    | none => []
  else []

/-- Models `index_debug_file_sources`, file/index.rs:15-67, second component (the set of sources). -/
def fileSources (us : List SrcUnit) : OMap Path Unit :=
  (us.flatMap unitSources).foldl (fun m p => m.insert cmpPath p ()) ⟨[]⟩

/-- The lines of the units of `parse_roots`, die/navigation.rs:55-114: units without a range are left
out. -/
def rootLines (us : List SrcUnit) : List (Option LineProgram) :=
  (us.filter (·.range.isSome)).map (·.lines)

/-- rudy-db/src/index.rs:120-126: the debug file is added under each of its sources. -/
def addSources (m : OMap Path (List Nat)) (df : Nat) (sources : OMap Path Unit) : OMap Path (List Nat) :=
  sources.entries.foldl (fun m e => m.upsert cmpPath e.1 [] (· ++ [df])) m

/-- rudy-db/src/index.rs:130-133: some source is local. -/
def isLocal (root : Path) (sources : OMap Path Unit) : Bool :=
  sources.entries.any fun e => startsWith e.1 root || startsWith e.1 (components (chars! "."))

/-- Models `Index`, rudy-db/src/index.rs:17-28. -/
structure DebugIndex where
  symbols : SymbolIndex := {}
  indexed : List Nat := []
  sourceToFile : OMap Path (List Nat) := ⟨[]⟩

/-- Models the second half of `debug_index`, rudy-db/src/index.rs:112-163. `workspace` is
`detect_cargo_root()` (depends on the directory the process runs in). -/
def debugIndexOf (workspace : Option Path) (units : Nat → List SrcUnit)
    (files : OMap (Path × Option Str) Nat) (sym : SymbolIndex) : DebugIndex :=
  let dfs := files.entries.map (·.2)
  { symbols := sym
    indexed := match workspace with
      | none => []
      | some root => dfs.filter fun df => isLocal root (fileSources (units df))
    sourceToFile := dfs.foldl (fun m df => addSources m df (fileSources (units df))) ⟨[]⟩ }

/-- Models `debug_index`, rudy-db/src/index.rs:87-163; `loads` says whether the binary can be loaded (if
not, the index is empty). -/
def debugIndex (loads : Bool) (workspace : Option Path) (maps : List (Path × Path)) (opens : Path → Bool)
    (units : Nat → List SrcUnit) (b : BinaryFile) (order : List Nat) : Res DebugIndex :=
  if loads then
    (indexSymbolMap maps opens b order).bind fun r => .ok (debugIndexOf workspace units r.1 r.2)
  else .ok {}

/-! ### The workspace -/

/-- `Path::parent`: without the last component; the root and the empty path have none. -/
def parent (p : Path) : Option Path :=
  match p.getLast? with
  | none => none
  | some .root => none
  | some _ => some p.dropLast

/-- Models `cwd_detect_workspace`, file/mod.rs:46-52, on the reversed components of the current directory. -/
def cwdUp (hasToml : Path → Bool) : List Comp → Option Path
  | [] => if hasToml [] then some [] else none
  | c :: up =>
    if hasToml (c :: up).reverse then some (c :: up).reverse
    else if c = .root then none else cwdUp hasToml up

/-- Models `detect_cargo_root`, file/mod.rs:33-57. `cargo` is the output of `cargo locate-project` (`none`: it
cannot be run or is not UTF-8), `cwd` the current directory, `hasToml` says where a `Cargo.toml` exists. -/
def detectCargoRoot (cargo : Option Str) (cwd : Option Path) (hasToml : Path → Bool) : Option Path :=
  (cargo.bind fun out => parent (components (trim out))).or (cwd.bind fun p => cwdUp hasToml p.reverse)

/-! ### Queries -/

/-- Everything a query works with. `tree` is the address tree of the function index of a debug file
(symbols/mod.rs:161-171: there is one only for files in `symbols_by_file`). -/
structure World where
  index : DebugIndex
  units : Nat → List SrcUnit
  fns : Nat → FnIndex

/-- `symbol_index.function_index(db, debug_file)`, symbols/mod.rs:161-171. -/
def World.fnIndex (w : World) (df : Nat) : Option FnIndex :=
  (w.index.symbols.symbolsByFile.get compare df).map fun _ => w.fns df

/-- `location_to_address` for one debug file, query.rs:24-34 with function/index.rs:68-76. -/
def World.answer (w : World) (file : Path) (line df : Nat) : Res (Option (Nat × Nat)) :=
  match w.fnIndex df with
  | none => .ok none
  | some ix => locationToAddress ix.tree (rootLines (w.units df)) file line

/-- Models `lookup_position`, query.rs:11-55, with its early exit at distance 0. The column of the query is
not used (address/resolution.rs:79). -/
def positionLoop (answer : Nat → Res (Option (Nat × Nat))) : List Nat → Option Nat → Nat → Res (Option Nat)
  | [], closest, _ => .ok closest
  | df :: rest, closest, line =>
    (answer df).bind fun
      | none => positionLoop answer rest closest line
      | some (addr, distance) =>
        let (closest, line) := if distance < line then (some addr, distance) else (closest, line)
        if distance = 0 then .ok closest else positionLoop answer rest closest line

/-- Models `lookup_position`, query.rs:11-55. -/
def World.lookupPosition (w : World) (file : Path) (line : Nat) (_column : Option Nat) : Res (Option Nat) :=
  match w.index.sourceToFile.get cmpPath file with
  | none => .ok none
  | some dfs => positionLoop (w.answer file line) dfs none (u64Max1 - 1)

/-- The choice of the source file, debug_info.rs:219-242. -/
def World.chooseFile (w : World) (file : Str) : Option Path :=
  match w.index.sourceToFile.get cmpPath (components file) with
  | some _ => some (components file)
  | none => (w.index.sourceToFile.entries.find? fun e => endsWith e.1 (components file)).map (·.1)

/-- Models `find_address_from_source_location`, debug_info.rs:210-248. -/
def World.findAddress (w : World) (file : Str) (line : Nat) (column : Option Nat) : Res (Option Nat) :=
  match w.chooseFile file with
  | none => .ok none
  | some p => w.lookupPosition p line column

/-- Models `address_to_location`, debug_info.rs:101-113, without the printing of name and path. -/
def World.addressToLocation (w : World) (address : Nat) : Res (Option (Nat × Location)) :=
  (findAllByAddress w.index.symbols w.fnIndex address).bind fun rs => .ok (lookupAddress rs)

/-- Models `find_symbol_by_name`, debug_info.rs:177-186. -/
def World.findSymbol (w : World) (name : Str) : Option Symbol :=
  match w.index.symbols.symbols.get compare name with
  | none => none
  | some m => m.entries.head?.map (·.2)

end Rudy.SourceIndex
