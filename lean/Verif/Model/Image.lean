import Verif.Model.Entries
import Verif.Model.Declared
import Verif.Model.FnIndex
import Verif.Model.Whole
/-
The binary behind a session, from what is in the executable: its symbol table, the units of its debug information and their line programs.
rudy-db/src/index.rs:90-164 `debug_index`, crates/rudy-dwarf/src/symbols/mod.rs:27-114 `index_symbol_map`, rudy-db/src/query.rs:59-74,
rudy-db/src/debug_info.rs:279-339.

Simplifications: the debug information is in the executable itself (debug file 0; the executable has debug symbols, and no object map as on macOS); the indexes, which
the code builds when they are first asked for, are built at once, so a crash in building one ends everything.
-/
namespace Rudy.Image
open Rudy Rudy.Walker Rudy.Dwarf Rudy.Parse Rudy.Layout Rudy.Symbols Rudy.Address Rudy.Resolve Rudy.FnIndex Rudy.Entries Rudy.Declared Rudy.Modules
open Rudy.TypeRes (resolveType shallow)
open Rudy.Discovery (okOf)

/-- An entry of the symbol table of the executable, symbols/mod.rs:176-195. -/
structure Listed where
  raw : Str
  address : Nat
  /-- `s.kind() == Text` -/
  isText : Bool
  size : Nat

/-- The executable: its symbol table, the units of `.debug_info`, for each of them its line program and own source file, and the expressions
in the location and frame base attributes of entries. -/
structure Executable where
  symbols : List Listed
  units : List (List (Tok Die))
  files : List UnitFiles
  loc : Die → Option Vars.Eval
  frameBase : Die → Option Vars.Eval

/-- The libraries the program uses and its surroundings: the demangler, the tokenizer and printer of types, the order in which equal addresses are sorted
(`tree` is `AddressTree::new`), the printing of text and floating point numbers, whether the sources are in the current workspace
(index.rs:131-152). -/
structure Libs where
  demangler : Str → Option Str
  lib : TypeNames.Lib
  tree : List FnInfo → AddressTree
  lossy : List UInt8 → Str
  floatStr : Nat → Nat → Str
  isFloat : Str → Bool
  inWorkspace : Bool

/-- The entries of the symbol table with their demangled names, symbols/mod.rs:176-191. -/
def entries (w : Libs) (x : Executable) : List RawEntry :=
  x.symbols.map fun e => { raw := e.raw, demangled := demangle w.demangler e.raw, address := e.address, isText := e.isText, size := e.size }

/-- symbols/mod.rs:27-114 `index_symbol_map`, for an executable with its own debug information. -/
def symbolIndex (w : Libs) (x : Executable) : SymbolIndex := buildIndex [.binary (entries w x) 0]

/-- `Model/FnIndex.lean` and `Model/Resolve.lean` number the names: the number of a name is its first position in the symbol table. -/
def nameId (w : Libs) (x : Executable) (n : SymbolName) : Nat := (entries w x).findIdx fun e => decide (e.demangled = some n)

/-- The name with a number. -/
def nameAt (w : Libs) (x : Executable) (i : Nat) : Option SymbolName := (entries w x)[i]?.bind (·.demangled)

/-- function/index.rs:133-150 with symbols/mod.rs:161-171: the symbols of the file, by raw name. -/
def syms (w : Libs) (x : Executable) (raw : Str) : Option Sym :=
  (((symbolIndex w x).symbolsByFile.get compare 0).bind fun m => m.get compare raw).map fun s => { name := nameId w x s.name, address := s.address }

/-- The files of the unit an entry is in (die/mod.rs:313, resolution.rs:16-26 `die.get_unit`). -/
def unitFiles (x : Executable) (o : Nat) : UnitFiles :=
  (((x.units.zip x.files).find? fun p => (fromEntry o p.1).isSome).map (·.2)).getD ⟨none, none⟩

/-- function/index.rs:201-233 `function_index` of the debug file, with the line programs its entries are looked up in (resolution.rs:16-26). -/
def fnIndex (w : Libs) (x : Executable) (fns : FnIndex.Builder) : FnIndex where
  tree := w.tree fns.byAddress
  unitOf := fun n => (fns.functions n).map fun e => (unitFiles x e.die.off).lines

/-- types/index.rs:13-38 `get_die_typename` where it does not crash. -/
def typedef (lib : TypeNames.Lib) (x : Executable) (e : Nat) : Option Layout := (okOf (fileTypedef lib x.units e)).join

/-- What discovery reads (`Model/Discovery.lean`). -/
def world (w : Libs) (depth : Nat) (x : Executable) (fns : FnIndex.Builder) (ix : ModuleIndex) : Discovery.World where
  index := symbolIndex w x
  fnEntry := fun _ n => (fns.functions (nameId w x n)).map fun e => e.die.off
  file := fun _ => fileDb x.units
  resolve := fun _ => resolveType (typedef w.lib x) (fileDb x.units) depth
  shallow := fun _ => shallow (typedef w.lib x) (fileDb x.units) depth
  position := fun _ e => (okOf (Declared.position (unitFiles x e) (fileDb x.units) e)).isSome
  debugFiles := [0]
  indexed := if w.inWorkspace then [0] else []
  modules := fun _ => ix
  demangle := demangle w.demangler

/-- What the variable queries read (`Model/Variables.lean`): rudy-db/src/query.rs:59-74 `lookup_address`, index.rs:31-59 `get_function`,
symbols/mod.rs:140-142, function/variables.rs:126-133. An overflow in the address arithmetic counts as no answer; the lemma
`stopped` of `Props/Image.lean` shows that there is none at the program counters of C96. -/
def vars (w : Libs) (depth : Nat) (x : Executable) (fns : FnIndex.Builder) (ix : ModuleIndex) : Vars.World where
  lookupAddress := fun pc =>
    (okOf (findAllByAddress (symbolIndex w x) (fun _ => some (fnIndex w x fns)) pc)).bind fun rs => (lookupAddress rs).map fun r => (r.1, r.2.line)
  getFunction := fun i =>
    (nameAt w x i).bind fun n => (Discovery.getFunction (world w depth x fns ix) n).bind fun r =>
      (readFrom x.units r.2).bind fun toks => ((fileDb x.units).entry r.2).map fun d => { toks := toks, frameBase := x.frameBase d }
  baseAddress := fun i => (nameAt w x i).bind fun n => ((symbolIndex w x).getFunction n).map (·.address)
  parse := variableOf (shallow (typedef w.lib x) (fileDb x.units) depth) (fun d => unitFiles x d.off) (fileDb x.units) x.loc
  resolve := resolveType (typedef w.lib x) (fileDb x.units) depth
  ctx := ⟨fun _ => .err, .err⟩

/-- debug_info.rs:453-455 `lookup_type_by_name` (rudy-db/src/index.rs:238-286). -/
def lookup (w : Libs) (depth : Nat) (x : Executable) (ix : ModuleIndex) (s : Str) : Option Discovery.Target :=
  match TypeNames.lookupTypeByName w.lib
    { indexed := if w.inWorkspace then [0] else [], file := fun _ => fileDb x.units, modules := fun _ => ix
      resolve := fun _ => resolveType (typedef w.lib x) (fileDb x.units) depth } s with
  | .ok (some t) => some (Whole.located t)
  | _ => none

/-- The program behind a session with the executable; the stack is good for following types through `depth` levels, and `stack` levels of values. -/
def binary (w : Libs) (stack depth : Nat) (x : Executable) : Res Whole.Binary :=
  (functionIndex (syms w x) 0 false x.units).bind fun fns => (moduleIndex x.units).bind fun ix =>
    .ok { world := world w depth x fns ix, lookup := lookup w depth x ix, vars := vars w depth x fns ix, lossy := w.lossy, floatStr := w.floatStr
          isFloat := w.isFloat, stack := stack }

end Rudy.Image
