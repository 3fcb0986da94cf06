import Verif.Model.Basic
/-
Model of symbol name parsing (crates/rudy-parser/src/types.rs:382-448,
crates/rudy-dwarf/src/symbols/names.rs) and of the symbol index
(crates/rudy-dwarf/src/symbols/mod.rs).
-/
namespace Rudy.Symbols
open Rudy

/-- Rust `char::is_whitespace` (Unicode White_Space), used by `str::trim`
(crates/rudy-parser/src/types.rs:403 and 422). -/
def isRustWhitespace (c : Char) : Bool :=
  let n := c.toNat
  (9 ≤ n && n ≤ 13) || n == 32 || n == 0x85 || n == 0xA0 || n == 0x1680 ||
  (0x2000 ≤ n && n ≤ 0x200A) || n == 0x2028 || n == 0x2029 || n == 0x202F || n == 0x205F ||
  n == 0x3000

/-- Rust `str::trim`, used at types.rs:403 and 422. -/
def trim (s : Str) : Str :=
  ((s.dropWhile isRustWhitespace).reverse.dropWhile isRustWhitespace).reverse

/-- The whitespace arm `'\n' | '\r' | '\t' | ' '` of the scanner, types.rs:407. -/
def isBlank (c : Char) : Bool := c == '\n' || c == '\r' || c == '\t' || c == ' '

/-- The whitespace step of the scanner, types.rs:407-413. -/
def pushBlank (cur : Str) : Str :=
  if !cur.isEmpty && !(cur.getLast? == some ' ') then cur ++ [' '] else cur

/-- The character loop of `parse_symbol`, types.rs:389-423. `angle_depth` (i32 in the code) is an
unbounded integer: more than 2^31 nested brackets are not considered. -/
def scan : List Char → List Str → Str → Int → List Str
  | [], segs, cur, _ => if cur.isEmpty then segs else segs ++ [trim cur]
  | ch :: cs, segs, cur, depth =>
    if ch = '<' then scan cs segs (cur ++ [ch]) (depth + 1)
    else if ch = '>' then scan cs segs (cur ++ [ch]) (depth - 1)
    else if ch = ':' ∧ depth = 0 ∧ cs.head? = some ':' then
      match cs with
      | [] => scan [] segs cur depth -- not reachable: `cs.head? = some ':'`
      | _ :: cs' =>
        if cur.isEmpty then scan cs' segs cur depth
        else scan cs' (segs ++ [trim cur]) [] depth
    else if isBlank ch then scan cs segs (pushBlank cur) depth
    else scan cs segs (cur ++ [ch]) depth

/-- Rust `char::is_ascii_hexdigit`, used at types.rs:431. -/
def isHex (c : Char) : Bool :=
  ('0' ≤ c && c ≤ '9') || ('a' ≤ c && c ≤ 'f') || ('A' ≤ c && c ≤ 'F')

/-- The hash test of types.rs:431. -/
def looksLikeHash (seg : Str) : Bool :=
  match seg with
  | 'h' :: rest => rest.all isHex
  | _ => false

/-- Result of `parse_symbol` (`ParsedSymbol`), types.rs:363. -/
structure Parsed where
  modulePath : List Str
  name : Str
  hash : Option Str
deriving DecidableEq, Repr

/-- Models `parse_symbol`, types.rs:382-448; `none` is the error result. -/
def parseSymbol (s : Str) : Option Parsed :=
  let segments := scan s [] [] 0
  match segments.getLast? with
  | none => none                                   -- "Empty symbol path", 425-427
  | some last =>
    if looksLikeHash last then                     -- 430-438
      let segments := segments.dropLast
      match segments.getLast? with                 -- 440
      | none => none                               -- "No function name found"
      | some fn => some ⟨segments.dropLast, fn, some last⟩
    else some ⟨segments.dropLast, last, none⟩

/-- Models `SymbolName`, crates/rudy-dwarf/src/symbols/names.rs:134-140. -/
structure SymbolName where
  lookupName : Str
  hash : Str
  modulePath : List Str
  fullPath : Str
deriving DecidableEq, Repr

/-- Models `SymbolName::parse`, names.rs:143-173 (logging dropped). -/
def SymbolName.parse (path : Str) : Option SymbolName :=
  (parseSymbol path).map fun p =>
    { fullPath := path, lookupName := p.name, hash := p.hash.getD [], modulePath := p.modulePath }

/-- Rust `str::trim_end_matches(pat)` for a string pattern: removes the suffix as often as it occurs.
An empty pattern removes nothing (names.rs:189 with an empty hash). The fuel is the length of the
string, enough because every round removes at least one character. -/
def trimEndMatchesAux (pat : Str) : Nat → Str → Str
  | 0, s => s
  | n + 1, s => if pat ≠ [] ∧ pat <:+ s then trimEndMatchesAux pat n (s.take (s.length - pat.length)) else s

/-- See `trimEndMatchesAux` (names.rs:189-190). -/
def trimEndMatches (pat s : Str) : Str := trimEndMatchesAux pat s.length s

/-- Models `Display for SymbolName`, names.rs:182-193. -/
def SymbolName.display (n : SymbolName) : Str :=
  trimEndMatches [':', ':'] (trimEndMatches n.hash n.fullPath)

/-- Models `SymbolName::matches_name_and_module`, names.rs:196-198. -/
def SymbolName.matchesNameAndModule (n : SymbolName) (name : Str) (modul : List Str) : Bool :=
  n.lookupName == name && decide (modul <:+ n.modulePath)

/-- Models `Ord for SymbolName`, names.rs:207-214. -/
def SymbolName.cmp (a b : SymbolName) : Ordering :=
  ((compare a.lookupName b.lookupName).then (compare a.modulePath b.modulePath)).then
    (compare a.fullPath b.fullPath)

/-- Models `TypeName` restricted to the fields its comparisons read, names.rs:14-25. -/
structure TypeName where
  modul : List Str
  name : Str
  fullName : Str
deriving DecidableEq, Repr

/-- Models `Ord for TypeName`, names.rs:45-51. -/
def TypeName.cmp (a b : TypeName) : Ordering :=
  (compare a.modul b.modul).then (compare a.name b.name)

/-- Models `PartialEq for TypeName`, names.rs:33-37. -/
def TypeName.beq (a b : TypeName) : Bool := a.modul == b.modul && a.name == b.name

/-- The macOS prefix rule of `demangle_symbol`, names.rs:216-225. -/
def stripUnderscore (raw : Str) : Str :=
  if ['_', '_', 'Z'] <+: raw then raw.drop 1 else raw

/-- Models `demangle_symbol`, names.rs:216-229, given the external demangler
(`rustc_demangle::try_demangle`) as a function. UTF-8 decoding errors are `none` of the demangler. -/
def demangle (dm : Str → Option Str) (raw : Str) : Option SymbolName :=
  match dm (stripUnderscore raw) with
  | none => none
  | some d => SymbolName.parse d

/-- Models `Symbol`, crates/rudy-dwarf/src/symbols/mod.rs:20-24. `DebugFile` is a salsa id. -/
structure Symbol where
  name : SymbolName
  address : Nat
  debugFile : Nat
deriving DecidableEq, Repr

/-- Models `SymbolIndex`, symbols/mod.rs:120-136. -/
structure SymbolIndex where
  functions : OMap Str (OMap SymbolName Symbol) := ⟨[]⟩
  symbols : OMap Str (OMap SymbolName Symbol) := ⟨[]⟩
  symbolsByFile : OMap Nat (OMap Str Symbol) := ⟨[]⟩
  functionsByAddress : OMap Nat (List Symbol) := ⟨[]⟩

/-- One symbol table entry as seen by `index_binary` (symbols/mod.rs:176-195) or
`index_mapped_file` (229-243): raw name, its demangling, the address, and the two facts the
classification may use. -/
structure RawEntry where
  raw : Str
  demangled : Option SymbolName
  address : Nat
  /-- `s.kind() == Text` -/
  isText : Bool
  /-- `s.size()` -/
  size : Nat
deriving Repr

/-- The common loop body of `index_binary` (symbols/mod.rs:176-219) and `index_mapped_file`
(229-272): they differ only in how `is_function` is computed. -/
def indexOne (isFunction : RawEntry → Bool) (debugFile : Nat) (ix : SymbolIndex) (s : RawEntry) :
    SymbolIndex :=
  match s.demangled with
  | none => ix
  | some d =>
    let entry : Symbol := { name := d, address := s.address, debugFile }
    let ix := { ix with
      symbolsByFile := ix.symbolsByFile.upsert compare debugFile ⟨[]⟩
        (fun m => m.insert compare s.raw entry) }
    if isFunction s then
      { ix with
        functionsByAddress := ix.functionsByAddress.upsert compare s.address [] (· ++ [entry])
        functions := ix.functions.upsert compare d.lookupName ⟨[]⟩
          (fun m => m.insert SymbolName.cmp d entry) }
    else
      { ix with
        symbols := ix.symbols.upsert compare d.lookupName ⟨[]⟩
          (fun m => m.insert SymbolName.cmp d entry) }

/-- `self.symbols_by_file.entry(debug_file).or_default()` at symbols/mod.rs:174 and 228. -/
def touchFile (ix : SymbolIndex) (debugFile : Nat) : SymbolIndex :=
  { ix with symbolsByFile := ix.symbolsByFile.upsert compare debugFile ⟨[]⟩ id }

/-- Models `SymbolIndex::index_binary`, symbols/mod.rs:173-221. -/
def indexBinary (ix : SymbolIndex) (entries : List RawEntry) (debugFile : Nat) : SymbolIndex :=
  entries.foldl (indexOne (·.isText) debugFile) (touchFile ix debugFile)

/-- Models `SymbolIndex::index_mapped_file`, symbols/mod.rs:223-274. -/
def indexMappedFile (ix : SymbolIndex) (entries : List RawEntry) (debugFile : Nat) : SymbolIndex :=
  entries.foldl (indexOne (fun s => decide (s.size > 0)) debugFile) (touchFile ix debugFile)

/-- A history of index operations: the executable and any number of mapped objects
(symbols/mod.rs:51-111; the hash-map order of `grouped_symbols` is arbitrary, so any sequence). -/
inductive IndexOp where
  | binary (entries : List RawEntry) (debugFile : Nat)
  | mapped (entries : List RawEntry) (debugFile : Nat)

/-- One index operation (symbols/mod.rs:54 and 109). -/
def applyOp (ix : SymbolIndex) : IndexOp → SymbolIndex
  | .binary es df => indexBinary ix es df
  | .mapped es df => indexMappedFile ix es df

/-- The index after a history of operations, starting from `SymbolIndex::default()`
(symbols/mod.rs:52). -/
def buildIndex (ops : List IndexOp) : SymbolIndex := ops.foldl applyOp {}

/-- Models `get_function`, symbols/mod.rs:140-142. -/
def SymbolIndex.getFunction (ix : SymbolIndex) (n : SymbolName) : Option Symbol :=
  match ix.functions.get compare n.lookupName with
  | none => none
  | some m => m.get SymbolName.cmp n

/-- Models `get_functions_by_lookup_name`, symbols/mod.rs:145-150. -/
def SymbolIndex.byLookupName (ix : SymbolIndex) (n : Str) : Option (OMap SymbolName Symbol) :=
  ix.functions.get compare n

/-- Models `function_at_address`, symbols/mod.rs:153-159: `range(..=address).next_back()`. -/
def SymbolIndex.functionAtAddress (ix : SymbolIndex) (address : Nat) :
    Option (Nat × List Symbol) :=
  (ix.functionsByAddress.entries.filter (fun p => decide (p.1 ≤ address))).getLast?

/-- Rust `str::split("::")` as used by `find_closest_function`, rudy-db/src/index.rs:175-178:
leftmost, brackets not respected, empty parts kept. -/
def splitNaive : Str → Str → List Str
  | [], cur => [cur]
  | [c], cur => [cur ++ [c]]
  | c :: d :: cs, cur =>
    if c = ':' ∧ d = ':' then cur :: splitNaive cs [] else splitNaive (d :: cs) (cur ++ [c])

/-- Models `find_closest_function`, rudy-db/src/index.rs:168-189, on the symbol index. -/
def findClosestFunction (ix : SymbolIndex) (functionName : Str) : Option (SymbolName × Nat) :=
  let segments := splitNaive functionName []
  match segments.getLast? with            -- `segments.pop()?`
  | none => none
  | some name =>
    let modul := segments.dropLast
    match ix.byLookupName name with       -- `get_functions_by_lookup_name(&name)?`
    | none => none
    | some m =>
      (m.entries.find? (fun e => e.1.matchesNameAndModule name modul)).map
        (fun e => (e.1, e.2.debugFile))

end Rudy.Symbols
