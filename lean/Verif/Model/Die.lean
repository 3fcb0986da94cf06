import Verif.Model.Walker
/-
Debugging information entries: tags, attributes, and the accessors of
`crates/rudy-dwarf/src/die/{mod,utils,cu}.rs` the visitors and parsers use.
-/
namespace Rudy.Dwarf

/-- `gimli::DwTag`: the tags the code distinguishes (visitor.rs:306-340, types/resolution.rs:420-480,
parser/enums.rs); any other tag is `other`. -/
inductive Tag where
  | compileUnit | namespace | subprogram | structureType | enumerationType | variable
  | formalParameter | baseType | pointerType | arrayType | lexicalBlock | unionType
  | subroutineType | member | templateTypeParameter | variantPart | variant | subrangeType
  | enumerator | inlinedSubroutine
  | other (code : Nat)
deriving DecidableEq, Repr

/-- `gimli::DwAt`: the attributes the code reads. -/
inductive At where
  | name | linkageName | type | dataMemberLocation | byteSize | alignment | discr | discrValue
  | constValue | count | language | declFile | declLine | specification
deriving DecidableEq, Repr

/-- `gimli::AttributeValue`, as far as the code tells values apart. `data` is an unsigned constant,
`sdata` a constant only readable as signed, `ref` a reference to an entry of the same unit (by
offset), `lang` a language code (`true` for Rust), `file` a file index, `bad` a value that does not
decode, `other` any other form. -/
inductive Val where
  | str (s : Str)
  | data (n : Nat)
  | sdata (i : Int)
  | ref (off : Nat)
  | lang (rust : Bool)
  | file (i : Nat)
  | bad
  | other
deriving DecidableEq, Repr

/-- An entry: its offset in the debug file (die/mod.rs:158-161 `Die::offset`, unit offset plus offset
in the unit), tag, attributes, the address range `die_ranges` and `to_range` compute for it
(die/utils.rs:135-148), and, for a unit's root entry, the unit length of the header
(modules.rs:121). -/
structure Die where
  off : Nat
  tag : Tag
  attrs : List (At × Val) := []
  range : Option (Nat × Nat) := none
  unitLength : Nat := 0
deriving DecidableEq, Repr

/-- `gimli`'s `entry.attr(name)`: the first attribute with the name. -/
def Die.attr (d : Die) (a : At) : Option Val := (d.attrs.find? (·.1 == a)).map (·.2)

/-- die/utils.rs:45-54 `get_string_attr`: absent is `Ok(None)`, a value that is not a readable string
is an error. -/
def Die.stringAttrOpt (d : Die) (a : At) : Res (Option Str) :=
  match d.attr a with
  | none => .ok none
  | some (.str s) => .ok (some s)
  | some _ => .err

/-- die/utils.rs:71-82 `parse_die_string_attribute`, used by die/mod.rs:250-254 `string_attr` and
die/mod.rs:193-195 `name`: absent is an error. -/
def Die.stringAttr (d : Die) (a : At) : Res Str :=
  match d.attr a with
  | some (.str s) => .ok s
  | _ => .err

/-- die/mod.rs:193-195 `Die::name`. -/
def Die.name (d : Die) : Res Str := d.stringAttr .name

/-- die/mod.rs:256-263 `udata_attr`. -/
def Die.udataAttr (d : Die) (a : At) : Res Nat :=
  match d.attr a with
  | some (.data n) => .ok n
  | _ => .err

/-- die/cu.rs:29-51 `is_rust_cu`. -/
def Die.isRustCu (d : Die) : Bool := d.attr .language == some (.lang true)

end Rudy.Dwarf
