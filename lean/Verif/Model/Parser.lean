import Verif.Model.Die
/-
Model of the parser combinators over debugging information entries:
crates/rudy-dwarf/src/parser/{mod,combinators,children,primitives}.rs on top of the accessors of
crates/rudy-dwarf/src/die/mod.rs.

Entries are named by their offset in the debug file. References between entries stay inside one unit
(`UnitRef`); other references do not decode as references (die/utils.rs:56-69).
-/
namespace Rudy.Parse
open Rudy.Dwarf

/-- The debug file as the parsers see it: the entry at an offset (if one decodes there), and the
children of an entry (die/mod.rs:115-142), an error if they do not decode. -/
structure Db where
  entry : Nat → Option Die
  children : Nat → Res (List Nat)

/-- parser/mod.rs:30-31 `Parser::parse`. -/
abbrev Parser (T : Type) := Db → Nat → Res T

/-! ### Accessors (die/mod.rs) -/

/-- die/mod.rs:188-191 `tag`; `none` is `DW_TAG_null`, when there is no entry. -/
def tag (db : Db) (e : Nat) : Option Tag := (db.entry e).map (·.tag)

/-- die/mod.rs:236-248 `get_attr`: absent attributes and undecodable ones are errors. -/
def getAttr (a : At) : Parser Val := fun db e =>
  match db.entry e with
  | none => .err
  | some d =>
    match d.attr a with
    | none => .err
    | some .bad => .err
    | some v => .ok v

/-- die/mod.rs:250-254 `string_attr`. -/
def stringAttr (a : At) : Parser Str := fun db e =>
  match db.entry e with
  | none => .err
  | some d => d.stringAttr a

/-- die/mod.rs:193-195 `name`. -/
def dieName : Parser Str := stringAttr .name

/-- die/mod.rs:256-263 `udata_attr`. -/
def udataAttr (a : At) : Parser Nat := fun db e =>
  match db.entry e with
  | none => .err
  | some d => d.udataAttr a

/-- die/mod.rs:180-186 `get_referenced_entry` with die/utils.rs:56-69 `get_unit_ref_attr`. -/
def refAttr (a : At) : Parser Nat := fun db e =>
  (getAttr a db e).bind fun
    | .ref o => .ok o
    | _ => .err

/-- die/mod.rs:199-205 `get_member`: the first child with the name. -/
def getMember (n : Str) : Parser Nat := fun db e =>
  (db.children e).bind fun cs => Res.ofOption (cs.find? fun c => decide (dieName db c = .ok n))

/-- die/mod.rs:207-213 `get_member_by_tag`. -/
def getMemberByTag (t : Tag) : Parser Nat := fun db e =>
  (db.children e).bind fun cs => Res.ofOption (cs.find? fun c => decide (tag db c = some t))

/-- die/mod.rs:215-222 `get_udata_member_attribute`. -/
def memberUdata (n : Str) (a : At) : Parser Nat := fun db e =>
  (getMember n db e).bind fun m => udataAttr a db m

/-- die/mod.rs:224-234 `get_generic_type_entry`. -/
def genericTypeEntry (n : Str) : Parser Nat := fun db e =>
  ((db.children e).bind fun cs =>
    Res.ofOption (cs.find? fun c =>
      decide (tag db c = some .templateTypeParameter) && decide (dieName db c = .ok n))).bind
    fun m => refAttr .type db m

/-! ### Combinators (parser/combinators.rs) -/

/-- combinators.rs:14-25 `And`, and `all` of two parsers (172-205; larger tuples nest). -/
def both {T U : Type} (p : Parser T) (q : Parser U) : Parser (T × U) := fun db e =>
  (p db e).bind fun x => (q db e).bind fun y => .ok (x, y)

/-- combinators.rs:34-43 `Map`. -/
def mapP {T U : Type} (p : Parser T) (f : T → U) : Parser U := fun db e =>
  (p db e).bind fun x => .ok (f x)

/-- combinators.rs:85-94 `MapRes`. -/
def mapRes {T U : Type} (p : Parser T) (f : T → Res U) : Parser U := fun db e => (p db e).bind f

/-- combinators.rs:103-112 `Then` on a `Die`. -/
def andThen {U : Type} (p : Parser Nat) (q : Parser U) : Parser U := fun db e =>
  (p db e).bind fun m => q db m

/-- combinators.rs:114-125 `Then` on an `Option<Die>`. -/
def andThenOpt {U : Type} (p : Parser (Option Nat)) (q : Parser U) : Parser (Option U) := fun db e =>
  (p db e).bind fun
    | none => .ok none
    | some m => (q db m).bind fun u => .ok (some u)

/-- combinators.rs:145-152 `Filter`; also `OptionalAttr` (primitives.rs:154-161). Panics are not
caught. -/
def filterP {T : Type} (p : Parser T) : Parser (Option T) := fun db e =>
  match p db e with
  | .ok x => .ok (some x)
  | .err => .ok none
  | .panic => .panic

/-- primitives.rs:330-341 `Identity`. -/
def identity : Parser Nat := fun _ e => .ok e

/-! ### Children (parser/children.rs) -/

/-- The parsers of a tuple given to `parse_children`, with their result slots
(children.rs:100-141). -/
structure Multi (S T : Type) where
  init : S
  /-- the body of the loop over the children -/
  step : Db → Nat → S → Res S
  /-- children.rs:134-136: every slot must be filled -/
  finish : S → Res T

/-- children.rs:122-131: a slot that is still empty is tried on the child; errors are dropped. -/
def single {T : Type} (p : Parser T) : Multi (Option T) T where
  init := none
  step db c s :=
    match s with
    | some x => .ok (some x)
    | none =>
      match p db c with
      | .ok x => .ok (some x)
      | .err => .ok none
      | .panic => .panic
  finish s := Res.ofOption s

/-- One more parser in the tuple. -/
def pair {S S' T U : Type} (m : Multi S T) (n : Multi S' U) : Multi (S × S') (T × U) where
  init := (m.init, n.init)
  step db c s := (m.step db c s.1).bind fun a => (n.step db c s.2).bind fun b => .ok (a, b)
  finish s := (m.finish s.1).bind fun x => (n.finish s.2).bind fun y => .ok (x, y)

/-- children.rs:111-132: the loop over the children. -/
def slots {S T : Type} (m : Multi S T) (db : Db) : List Nat → S → Res S
  | [], s => .ok s
  | c :: cs, s => (m.step db c s).bind fun s => slots m db cs s

/-- children.rs:100-141 `ParseChildren`. -/
def parseChildren {S T : Type} (m : Multi S T) : Parser T := fun db e =>
  (db.children e).bind fun cs => (slots m db cs m.init).bind m.finish

/-- children.rs:22-32 `child`. -/
def child {T : Type} (p : Parser T) : Parser T := parseChildren (single p)

/-- children.rs:43-73: the loop of `ForEachChild`. -/
def collect {T : Type} (p : Parser T) (db : Db) : List Nat → Res (List T)
  | [] => .ok []
  | c :: cs =>
    match p db c with
    | .ok x => (collect p db cs).bind fun xs => .ok (x :: xs)
    | .err => collect p db cs
    | .panic => .panic

/-- children.rs:39-74 `ForEachChild`: children that do not parse are left out. -/
def forEachChild {T : Type} (p : Parser T) : Parser (List T) := fun db e =>
  (db.children e).bind fun cs => collect p db cs

/-- children.rs:83-99: the loop of `TryForEachChild`. -/
def tryCollect {T : Type} (p : Parser (Option T)) (db : Db) : List Nat → Res (List T)
  | [] => .ok []
  | c :: cs => (p db c).bind fun o => (tryCollect p db cs).bind fun xs => .ok (o.toList ++ xs)

/-- children.rs:74-98 `TryForEachChild`: a child that does not parse is an error. -/
def tryForEachChild {T : Type} (p : Parser (Option T)) : Parser (List T) := fun db e =>
  (db.children e).bind fun cs => tryCollect p db cs

/-! ### Primitives (parser/primitives.rs) -/

/-- primitives.rs:12-22 `data_offset`. -/
def dataOffset : Parser Nat := udataAttr .dataMemberLocation

/-- primitives.rs:29-31 `entry_type`. -/
def entryType : Parser Nat := refAttr .type

/-- primitives.rs:92-107 `Attr<i128>`. -/
def intAttr (a : At) : Parser Int := fun db e =>
  (getAttr a db e).bind fun
    | .data n => .ok n
    | .sdata i => .ok i
    | _ => .err

/-- primitives.rs:115-121 `Attr<Option<String>>`. -/
def optStringAttr (a : At) : Parser (Option Str) := fun db e =>
  match db.entry e with
  | none => .err
  | some d => d.stringAttrOpt a

/-- primitives.rs:173-189 `member`. -/
def member (n : Str) : Parser Nat := getMember n

/-- primitives.rs:244-258 `member_by_tag`. -/
def memberByTag (t : Tag) : Parser Nat := getMemberByTag t

/-- primitives.rs:191-213 `is_member`: only the name is looked at. -/
def isMember (n : Str) : Parser Nat := fun db e =>
  (dieName db e).bind fun x => if x = n then .ok e else .err

/-- primitives.rs:216-242 `is_member_offset`. -/
def isMemberOffset (n : Str) : Parser Nat := fun db e =>
  (dieName db e).bind fun x => if x = n then udataAttr .dataMemberLocation db e else .err

/-- primitives.rs:260-283 `is_member_tag`. -/
def isMemberTag (t : Tag) : Parser Nat := fun db e =>
  if tag db e = some t then .ok e else .err

/-- primitives.rs:285-316 `generic`. -/
def generic (n : Str) : Parser Nat := fun db e =>
  if tag db e = some .templateTypeParameter then
    (dieName db e).bind fun x => if x = n then refAttr .type db e else .err
  else .err

/-- primitives.rs:390-395: one step of `FieldPath` on a member entry: its offset and its type. -/
def field (off : Nat) : Parser (Nat × Nat) := fun db m =>
  (udataAttr .dataMemberLocation db m).bind fun o =>
    (addU off o).bind fun off => (refAttr .type db m).bind fun t => .ok (t, off)

/-- primitives.rs:396-406: the remaining names of a `FieldPath`. -/
def follow : List Str → Nat → Nat → Db → Res (Nat × Nat)
  | [], e, off, _ => .ok (e, off)
  | n :: ns, e, off, db =>
    (getMember n db e).bind fun m => (field off db m).bind fun r => follow ns r.1 r.2 db

/-- primitives.rs:361-410 `FieldPath`: the entry itself is the first member of the path. -/
def fieldPath : List Str → Parser (Nat × Nat)
  | [], _, e => .ok (e, 0)
  | n :: ns, db, e =>
    (dieName db e).bind fun x =>
      if x = n then (field 0 db e).bind fun r => follow ns r.1 r.2 db else .err

/-- primitives.rs:412-415 `field_path_offset`. -/
def fieldPathOffset (ns : List Str) : Parser Nat := mapP (fieldPath ns) (·.2)

end Rudy.Parse
