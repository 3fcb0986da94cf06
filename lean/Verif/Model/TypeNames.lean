import Verif.Model.Expr
import Verif.Model.TypeRes
import Verif.Model.Modules
/-
Model of type names: crates/rudy-parser/src/types.rs (the type grammar, printing and the conversion to
layouts), `TypeName::parse` (crates/rudy-dwarf/src/symbols/names.rs), crates/rudy-dwarf/src/types/index.rs
and rudy-db/src/index.rs:237-283 (looking a type up by name).

The grammar of types.rs is written with the parser library `unsynn` on token trees of `proc_macro2`;
neither library's source is part of the repository. What the model takes from their documentation: the
alternatives of an `enum` are tried in order, the first that matches is taken; `Optional` and the
delimited vectors take as much as they can; the content of a group must be consumed completely (the
grammar of tuples, types.rs:116-130, relies on it). What it leaves open is collected in `Lib`.
-/
namespace Rudy.TypeNames
open Rudy Rudy.Layout Rudy.Expr Rudy.Dwarf Rudy.Parse Rudy.TypeRes Rudy.Modules

/-! ### Tokens -/

/-- `proc_macro2::Delimiter`. -/
inductive Delim where
  | paren | bracket | brace
deriving DecidableEq, Repr

/-- `proc_macro2::TokenTree`; `joint` is `Spacing::Joint`. -/
inductive Tok where
  | ident (s : Str)
  | punct (c : Char) (joint : Bool)
  | lit (s : Str)
  | group (d : Delim) (ts : List Tok)

/-- The opening delimiters. -/
def opens : Char → Option Delim
  | '(' => some .paren
  | '[' => some .bracket
  | '{' => some .brace
  | _ => none

/-- The closing delimiters. -/
def closes : Char → Option Delim
  | ')' => some .paren
  | ']' => some .bracket
  | '}' => some .brace
  | _ => none

/-- The punctuation characters of `proc_macro2`. -/
def isPunct (c : Char) : Bool :=
  c ∈ ['~', '!', '@', '#', '$', '%', '^', '&', '*', '-', '=', '+', '|', ';', ':', ',', '<', '.', '>', '/', '?', '\'']

/-- A word starts here. -/
def isStart (c : Char) : Bool := isAlpha c || c == '_'

/-- `TokenStream::from_str` on plain text: ASCII identifiers, decimal numbers, punctuation, balanced
delimiters and white space. `none` means unbalanced delimiters, or text with something else in it
(string and character literals, lifetimes, comments, raw identifiers, other kinds of numbers, other
characters), about which the model says nothing. Yields the tokens up to the end or up to an unmatched
closing delimiter. The number bounds the number of tokens. -/
def lex : Nat → Str → Option (List Tok × Str)
  | 0, _ => none
  | n + 1, s =>
    match s.dropWhile isWhite with
    | [] => some ([], [])
    | c :: cs =>
      if (closes c).isSome then some ([], c :: cs)
      else match opens c with
      | some d =>
        match lex n cs with
        | some (inner, c' :: rest) =>
          if closes c' = some d then (lex n rest).map fun r => (.group d inner :: r.1, r.2) else none
        | _ => none
      | none =>
        if isStart c then
          let rest := cs.dropWhile isWord
          if rest.head? = some '#' ∧ c :: cs.takeWhile isWord = ['r'] then none
          else (lex n rest).map fun r => (.ident (c :: cs.takeWhile isWord) :: r.1, r.2)
        else if isDigit c then
          let rest := cs.dropWhile isWord
          if (cs.takeWhile isWord).all isDigit && rest.head? != some '.' then
            (lex n rest).map fun r => (.lit (c :: cs.takeWhile isWord) :: r.1, r.2)
          else none
        else if isPunct c && c != '/' && c != '\'' then
          (lex n cs).map fun r => (.punct c ((cs.head?.map isPunct).getD false) :: r.1, r.2)
        else none

/-- The tokens of a plain text. -/
def lexPlain (s : Str) : Option (List Tok) :=
  match lex (s.length + 1) s with
  | some (ts, []) => some ts
  | _ => none

/-- What the libraries decide: the tokens of a text (`to_token_iter`; it may fail or panic on text that
is not a token stream), whether a delimited vector may be empty, and how tokens are printed
(`tokens_to_string`). -/
structure Lib where
  lex : Str → Res (List Tok)
  emptyDelimited : Bool
  render : List Tok → Str

/-- The library tokenizes plain text as `lexPlain` does. -/
def Lib.LexesPlain (lib : Lib) : Prop := ∀ s ts, lexPlain s = some ts → lib.lex s = .ok ts

/-! ### Types -/

mutual
/-- types.rs:159-172 `Type`, with `Slice`, `StrSlice`, `RefType`, `Array`, `FnType`, `DynTrait`, `Tuple`,
`PtrType` (types.rs:74-156). Simplification: of a tuple only the list of its types (`Tuple::inner`,
types.rs:207-222) is kept, not in which of the three forms it was written. -/
inductive Ty where
  | slice (t : Ty)
  | str
  | ref (m : Bool) (t : Ty)
  | never
  | array (t : Ty) (size : Size)
  | fn (uns : Bool) (args : Tys) (ret : OptTy)
  | dyn (traits : Tys)
  | tuple (elems : Tys)
  | ptr (m : Bool) (t : Ty)
  | path (segs : Segs)
/-- types.rs:94-105 `ArraySize` and its absence. -/
inductive Size where
  | none
  | fixed (n : Nat)
  | generic (t : Ty)
/-- `Optional<FnResult>`, types.rs:143. -/
inductive OptTy where
  | none
  | some (t : Ty)
/-- A list of types. -/
inductive Tys where
  | nil
  | cons (t : Ty) (ts : Tys)
/-- types.rs:66-72 `PathSegment`, with `Segment` (49-55). -/
inductive Seg where
  | named (id : Str) (g : Gen) (shim : Bool)
  | qualified (ts : List Tok)
  | vtable
  | impl (n : Nat)
/-- types.rs:32-42 `GenericArgs` and its absence. -/
inductive Gen where
  | none
  | args (ts : Tys)
  | raw (ts : List Tok)
/-- types.rs:174-178 `Path`. -/
inductive Segs where
  | nil
  | cons (s : Seg) (ss : Segs)
end

/-- A list of types from a list. -/
def Tys.ofList : List Ty → Tys
  | [] => .nil
  | t :: ts => .cons t (Tys.ofList ts)

/-- The types as a list. -/
def Tys.toList : Tys → List Ty
  | .nil => []
  | .cons t ts => t :: ts.toList

/-- Segments from a list. -/
def Segs.ofList : List Seg → Segs
  | [] => .nil
  | s :: ss => .cons s (Segs.ofList ss)

/-- The segments as a list. -/
def Segs.toList : Segs → List Seg
  | .nil => []
  | .cons s ss => s :: ss.toList

/-! ### The grammar (types.rs:10-179) -/

/-- A parser: what was read and the tokens left. -/
abbrev P (α : Type) := List Tok → Res (α × List Tok)

/-- The next alternative. -/
def orTry {α : Type} (a : Res α) (b : Unit → Res α) : Res α :=
  match a with
  | .err => b ()
  | r => r

/-- The content of a group is consumed completely. -/
def whole {α : Type} : Res (α × List Tok) → Res α
  | .ok (a, []) => .ok a
  | .ok _ => .err
  | .err => .err
  | .panic => .panic

/-- `DelimitedVec`: values separated by `sep`, as many as there are; a value without a separator after it
is the last. The number bounds the number of values. -/
def delimited {α : Type} (elem : P α) (sep : List Tok → Option (List Tok)) : Nat → P (List α)
  | 0, _ => .panic
  | k + 1, ts =>
    match elem ts with
    | .panic => .panic
    | .err => .ok ([], ts)
    | .ok (a, r) =>
      match sep r with
      | none => .ok ([a], r)
      | some r' => (delimited elem sep k r').bind fun (as, r'') => .ok (a :: as, r'')

/-- `DelimitedVec`. -/
def delimitedVec {α : Type} (lib : Lib) (elem : P α) (sep : List Tok → Option (List Tok)) : P (List α) := fun ts =>
  (delimited elem sep (ts.length + 1) ts).bind fun (as, r) =>
    if as.isEmpty && !lib.emptyDelimited then .err else .ok (as, r)

/-- `PunctAny<','>`. -/
def comma : List Tok → Option (List Tok)
  | .punct ',' _ :: r => some r
  | _ => none

/-- `PunctAny<'+'>`. -/
def plus : List Tok → Option (List Tok)
  | .punct '+' _ :: r => some r
  | _ => none

/-- `PathSep`. -/
def pathSep : List Tok → Option (List Tok)
  | .punct ':' true :: .punct ':' _ :: r => some r
  | _ => none

/-- types.rs:22-30 `AngleTokenTree`, after its first bracket: everything up to the bracket that closes it.
(A nested tree that is not closed leaves the outer one unclosed, so counting is the same.) -/
def angle : Nat → List Tok → Option (List Tok × List Tok)
  | _, [] => none
  | d, .punct '>' j :: r =>
    match d with
    | 0 => some ([.punct '>' j], r)
    | d + 1 => (angle d r).map fun x => (.punct '>' j :: x.1, x.2)
  | d, .punct '<' j :: r => (angle (d + 1) r).map fun x => (.punct '<' j :: x.1, x.2)
  | d, t :: r => (angle d r).map fun x => (t :: x.1, x.2)

/-- The value of a decimal literal. -/
def litVal (s : Str) : Nat := s.foldl (fun a c => a * 10 + (c.toNat - '0'.toNat)) 0

/-- `usize` as a parser: a literal that fits. -/
def number : P Nat
  | .lit s :: r => if litVal s < 2 ^ 64 then .ok (litVal s, r) else .err
  | _ => .err

/-- types.rs:32-42, 52 `Optional<GenericArgs>`. -/
def generics (lib : Lib) (ty : P Ty) : P Gen := fun ts =>
  match ts with
  | .punct '<' j :: r =>
    match (delimitedVec lib ty comma r).bind fun
      | (as, .punct '>' _ :: r') => .ok (Gen.args (Tys.ofList as), r')
      | _ => .err with
    | .ok x => .ok x
    | .panic => .panic
    | .err =>
      match angle 0 r with
      | some (inner, r') => .ok (.raw (.punct '<' j :: inner), r')
      | none => .ok (.none, ts)
  | _ => .ok (.none, ts)

/-- types.rs:44-55: `{{vtable.shim}}`. -/
def vtableShim : List Tok → Bool × List Tok
  | .group .brace [.group .brace [.ident a, .punct '.' j, .ident b]] :: r =>
    if a = chars! "vtable" ∧ b = chars! "shim" then (true, r)
    else (false, .group .brace [.group .brace [.ident a, .punct '.' j, .ident b]] :: r)
  | ts => (false, ts)

/-- types.rs:66-72 `PathSegment`. -/
def segment (lib : Lib) (ty : P Ty) : P Seg := fun ts =>
  match ts with
  | .ident s :: r => (generics lib ty r).bind fun (g, r') => .ok (.named s g (vtableShim r').1, (vtableShim r').2)
  | .punct '<' j :: r =>
    match angle 0 r with
    | some (inner, r') => .ok (.qualified (.punct '<' j :: inner), r')
    | none => .err
  | .group .brace [.ident s] :: r => if s = chars! "vtable_type" then .ok (.vtable, r) else .err
  | .group .brace (.ident s :: .punct '#' _ :: n) :: r =>
    if s = chars! "impl" then (whole (number n)).bind fun n => .ok (.impl n, r) else .err
  | _ => .err

/-- types.rs:146-150 `Slice`. -/
def sliceTy (ty : P Ty) : P Ty
  | .punct '&' _ :: .group .bracket g :: r => (whole (ty g)).bind fun t => .ok (.slice t, r)
  | _ => .err

/-- types.rs:152-156 `StrSlice`. -/
def strTy : P Ty
  | .punct '&' _ :: .ident s :: r => if s = chars! "str" then .ok (.str, r) else .err
  | _ => .err

/-- The `Optional<Mut>` of types.rs:88. -/
def optMut : List Tok → Bool × List Tok
  | .ident s :: r => if s = chars! "mut" then (true, r) else (false, .ident s :: r)
  | ts => (false, ts)

/-- types.rs:85-90 `RefType`. -/
def refTy (ty : P Ty) : P Ty
  | .punct '&' _ :: r => (ty (optMut r).2).bind fun (t, r') => .ok (.ref (optMut r).1 t, r')
  | _ => .err

/-- `PunctAny<'!'>`, types.rs:164. -/
def neverTy : P Ty
  | .punct '!' _ :: r => .ok (.never, r)
  | _ => .err

/-- types.rs:94-98 `ArraySize`. -/
def arraySize (ty : P Ty) : P Size := fun ts =>
  orTry ((number ts).bind fun (n, r) => .ok (.fixed n, r))
    fun _ => (ty ts).bind fun (t, r) => .ok (.generic t, r)

/-- The optional size of types.rs:104. -/
def optSize (ty : P Ty) : P Size := fun ts =>
  match ts with
  | .punct ';' _ :: r => orTry (arraySize ty r) fun _ => .ok (.none, ts)
  | _ => .ok (.none, ts)

/-- types.rs:101-110 `Array`. -/
def arrayTy (ty : P Ty) : P Ty
  | .group .bracket g :: r =>
    (whole ((ty g).bind fun (t, g') => (optSize ty g').bind fun (n, g'') => .ok (Ty.array t n, g''))).bind
      fun t => .ok (t, r)
  | _ => .err

/-- The `Optional<FnResult>` of types.rs:132-136, 143. -/
def fnRet (ty : P Ty) : P OptTy := fun ts =>
  match ts with
  | .punct '-' true :: .punct '>' _ :: r =>
    orTry ((ty r).bind fun (t, r') => .ok (.some t, r')) fun _ => .ok (.none, ts)
  | _ => .ok (.none, ts)

/-- The `Optional<Unsafe>` of types.rs:140. -/
def optUnsafe : List Tok → Bool × List Tok
  | .ident s :: r => if s = chars! "unsafe" then (true, r) else (false, .ident s :: r)
  | ts => (false, ts)

/-- types.rs:138-144 `FnType`. -/
def fnTy (lib : Lib) (ty : P Ty) : P Ty := fun ts =>
  match (optUnsafe ts).2 with
  | .ident s :: .group .paren g :: r =>
    if s = chars! "fn" then
      (whole (delimitedVec lib ty comma g)).bind fun as =>
        (fnRet ty r).bind fun (ret, r') => .ok (.fn (optUnsafe ts).1 (Tys.ofList as) ret, r')
    else .err
  | _ => .err

/-- types.rs:74-78 `DynTrait`. -/
def dynTy (lib : Lib) (ty : P Ty) : P Ty
  | .ident s :: r =>
    if s = chars! "dyn" then (delimitedVec lib ty plus r).bind fun (ts, r') => .ok (.dyn (Tys.ofList ts), r')
    else .err
  | _ => .err

/-- `ManyTypes`, types.rs:112-113: types with a comma after each. -/
def manyTypes (ty : P Ty) : Nat → P (List Ty)
  | 0, _ => .panic
  | k + 1, ts =>
    match ty ts with
    | .panic => .panic
    | .err => .ok ([], ts)
    | .ok (t, r) =>
      match comma r with
      | none => .ok ([], ts)
      | some r' => (manyTypes ty k r').bind fun (as, r'') => .ok (t :: as, r'')

/-- `Optional<PunctAny<','>>` and the end of the group. -/
def lastComma : List Tok → Bool
  | [] => true
  | [.punct ',' _] => true
  | _ => false

/-- types.rs:112-130 `Tuple`. -/
def tupleTy (ty : P Ty) : P Ty
  | .group .paren g :: r =>
    if g.isEmpty then .ok (.tuple .nil, r)
    else
      (orTry ((ty g).bind fun (t, g') => if lastComma g' then .ok [t] else .err) fun _ =>
        (manyTypes ty (g.length + 1) g).bind fun (as, g') =>
          if as.isEmpty then .err
          else (ty g').bind fun (t, g'') => if lastComma g'' then .ok (as ++ [t]) else .err).bind
        fun as => .ok (.tuple (Tys.ofList as), r)
  | _ => .err

/-- types.rs:80-84 `PtrType`. -/
def ptrTy (ty : P Ty) : P Ty
  | .punct '*' _ :: .ident s :: r =>
    if s = chars! "const" then (ty r).bind fun (t, r') => .ok (.ptr false t, r')
    else if s = chars! "mut" then (ty r).bind fun (t, r') => .ok (.ptr true t, r')
    else .err
  | _ => .err

/-- types.rs:174-178 `Path`. -/
def pathTy (lib : Lib) (ty : P Ty) : P Ty := fun ts =>
  (delimitedVec lib (segment lib ty) pathSep ts).bind fun (ss, r) => .ok (.path (Segs.ofList ss), r)

/-- types.rs:159-172: the alternatives of `Type`, in order. -/
def alternatives (lib : Lib) (ty : P Ty) : P Ty := fun ts =>
  orTry (sliceTy ty ts) fun _ => orTry (strTy ts) fun _ => orTry (refTy ty ts) fun _ =>
  orTry (neverTy ts) fun _ => orTry (arrayTy ty ts) fun _ => orTry (fnTy lib ty ts) fun _ =>
  orTry (dynTy lib ty ts) fun _ => orTry (tupleTy ty ts) fun _ => orTry (ptrTy ty ts) fun _ =>
  pathTy lib ty ts

/-- types.rs:159-172 `Type`. The number bounds the nesting; running out of it is a stack overflow. -/
def typeP (lib : Lib) : Nat → P Ty
  | 0, _ => .panic
  | n + 1, ts => alternatives lib (typeP lib n) ts

mutual
/-- The number of tokens in a token tree. -/
def Tok.size : Tok → Nat
  | .ident _ => 1
  | .punct _ _ => 1
  | .lit _ => 1
  | .group _ ts => 2 + toksSize ts
/-- The number of tokens in a list of token trees. -/
def toksSize : List Tok → Nat
  | [] => 0
  | t :: ts => t.size + toksSize ts
end

/-- types.rs:450-454 `parse_type`. The number bounds the nesting; it is more than the grammar needs. -/
def parseType (lib : Lib) (s : Str) : Res Ty :=
  (lib.lex s).bind fun ts => whole (typeP lib (s.length + toksSize ts + 2) ts)

/-! ### Printing (types.rs:239-361) -/

/-- The tokens of a segment that is printed as its tokens. -/
def Seg.tokens : Seg → List Tok
  | .named .. => []
  | .qualified ts => ts
  | .vtable => [.group .brace [.ident (chars! "vtable_type")]]
  | .impl n => [.group .brace [.ident (chars! "impl"), .punct '#' false, .lit (natStr n)]]

/-- The tokens of `* const` and `* mut`, types.rs:82. -/
def ptrTokens (m : Bool) : List Tok :=
  [.punct '*' false, .ident (if m then chars! "mut" else chars! "const")]

mutual
/-- types.rs:299-327 `Display for Type`, with `Array` (239-251), `DynTrait` (253-261), `FnType`
(275-296) and `Path` (269-273). -/
def Ty.print (render : List Tok → Str) : Ty → Str
  | .slice t => chars! "&[" ++ t.print render ++ chars! "]"
  | .str => chars! "&str"
  | .ref m t => chars! "&" ++ (if m then chars! "mut " else []) ++ t.print render
  | .never => chars! "!"
  | .array t n => chars! "[" ++ t.print render ++ n.print render ++ chars! "]"
  | .fn _ args ret => chars! "fn(" ++ joinWith (chars! ", ") (args.prints render) ++ chars! ")" ++ ret.print render
  | .dyn ts => chars! "dyn " ++ joinWith (chars! " + ") (ts.prints render)
  | .tuple (.cons t .nil) => chars! "(" ++ t.print render ++ chars! ",)"
  | .tuple ts => chars! "(" ++ joinWith (chars! ", ") (ts.prints render) ++ chars! ")"
  | .ptr m t => render (ptrTokens m) ++ t.print render
  | .path ss => joinWith (chars! "::") (ss.prints render)
/-- types.rs:242-247. -/
def Size.print (render : List Tok → Str) : Size → Str
  | .none => []
  | .fixed n => chars! "; " ++ natStr n
  | .generic t => chars! "; " ++ t.print render
/-- types.rs:292-294. -/
def OptTy.print (render : List Tok → Str) : OptTy → Str
  | .none => []
  | .some t => chars! " -> " ++ t.print render
/-- The types of a list. -/
def Tys.prints (render : List Tok → Str) : Tys → List Str
  | .nil => []
  | .cons t ts => t.print render :: ts.prints render
/-- types.rs:329-361 `Path::segments`: one segment (the shim is not printed). -/
def Seg.print (render : List Tok → Str) : Seg → Str
  | .named id g _ => id ++ g.print render
  | s => render s.tokens
/-- types.rs:339-354. -/
def Gen.print (render : List Tok → Str) : Gen → Str
  | .none => []
  | .args ts => chars! "<" ++ joinWith (chars! ", ") (ts.prints render) ++ chars! ">"
  | .raw ts => render ts
/-- types.rs:329-361 `Path::segments`. -/
def Segs.prints (render : List Tok → Str) : Segs → List Str
  | .nil => []
  | .cons s ss => s.print render :: ss.prints render
end

/-! ### Layouts (types.rs:456-831) -/

/-- A layout without a location. -/
def bare (l : Layout) : TypeDef := .mk none l

/-- types.rs:563-606: the primitive types by name. -/
def primitiveOf (s : Str) : Option Layout :=
  if s = chars! "u8" then some (.uint 1)
  else if s = chars! "u16" then some (.uint 2)
  else if s = chars! "u32" then some (.uint 4)
  else if s = chars! "u64" then some (.uint 8)
  else if s = chars! "u128" then some (.uint 16)
  else if s = chars! "usize" then some (.uint 8)
  else if s = chars! "i8" then some (.int 1)
  else if s = chars! "i16" then some (.int 2)
  else if s = chars! "i32" then some (.int 4)
  else if s = chars! "i64" then some (.int 8)
  else if s = chars! "i128" then some (.int 16)
  else if s = chars! "isize" then some (.int 8)
  else if s = chars! "f32" then some (.float 4)
  else if s = chars! "f64" then some (.float 8)
  else if s = chars! "bool" then some .bool
  else if s = chars! "char" then some .char
  else if s = chars! "str" then some .str
  else if s = chars! "()" then some .unit
  else none

/-- The n-th generic argument, or `Unknown` (types.rs:655-665 and so on). -/
def argOr (as : List Layout) (n : Nat) : TypeDef := bare (as[n]?.getD (.alias (chars! "Unknown")))

/-- types.rs:803-813. -/
def smartPtrOf (id : Str) : Option SmartPtr :=
  if id = chars! "Box" then some .box
  else if id = chars! "Rc" then some .rc
  else if id = chars! "Arc" then some .arc
  else if id = chars! "Cell" then some .cell
  else if id = chars! "RefCell" then some .refCell
  else if id = chars! "UnsafeCell" then some .unsafeCell
  else if id = chars! "Mutex" then some .mutex
  else if id = chars! "RwLock" then some .rwLock
  else none

/-- types.rs:639-822: the standard library types by name. -/
def stdOf (id : Str) (as : List Layout) : Option Layout :=
  if id = chars! "String" then some (.string 0 0 0 (bare (.uint 1)))
  else if id = chars! "Vec" then some (.vec 0 0 0 (argOr as 0))
  else if id = chars! "Option" then
    some (.option (chars! "Option") { ty := .implicit, offset := 0 } 0 (argOr as 0) 0)
  else if id = chars! "Result" then
    some (.result (chars! "Result") { ty := .implicit, offset := 0 } (argOr as 0) 0 (argOr as 1) 0 0)
  else if id = chars! "HashMap" then some (.map (.hashMap 0 0 0 0 0 0) (argOr as 0) (argOr as 1))
  else if id = chars! "BTreeMap" then
    some (.map (.btreeMap 0 0 0 0 { keysOff := 0, valsOff := 0, lenOff := 0, edgesOff := 0 }) (argOr as 0) (argOr as 1))
  else (smartPtrOf id).map fun v => .smartPtr v (argOr as 0) 0 0

/-- types.rs:608-614: the first segment names a standard library crate (or hashbrown). -/
def isStdRoot (s : Str) : Bool :=
  s == chars! "std" || s == chars! "core" || s == chars! "alloc" || s == chars! "hashbrown"

/-- types.rs:550-831 `Path::as_typedef`, given the texts of the segments and the name and generic
arguments of the last segment, if it is a plain one. -/
def pathLayout (texts : List Str) (last : Option (Str × List Layout)) : Layout :=
  match texts.head?, texts.getLast? with
  | some first, some lastText =>
    match (if texts.length = 1 then primitiveOf lastText else none) with
    | some l => l
    | none =>
      match (if isStdRoot first || texts.length = 1 then last.bind fun (id, as) => stdOf id as else none) with
      | some l => l
      | none => .alias lastText
  | _, _ => .alias []

/-- Members without names and offsets. -/
def membersFrom : List Layout → Members
  | [] => .nil
  | l :: ls => .cons [] 0 (bare l) (membersFrom ls)

mutual
/-- types.rs:457-547 `Type::as_layout`. -/
def Ty.layout (render : List Tok → Str) : Ty → Layout
  | .path ss => pathLayout (ss.prints render) (ss.last render)
  | .slice t => .slice (bare (t.layout render)) 0 0
  | .str => .strSlice 0 0
  | .ref m t => .reference m (bare (t.layout render))
  | .ptr m t => .pointer m (bare (t.layout render))
  | .array t n => .array (bare (t.layout render)) (match n with | .fixed k => k | _ => 0)
  | .tuple .nil => .unit
  | .tuple ts => .tuple (membersFrom (ts.layouts render)) 0
  | .dyn ts => .alias ((Ty.dyn ts).print render)
  | .fn _ args ret => .function (ret.layout render) (membersFrom (args.layouts render))
  | .never => .never
/-- types.rs:532-534. -/
def OptTy.layout (render : List Tok → Str) : OptTy → OptTypeDef
  | .none => .none
  | .some t => .some (bare (t.layout render))
/-- The layouts of a list. -/
def Tys.layouts (render : List Tok → Str) : Tys → List Layout
  | .nil => []
  | .cons t ts => t.layout render :: ts.layouts render
/-- types.rs:617-635: the name and the generic arguments of the last segment. -/
def Segs.last (render : List Tok → Str) : Segs → Option (Str × List Layout)
  | .nil => none
  | .cons s .nil => s.lastOf render
  | .cons _ ss => ss.last render
/-- types.rs:617-635. -/
def Seg.lastOf (render : List Tok → Str) : Seg → Option (Str × List Layout)
  | .named id g _ => some (id, g.layouts render)
  | _ => none
/-- types.rs:622-635 `get_generics`. -/
def Gen.layouts (render : List Tok → Str) : Gen → List Layout
  | .args ts => ts.layouts render
  | _ => []
end

/-! ### Type names and looking types up -/

/-- names.rs:13-25 `TypeName`. -/
structure TypeName where
  modulePath : List Str
  name : Str
  fullName : Str
  typedef : Layout

/-- names.rs:69-73. -/
def fullText (path : List Str) (name : Str) : Str :=
  if path.isEmpty then name else joinWith (chars! "::") path ++ chars! "::" ++ name

/-- names.rs:62-101 `TypeName::parse`. -/
def TypeName.parse (lib : Lib) (path : List Str) (name : Str) : Res TypeName :=
  (parseType lib (fullText path name)).bind fun t =>
    .ok { modulePath := path, name := (t.layout lib.render).displayName, fullName := fullText path name
          typedef := t.layout lib.render }

/-- types/index.rs:13-38 `get_die_typename`, as the layout `typedef` of type resolution. `none` if the
name does not parse. -/
def dieTypedef (lib : Lib) (ix : ModuleIndex) (db : Db) (e : Nat) : Res (Option Layout) :=
  match ix.findByOffset e with
  | none => .ok none
  | some r =>
    match dieName db e with
    | .panic => .panic
    | .err => .ok none
    | .ok n =>
      match TypeName.parse lib r.path n with
      | .ok t => .ok (some t.typedef)
      | .err => .ok none
      | .panic => .panic

/-- types/index.rs:73-80: the kinds of entries that are considered. -/
def isTypeTag : Option Tag → Bool
  | some .structureType | some .enumerationType | some .arrayType | some .pointerType | some .baseType => true
  | _ => false

/-- types/index.rs:72-96: the first child whose name parses to a matching type. -/
def findInChildren (lib : Lib) (db : Db) (t : TypeName) : List Nat → Res (Option Nat)
  | [] => .ok none
  | c :: cs =>
    if isTypeTag (tag db c) then
      match dieName db c with
      | .panic => .panic
      | .err => findInChildren lib db t cs
      | .ok n =>
        match TypeName.parse lib t.modulePath n with
        | .panic => .panic
        | .err => findInChildren lib db t cs
        | .ok p => if p.typedef.matching t.typedef then .ok (some c) else findInChildren lib db t cs
    else findInChildren lib db t cs

/-- types/index.rs:65-97: the entries of the module, in order (`children(db).unwrap_or_default()`; the
`unwrap` of the module's name is inside a logging call and dropped). -/
def findInEntries (lib : Lib) (db : Db) (t : TypeName) : List Die → Res (Option Nat)
  | [] => .ok none
  | m :: ms =>
    match db.children m.off with
    | .panic => .panic
    | r =>
      (findInChildren lib db t (match r with | .ok cs => cs | _ => [])).bind fun
        | some c => .ok (some c)
        | none => findInEntries lib db t ms

/-- types/index.rs:40-103 `find_type_by_name`. -/
def findTypeByName (lib : Lib) (ix : ModuleIndex) (db : Db) (t : TypeName) : Res (Option Nat) :=
  match ix.findByPath t.modulePath with
  | none => .ok none
  | some m => findInEntries lib db t m.entries

/-- `str::split("::")`. -/
def splitColons : Str → List Str
  | [] => [[]]
  | ':' :: ':' :: cs => [] :: splitColons cs
  | c :: cs =>
    match splitColons cs with
    | [] => [[c]]
    | s :: ss => (c :: s) :: ss

/-- rudy-db/src/index.rs:243-259: the module path and the name in a text; only the part before the first
`<` is split. -/
def splitName (s : Str) : List Str × Str :=
  let (before, after) := (s.takeWhile (· != '<'), s.dropWhile (· != '<'))
  let segs := splitColons before
  (segs.dropLast, segs.getLast?.getD [] ++ after)

/-- The debug files type lookup goes through. -/
structure TypeWorld where
  indexed : List Nat
  file : Nat → Db
  modules : Nat → ModuleIndex
  resolve : Nat → Nat → Res TypeDef

/-- rudy-db/src/index.rs:275-282: the first file that has the type decides. -/
def findInFiles (lib : Lib) (w : TypeWorld) (t : TypeName) : List Nat → Res (Option TypeDef)
  | [] => .ok none
  | f :: fs =>
    (findTypeByName lib (w.modules f) (w.file f) t).bind fun
      | some e => (w.resolve f e).bind fun ty => .ok (some ty)
      | none => findInFiles lib w t fs

/-- rudy-db/src/index.rs:238-286 `resolve_type`, `DebugInfo::lookup_type_by_name`
(debug_info.rs:453-455). -/
def lookupTypeByName (lib : Lib) (w : TypeWorld) (s : Str) : Res (Option TypeDef) :=
  (TypeName.parse lib (splitName s).1 (splitName s).2).bind fun t => findInFiles lib w t w.indexed

end Rudy.TypeNames
