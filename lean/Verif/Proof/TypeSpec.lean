import Verif.Proof.TypeNames
/-
What the names of types mean, independently of the parser: a relation between a name as the compiler
writes it, the name as it is printed back, and the layout it stands for.
-/
namespace Rudy.TypeNames
open Rudy Rudy.Layout Rudy.Expr

/-- The tokens `*const` and `*mut`, `{vtable_type}` and `{impl#n}` as the compiler writes them. -/
def rustRender (ts : List Tok) : Str :=
  match ts with
  | [.punct '*' _, .ident s] => chars! "*" ++ s ++ chars! " "
  | [.group .brace [.ident s]] => chars! "{" ++ s ++ chars! "}"
  | [.group .brace [.ident s, .punct '#' _, .lit n]] => chars! "{" ++ s ++ chars! "#" ++ n ++ chars! "}"
  | _ => []

/-- An identifier with the names of its generic arguments. -/
def withArgs (id : Str) (args : List Str) : Str :=
  match args with
  | [] => id
  | _ => id ++ chars! "<" ++ joinWith (chars! ", ") args ++ chars! ">"

/-- A name in a module. -/
def qualify (path : List Str) (last : Str) : Str := joinWith (chars! "::") (path ++ [last])

/-- The primitive types. -/
def primTable : List (Str × Layout) :=
  [(chars! "u8", .uint 1), (chars! "u16", .uint 2), (chars! "u32", .uint 4), (chars! "u64", .uint 8),
   (chars! "u128", .uint 16), (chars! "usize", .uint 8), (chars! "i8", .int 1), (chars! "i16", .int 2),
   (chars! "i32", .int 4), (chars! "i64", .int 8), (chars! "i128", .int 16), (chars! "isize", .int 8),
   (chars! "f32", .float 4), (chars! "f64", .float 8), (chars! "bool", .bool), (chars! "char", .char),
   (chars! "str", .str)]

/-- The smart pointers. -/
def smartTable : List (Str × SmartPtr) :=
  [(chars! "Box", .box), (chars! "Rc", .rc), (chars! "Arc", .arc), (chars! "Cell", .cell),
   (chars! "RefCell", .refCell), (chars! "UnsafeCell", .unsafeCell), (chars! "Mutex", .mutex),
   (chars! "RwLock", .rwLock)]

/-- What stands for a generic argument that is not written. -/
def unknownArg : TypeDef := .mk none (.alias (chars! "Unknown"))

/-- The standard library types, by name and generic arguments; further arguments (allocators, hashers)
are ignored. Offsets and sizes are not known from a name and 0. -/
inductive StdNamed : Str → List Layout → Layout → Prop
  | string (as) : StdNamed (chars! "String") as (.string 0 0 0 (.mk none (.uint 1)))
  | vec (a as) : StdNamed (chars! "Vec") (a :: as) (.vec 0 0 0 (.mk none a))
  | option (a as) : StdNamed (chars! "Option") (a :: as)
      (.option (chars! "Option") { ty := .implicit, offset := 0 } 0 (.mk none a) 0)
  | result (a b as) : StdNamed (chars! "Result") (a :: b :: as)
      (.result (chars! "Result") { ty := .implicit, offset := 0 } (.mk none a) 0 (.mk none b) 0 0)
  | hashMap (a b as) : StdNamed (chars! "HashMap") (a :: b :: as) (.map (.hashMap 0 0 0 0 0 0) (.mk none a) (.mk none b))
  | btreeMap (a b as) : StdNamed (chars! "BTreeMap") (a :: b :: as)
      (.map (.btreeMap 0 0 0 0 { keysOff := 0, valsOff := 0, lenOff := 0, edgesOff := 0 }) (.mk none a) (.mk none b))
  | smart (id v a as) : (id, v) ∈ smartTable → StdNamed id (a :: as) (.smartPtr v (.mk none a) 0 0)
  /-- Arguments that are not written, as in `std::io::Result<u8>`, count as a type `Unknown`. -/
  | vecOf : StdNamed (chars! "Vec") [] (.vec 0 0 0 unknownArg)
  | optionOf : StdNamed (chars! "Option") [] (.option (chars! "Option") { ty := .implicit, offset := 0 } 0 unknownArg 0)
  | resultOf : StdNamed (chars! "Result") [] (.result (chars! "Result") { ty := .implicit, offset := 0 } unknownArg 0 unknownArg 0 0)
  | resultOne (a) : StdNamed (chars! "Result") [a] (.result (chars! "Result") { ty := .implicit, offset := 0 } (.mk none a) 0 unknownArg 0 0)
  | hashMapOf : StdNamed (chars! "HashMap") [] (.map (.hashMap 0 0 0 0 0 0) unknownArg unknownArg)
  | hashMapOne (a) : StdNamed (chars! "HashMap") [a] (.map (.hashMap 0 0 0 0 0 0) (.mk none a) unknownArg)
  | btreeMapOf : StdNamed (chars! "BTreeMap") []
      (.map (.btreeMap 0 0 0 0 { keysOff := 0, valsOff := 0, lenOff := 0, edgesOff := 0 }) unknownArg unknownArg)
  | btreeMapOne (a) : StdNamed (chars! "BTreeMap") [a]
      (.map (.btreeMap 0 0 0 0 { keysOff := 0, valsOff := 0, lenOff := 0, edgesOff := 0 }) (.mk none a) unknownArg)
  | smartOf (id v) : (id, v) ∈ smartTable → StdNamed id [] (.smartPtr v unknownArg 0 0)

/-- The names of `StdNamed`. -/
def stdNames : List Str :=
  [chars! "String", chars! "Vec", chars! "Option", chars! "Result", chars! "HashMap", chars! "BTreeMap", chars! "Box",
   chars! "Rc", chars! "Arc", chars! "Cell", chars! "RefCell", chars! "UnsafeCell", chars! "Mutex", chars! "RwLock"]

/-- The crates of the standard library. -/
def stdRoots : List Str := [chars! "std", chars! "core", chars! "alloc", chars! "hashbrown"]

/-- A path that can be written before a name: identifiers, the first of which is not a keyword that
starts another kind of type. -/
def PathOk (path : List Str) (id : Str) : Prop :=
  (∀ x ∈ path, IsIdent x) ∧ IsIdent id ∧
  (path ++ [id]).head? ∉ [some (chars! "dyn"), some (chars! "fn"), some (chars! "unsafe"), some (chars! "mut")]

/-- The path is that of a standard library type, or there is none (the prelude form). -/
def StdPath (path : List Str) : Prop := path = [] ∨ ∃ r rest, path = r :: rest ∧ r ∈ stdRoots

/-- What stands between `::` in the middle of a path: an identifier, an implementation block `{impl#n}`
or `{vtable_type}`. The last two are printed by the library from their tokens. -/
inductive Middle (render : List Tok → Str) : List Str → List Str → Prop
  | nil : Middle render [] []
  | word (x xs ys) : IsIdent x → Middle render xs ys → Middle render (x :: xs) (x :: ys)
  | impl (n xs ys) : n < 2 ^ 64 → Middle render xs ys →
      Middle render ((chars! "{impl#" ++ natStr n ++ chars! "}") :: xs)
        (render [.group .brace [.ident (chars! "impl"), .punct '#' false, .lit (natStr n)]] :: ys)
  | vtable (xs ys) : Middle render xs ys →
      Middle render (chars! "{vtable_type}" :: xs) (render [.group .brace [.ident (chars! "vtable_type")]] :: ys)

/-- Members without names. -/
def anonymous : List Layout → Members
  | [] => .nil
  | l :: ls => .cons [] 0 (.mk none l) (anonymous ls)

mutual
/-- The path `name` is printed as `shown` and stands for the layout. -/
inductive PathName (render : List Tok → Str) : Str → Str → Layout → Prop
  | prim (s l) : (s, l) ∈ primTable → PathName render s s l
  | std (path id args shown ls l) : StdPath path → PathOk path id → StdNamed id ls l → Many render args shown ls →
      PathName render (qualify path (withArgs id args)) (qualify path (withArgs id shown)) l
  | other (path id args shown ls) : PathOk path id → (path ++ [id]).head? ≠ some (chars! "str") →
      (path = [] → ∀ l, (id, l) ∉ primTable) → (StdPath path → id ∉ stdNames) → Many render args shown ls →
      PathName render (qualify path (withArgs id args)) (qualify path (withArgs id shown)) (.alias (withArgs id shown))
  /-- A type declared in an implementation block, as in `app::{impl#0}::Local`. -/
  | within (root ws vs id args shown ls) : PathOk [root] id → root ≠ chars! "str" → (root ∈ stdRoots → id ∉ stdNames) →
      Middle render ws vs → Many render args shown ls →
      PathName render (qualify (root :: ws) (withArgs id args)) (qualify (root :: vs) (withArgs id shown)) (.alias (withArgs id shown))
/-- The type `name` is printed as `shown` and stands for the layout. -/
inductive Names (render : List Tok → Str) : Str → Str → Layout → Prop
  | path (s p l) : PathName render s p l → Names render s p l
  | slice (s p l) : Names render s p l →
      Names render (chars! "&[" ++ s ++ chars! "]") (chars! "&[" ++ p ++ chars! "]") (.slice (.mk none l) 0 0)
  | str : Names render (chars! "&str") (chars! "&str") (.strSlice 0 0)
  | ref (s p l) : Names render s p l → l ≠ .str → (∀ e, l ≠ .array e 0) →
      Names render (chars! "&" ++ s) (chars! "&" ++ p) (.reference false (.mk none l))
  | refMut (s p l) : Names render s p l →
      Names render (chars! "&mut " ++ s) (chars! "&mut " ++ p) (.reference true (.mk none l))
  | never : Names render (chars! "!") (chars! "!") .never
  | array (s p l n) : Names render s p l → n < 2 ^ 64 →
      Names render (chars! "[" ++ s ++ chars! "; " ++ natStr n ++ chars! "]")
        (chars! "[" ++ p ++ chars! "; " ++ natStr n ++ chars! "]") (.array (.mk none l) n)
  | unsized (s p l) : Names render s p l →
      Names render (chars! "[" ++ s ++ chars! "]") (chars! "[" ++ p ++ chars! "]") (.array (.mk none l) 0)
  | unit : Names render (chars! "()") (chars! "()") .unit
  | single (s p l) : Names render s p l →
      Names render (chars! "(" ++ s ++ chars! ",)") (chars! "(" ++ p ++ chars! ",)") (.tuple (anonymous [l]) 0)
  | tuple (s ss p ps l ls) : Names render s p l → ss ≠ [] → Many render ss ps ls →
      Names render (chars! "(" ++ joinWith (chars! ", ") (s :: ss) ++ chars! ")")
        (chars! "(" ++ joinWith (chars! ", ") (p :: ps) ++ chars! ")") (.tuple (anonymous (l :: ls)) 0)
  | fn (s ss p ps l ls) : Names render s p l → Many render ss ps ls →
      Names render (chars! "fn(" ++ joinWith (chars! ", ") (s :: ss) ++ chars! ")")
        (chars! "fn(" ++ joinWith (chars! ", ") (p :: ps) ++ chars! ")") (.function .none (anonymous (l :: ls)))
  | fnRet (s ss p ps l ls s' p' l') : Names render s p l → Many render ss ps ls → Names render s' p' l' →
      Names render (chars! "fn(" ++ joinWith (chars! ", ") (s :: ss) ++ chars! ") -> " ++ s')
        (chars! "fn(" ++ joinWith (chars! ", ") (p :: ps) ++ chars! ") -> " ++ p')
        (.function (.some (.mk none l')) (anonymous (l :: ls)))
  | dyn (s ss p ps l) : PathName render s p l → Traits render ss ps →
      Names render (chars! "dyn " ++ joinWith (chars! " + ") (s :: ss)) (chars! "dyn " ++ joinWith (chars! " + ") (p :: ps))
        (.alias (chars! "dyn " ++ joinWith (chars! " + ") (p :: ps)))
  | const (s p l) : Names render s p l →
      Names render (chars! "*const " ++ s) (render (ptrTokens false) ++ p) (.pointer false (.mk none l))
  | mutPtr (s p l) : Names render s p l →
      Names render (chars! "*mut " ++ s) (render (ptrTokens true) ++ p) (.pointer true (.mk none l))
/-- The names of several types. -/
inductive Many (render : List Tok → Str) : List Str → List Str → List Layout → Prop
  | nil : Many render [] [] []
  | cons (s ss p ps l ls) : Names render s p l → Many render ss ps ls → Many render (s :: ss) (p :: ps) (l :: ls)
/-- The names of several traits. -/
inductive Traits (render : List Tok → Str) : List Str → List Str → Prop
  | nil : Traits render [] []
  | cons (s ss p ps l) : PathName render s p l → Traits render ss ps → Traits render (s :: ss) (p :: ps)
end

/-! ### The parser meets the specification -/

variable {render : List Tok → Str}

/-- The parsed type has this name, is printed like this and has this layout. -/
structure Rep (render : List Tok → Str) (s p : Str) (l : Layout) (t : Ty) : Prop where
  plain : t.Plain rustRender
  text : t.print rustRender = s
  shown : t.print render = p
  layout : t.layout render = l
  notUnsized : t.isUnsized = true → ∃ e, l = .array e 0
  notStr : t.isStrPath = true → l = .str

/-- The same for a list. -/
structure RepMany (render : List Tok → Str) (ss ps : List Str) (ls : List Layout) (ts : Tys) : Prop where
  plain : ts.Plain rustRender
  text : ts.prints rustRender = ss
  shown : ts.prints render = ps
  layout : ts.layouts render = ls

theorem RepMany.nil_iff {ss ps : List Str} {ls : List Layout} {ts : Tys} (h : RepMany render ss ps ls ts) :
    ts = .nil ↔ ss = [] := by
  cases ts with
  | nil => simp [← h.text, Tys.prints]
  | cons t ts => simp [← h.text, Tys.prints]

theorem anonymous_eq (ls : List Layout) : anonymous ls = membersFrom ls := by
  induction ls with
  | nil => rfl
  | cons l ls ih => simp [anonymous, membersFrom, ih, bare]

/-- The segments of a path. -/
def pathSegs : List Str → Seg → Segs
  | [], s => .cons s .nil
  | x :: xs, s => .cons (.named x .none false) (pathSegs xs s)

theorem pathSegs_prints (r : List Tok → Str) (path : List Str) (s : Seg) :
    (pathSegs path s).prints r = path ++ [s.print r] := by
  induction path with
  | nil => rfl
  | cons x xs ih => simp [pathSegs, Segs.prints, ih, Seg.print, Gen.print]

theorem pathSegs_ne (path : List Str) (s : Seg) : pathSegs path s ≠ .nil := by
  cases path <;> simp [pathSegs]

theorem pathSegs_last (r : List Tok → Str) (path : List Str) (s : Seg) :
    (pathSegs path s).last r = s.lastOf r := by
  induction path with
  | nil => rfl
  | cons x xs ih =>
    cases xs with
    | nil => simp [pathSegs, Segs.last]
    | cons y ys => simpa [pathSegs, Segs.last] using ih

theorem pathSegs_plain (r : List Tok → Str) (path : List Str) (s : Seg) (hp : ∀ x ∈ path, IsIdent x) (hs : s.Plain r) :
    (pathSegs path s).Plain r := by
  induction path with
  | nil => exact ⟨hs, trivial⟩
  | cons x xs ih =>
    exact ⟨⟨hp x (by simp), trivial, rfl⟩, ih (fun y hy => hp y (by simp [hy]))⟩

/-- The generic arguments of a name. -/
def genOf : Tys → Gen
  | .nil => .none
  | ts => .args ts

theorem genOf_plain (r : List Tok → Str) (ts : Tys) (h : ts.Plain r) : (genOf ts).Plain r := by
  cases ts with
  | nil => trivial
  | cons t ts => exact ⟨by simp, h⟩

theorem genOf_print (r : List Tok → Str) (id : Str) (ts : Tys) :
    id ++ (genOf ts).print r = withArgs id (ts.prints r) := by
  cases ts with
  | nil => simp [genOf, Gen.print, withArgs, Tys.prints]
  | cons t ts => simp [genOf, Gen.print, withArgs, Tys.prints]

theorem genOf_layouts (r : List Tok → Str) (ts : Tys) : (genOf ts).layouts r = ts.layouts r := by
  cases ts <;> rfl

/-- A path with generic arguments at its end. -/
def pathType (path : List Str) (id : Str) (ts : Tys) : Ty := .path (pathSegs path (.named id (genOf ts) false))

theorem pathSegs_firstId (path : List Str) (id : Str) (g : Gen) :
    (pathSegs path (.named id g false)).firstId = (path ++ [id]).head? := by
  cases path <;> rfl

theorem pathType_plain (r : List Tok → Str) {path : List Str} {id : Str} (h : PathOk path id) {ts : Tys}
    (ht : ts.Plain r) : (pathType path id ts).Plain r := by
  refine ⟨pathSegs_ne _ _, pathSegs_plain r _ _ h.1 ⟨h.2.1, genOf_plain r ts ht, rfl⟩, ?_⟩
  rw [pathSegs_firstId]
  obtain ⟨w, hw⟩ : ∃ w, (path ++ [id]).head? = some w := by cases path <;> exact ⟨_, rfl⟩
  refine ⟨w, hw, fun hr => ?_⟩
  apply h.2.2
  rw [hw]
  simp only [reserved, List.mem_cons, List.not_mem_nil, or_false] at hr
  rcases hr with rfl | rfl | rfl | rfl <;> simp

theorem pathType_print (r : List Tok → Str) (path : List Str) (id : Str) (ts : Tys) :
    (pathType path id ts).print r = qualify path (withArgs id (ts.prints r)) := by
  simp [pathType, Ty.print, pathSegs_prints, Seg.print, genOf_print, qualify]

theorem pathType_layout (r : List Tok → Str) (path : List Str) (id : Str) (ts : Tys) :
    (pathType path id ts).layout r =
      pathLayout (path ++ [withArgs id (ts.prints r)]) (some (id, ts.layouts r)) := by
  simp [pathType, Ty.layout, pathSegs_prints, Seg.print, genOf_print, pathSegs_last, Seg.lastOf, genOf_layouts]

theorem pathType_isStr (path : List Str) (id : Str) (ts : Tys) :
    (pathType path id ts).isStrPath = ((path ++ [id]).head? == some (chars! "str")) := by
  rw [pathType, Ty.isStrPath, pathSegs_firstId]

/-- Segments before a last one. -/
def segsThen : List Seg → Seg → Segs
  | [], s => .cons s .nil
  | x :: xs, s => .cons x (segsThen xs s)

theorem segsThen_prints (r : List Tok → Str) (xs : List Seg) (s : Seg) :
    (segsThen xs s).prints r = xs.map (·.print r) ++ [s.print r] := by
  induction xs with
  | nil => rfl
  | cons x xs ih => simp [segsThen, Segs.prints, ih]

theorem segsThen_last (r : List Tok → Str) (xs : List Seg) (s : Seg) : (segsThen xs s).last r = s.lastOf r := by
  induction xs with
  | nil => simp [segsThen, Segs.last]
  | cons x xs ih =>
    cases xs with
    | nil => simp [segsThen, Segs.last]
    | cons y ys => simpa [segsThen, Segs.last] using ih

theorem segsThen_plain (r : List Tok → Str) (xs : List Seg) (s : Seg) (hp : ∀ x ∈ xs, x.Plain r) (hs : s.Plain r) :
    (segsThen xs s).Plain r := by
  induction xs with
  | nil => exact ⟨hs, trivial⟩
  | cons x xs ih => exact ⟨hp x (by simp), ih (fun y hy => hp y (by simp [hy]))⟩

theorem middle_segs {ws vs : List Str} (h : Middle render ws vs) : ∃ xs : List Seg, (∀ x ∈ xs, x.Plain rustRender) ∧
    xs.map (·.print rustRender) = ws ∧ xs.map (·.print render) = vs := by
  induction h with
  | nil => exact ⟨[], by simp, rfl, rfl⟩
  | word x _ _ hx _ ih =>
    obtain ⟨xs, h1, h2, h3⟩ := ih
    refine ⟨.named x .none false :: xs, ?_, by simp [Seg.print, Gen.print, h2], by simp [Seg.print, Gen.print, h3]⟩
    intro y hy
    rcases List.mem_cons.1 hy with rfl | hy
    · exact ⟨hx, trivial, rfl⟩
    · exact h1 y hy
  | impl n _ _ hn _ ih =>
    obtain ⟨xs, h1, h2, h3⟩ := ih
    refine ⟨.impl n :: xs, ?_, by simp [Seg.print, Seg.tokens, rustRender, h2], by simp [Seg.print, Seg.tokens, h3]⟩
    intro y hy
    rcases List.mem_cons.1 hy with rfl | hy
    · exact ⟨hn, by simp [Seg.tokens, rustRender, implText]⟩
    · exact h1 y hy
  | vtable _ _ _ ih =>
    obtain ⟨xs, h1, h2, h3⟩ := ih
    refine ⟨.vtable :: xs, ?_, by simp [Seg.print, Seg.tokens, rustRender, h2], by simp [Seg.print, Seg.tokens, h3]⟩
    intro y hy
    rcases List.mem_cons.1 hy with rfl | hy
    · rfl
    · exact h1 y hy

theorem stdOf_stdNamed {id : Str} {ls : List Layout} {l : Layout} (h : StdNamed id ls l) : stdOf id ls = some l := by
  cases h with
  | smart id v a as h =>
    simp only [smartTable, List.mem_cons, Prod.mk.injEq, List.not_mem_nil, or_false] at h
    rcases h with ⟨rfl, rfl⟩ | ⟨rfl, rfl⟩ | ⟨rfl, rfl⟩ | ⟨rfl, rfl⟩ | ⟨rfl, rfl⟩ | ⟨rfl, rfl⟩ | ⟨rfl, rfl⟩ | ⟨rfl, rfl⟩ <;> rfl
  | smartOf id v h =>
    simp only [smartTable, List.mem_cons, Prod.mk.injEq, List.not_mem_nil, or_false] at h
    rcases h with ⟨rfl, rfl⟩ | ⟨rfl, rfl⟩ | ⟨rfl, rfl⟩ | ⟨rfl, rfl⟩ | ⟨rfl, rfl⟩ | ⟨rfl, rfl⟩ | ⟨rfl, rfl⟩ | ⟨rfl, rfl⟩ <;> rfl
  | _ => rfl

theorem stdOf_none {id : Str} (h : id ∉ stdNames) (ls : List Layout) : stdOf id ls = none := by
  simp only [stdNames, List.mem_cons, List.not_mem_nil, or_false, not_or] at h
  simp [stdOf, smartPtrOf, h]

theorem stdNamed_name {id : Str} {ls : List Layout} {l : Layout} (h : StdNamed id ls l) : id ∈ stdNames := by
  cases h with
  | smart id v a as h =>
    simp only [smartTable, List.mem_cons, Prod.mk.injEq, List.not_mem_nil, or_false] at h
    rcases h with ⟨rfl, rfl⟩ | ⟨rfl, rfl⟩ | ⟨rfl, rfl⟩ | ⟨rfl, rfl⟩ | ⟨rfl, rfl⟩ | ⟨rfl, rfl⟩ | ⟨rfl, rfl⟩ | ⟨rfl, rfl⟩ <;> decide
  | smartOf id v h =>
    simp only [smartTable, List.mem_cons, Prod.mk.injEq, List.not_mem_nil, or_false] at h
    rcases h with ⟨rfl, rfl⟩ | ⟨rfl, rfl⟩ | ⟨rfl, rfl⟩ | ⟨rfl, rfl⟩ | ⟨rfl, rfl⟩ | ⟨rfl, rfl⟩ | ⟨rfl, rfl⟩ | ⟨rfl, rfl⟩ <;> decide
  | _ => decide

theorem primitive_table {s : Str} {l : Layout} (h : (s, l) ∈ primTable) : primitiveOf s = some l ∧ IsIdent s ∧ s ∉ reserved := by
  simp only [primTable, List.mem_cons, Prod.mk.injEq, List.not_mem_nil, or_false] at h
  rcases h with ⟨rfl, rfl⟩ | ⟨rfl, rfl⟩ | ⟨rfl, rfl⟩ | ⟨rfl, rfl⟩ | ⟨rfl, rfl⟩ | ⟨rfl, rfl⟩ | ⟨rfl, rfl⟩ | ⟨rfl, rfl⟩ |
    ⟨rfl, rfl⟩ | ⟨rfl, rfl⟩ | ⟨rfl, rfl⟩ | ⟨rfl, rfl⟩ | ⟨rfl, rfl⟩ | ⟨rfl, rfl⟩ | ⟨rfl, rfl⟩ | ⟨rfl, rfl⟩ | ⟨rfl, rfl⟩ <;>
  exact ⟨rfl, ⟨_, _, rfl, by decide, by decide⟩, by decide⟩

/-- A word that is no primitive type is not read as one. -/
theorem primitive_none {s : Str} (h : ∀ l, (s, l) ∉ primTable) (hu : s ≠ chars! "()") : primitiveOf s = none := by
  have h' : ∀ p ∈ primTable, s ≠ p.1 := by
    rintro ⟨a, l⟩ hp rfl
    exact h l hp
  simp only [primTable, List.forall_mem_cons, List.not_mem_nil, false_implies, implies_true, and_true] at h'
  obtain ⟨h1, h2, h3, h4, h5, h6, h7, h8, h9, h10, h11, h12, h13, h14, h15, h16, h17⟩ := h'
  simp [primitiveOf, h1, h2, h3, h4, h5, h6, h7, h8, h9, h10, h11, h12, h13, h14, h15, h16, h17, hu]

/-- A text with generic arguments is no primitive type. -/
theorem primitive_bracket {s : Str} (h : '<' ∈ s) : primitiveOf s = none := by
  have : ∀ p ∈ primTable, '<' ∉ p.1 := by decide
  apply primitive_none
  · intro l hl
    exact this _ hl h
  · rintro rfl; simp at h

theorem isIdent_word {s : Str} (h : IsIdent s) : ∀ c ∈ s, isWord c = true := by
  obtain ⟨c, cs, rfl, h1, h2⟩ := h
  intro x hx
  rcases List.mem_cons.1 hx with rfl | hx
  · simp only [isStart, isWord, Bool.or_eq_true] at h1 ⊢
    rcases h1 with h1 | h1 <;> simp [h1]
  · exact h2 x hx

theorem isStdRoot_iff (s : Str) : isStdRoot s = true ↔ s ∈ stdRoots := by
  simp [isStdRoot, stdRoots, or_assoc]

theorem getLast_path (r : Str) (rest : List Str) (text : Str) : (r :: (rest ++ [text])).getLast? = some text := by
  rw [← List.cons_append, List.getLast?_append]
  rfl

theorem pathLayout_std {path : List Str} {id text : Str} {ls : List Layout} {l : Layout} (hp : StdPath path)
    (hs : StdNamed id ls l) (hprim : path = [] → primitiveOf text = none) :
    pathLayout (path ++ [text]) (some (id, ls)) = l := by
  rcases hp with rfl | ⟨r, rest, rfl, hr⟩
  · simp [pathLayout, hprim rfl, stdOf_stdNamed hs]
  · have := (isStdRoot_iff r).2 hr
    simp [pathLayout, this, stdOf_stdNamed hs, getLast_path]

theorem pathLayout_other {path : List Str} {id text : Str} {ls : List Layout}
    (hs : StdPath path → id ∉ stdNames) (hprim : path = [] → primitiveOf text = none) :
    pathLayout (path ++ [text]) (some (id, ls)) = .alias text := by
  cases path with
  | nil => simp [pathLayout, hprim rfl, stdOf_none (hs (Or.inl rfl))]
  | cons r rest =>
    by_cases hr : r ∈ stdRoots
    · have := (isStdRoot_iff r).2 hr
      simp [pathLayout, this, stdOf_none (hs (Or.inr ⟨r, rest, rfl, hr⟩)), getLast_path]
    · have : isStdRoot r = false := by
        cases h : isStdRoot r with
        | false => rfl
        | true => exact absurd ((isStdRoot_iff r).1 h) hr
      simp [pathLayout, this, getLast_path]

theorem withArgs_prim {id : Str} {args : List Str} (hid : ∀ l, (id, l) ∉ primTable) (hi : IsIdent id) :
    primitiveOf (withArgs id args) = none := by
  cases args with
  | nil =>
    apply primitive_none hid
    rintro rfl
    have := isIdent_word hi '(' (by simp)
    revert this; decide
  | cons a as =>
    apply primitive_bracket
    simp [withArgs]

theorem stdNames_prim {id : Str} (h : id ∈ stdNames) : ∀ l, (id, l) ∉ primTable := by
  intro l hl
  have := primitive_table hl
  simp only [stdNames, List.mem_cons, List.not_mem_nil, or_false] at h
  rcases h with rfl | rfl | rfl | rfl | rfl | rfl | rfl | rfl | rfl | rfl | rfl | rfl | rfl | rfl <;>
    exact absurd this.1 (by simp [primitiveOf])

theorem rustRender_ptr (m : Bool) : rustRender (ptrTokens m) = (if m then chars! "*mut " else chars! "*const ") := by
  cases m <;> rfl

theorem rep_plain_path {s p : Str} {l : Layout} {ss : Segs} (h : Rep render s p l (.path ss)) :
    (Ty.path ss).isPath = true := rfl

mutual
theorem rep_path : {s p : Str} → {l : Layout} → PathName render s p l → ∃ t, Rep render s p l t ∧ t.isPath = true
  | _, _, _, .prim s l h => by
    obtain ⟨h1, h2, h3⟩ := primitive_table h
    have hok : PathOk [] s := ⟨by simp, h2, by
      intro hc
      apply h3
      simp only [reserved, List.nil_append, List.head?_cons, List.mem_cons, Option.some.injEq, List.not_mem_nil, or_false] at hc ⊢
      exact hc⟩
    refine ⟨pathType [] s .nil, ⟨pathType_plain _ hok trivial, ?_, ?_, ?_, ?_, ?_⟩, rfl⟩
    · simp [pathType_print, withArgs, qualify, Tys.prints, joinWith]
    · simp [pathType_print, withArgs, qualify, Tys.prints, joinWith]
    · simp [pathType_layout, withArgs, Tys.prints, pathLayout, h1]
    · intro h; cases h
    · intro hs
      rw [pathType_isStr] at hs
      simp only [List.nil_append, List.head?_cons, beq_iff_eq, Option.some.injEq] at hs
      subst hs
      simp [primitiveOf] at h1
      exact h1.symm
  | _, _, _, .std path id args shown ls l h1 h2 h3 h4 => by
    obtain ⟨ts, hts⟩ := rep_many h4
    refine ⟨pathType path id ts, ⟨pathType_plain _ h2 hts.plain, ?_, ?_, ?_, ?_, ?_⟩, rfl⟩
    · rw [pathType_print, hts.text]
    · rw [pathType_print, hts.shown]
    · rw [pathType_layout, hts.shown, hts.layout]
      exact pathLayout_std h1 h3 (fun _ => withArgs_prim (stdNames_prim (stdNamed_name h3)) h2.2.1)
    · intro h; cases h
    · intro hs
      rw [pathType_isStr] at hs
      have hn := stdNamed_name h3
      exfalso
      rcases h1 with rfl | ⟨r, rest, rfl, hr⟩
      · simp only [List.nil_append, List.head?_cons, beq_iff_eq, Option.some.injEq] at hs
        subst hs
        revert hn; decide
      · simp only [List.cons_append, List.head?_cons, beq_iff_eq, Option.some.injEq] at hs
        subst hs
        revert hr; decide
  | _, _, _, .other path id args shown ls h1 h2 h3 h4 h5 => by
    obtain ⟨ts, hts⟩ := rep_many h5
    refine ⟨pathType path id ts, ⟨pathType_plain _ h1 hts.plain, ?_, ?_, ?_, ?_, ?_⟩, rfl⟩
    · rw [pathType_print, hts.text]
    · rw [pathType_print, hts.shown]
    · rw [pathType_layout, hts.shown, hts.layout]
      exact pathLayout_other h4 (fun hp => withArgs_prim (h3 hp) h1.2.1)
    · intro h; cases h
    · intro hs
      rw [pathType_isStr] at hs
      simp only [beq_iff_eq] at hs
      exact absurd hs h2
  | _, _, _, .within root ws vs id args shown ls h1 h2 h3 h4 h5 => by
    obtain ⟨ts, hts⟩ := rep_many h5
    obtain ⟨xs, hx1, hx2, hx3⟩ := middle_segs h4
    refine ⟨.path (segsThen (.named root .none false :: xs) (.named id (genOf ts) false)), ⟨⟨by simp [segsThen], ?_, root, rfl, ?_⟩, ?_, ?_, ?_, ?_, ?_⟩, rfl⟩
    · refine segsThen_plain _ _ _ ?_ ⟨h1.2.1, genOf_plain _ ts hts.plain, rfl⟩
      intro y hy
      rcases List.mem_cons.1 hy with rfl | hy
      · exact ⟨h1.1 root (by simp), trivial, rfl⟩
      · exact hx1 y hy
    · intro hr
      apply h1.2.2
      simp only [reserved, List.mem_cons, List.not_mem_nil, or_false] at hr
      rcases hr with rfl | rfl | rfl | rfl <;> simp
    · simp [Ty.print, segsThen_prints, Seg.print, Gen.print, hx2, genOf_print, hts.text, qualify]
    · simp [Ty.print, segsThen_prints, Seg.print, Gen.print, hx3, genOf_print, hts.shown, qualify]
    · have := pathLayout_other (path := root :: vs) (id := id) (text := withArgs id shown) (ls := ls)
        (by
          rintro (h | ⟨r, rest, h, hr⟩)
          · cases h
          · cases h; exact h3 hr) (by intro h; cases h)
      simpa [Ty.layout, segsThen_prints, Seg.print, Gen.print, hx3, genOf_print, hts.shown, segsThen_last, Seg.lastOf,
        genOf_layouts, hts.layout] using this
    · intro h; cases h
    · intro hs
      simp only [Ty.isStrPath, segsThen, Segs.firstId, beq_iff_eq, Option.some.injEq] at hs
      exact absurd hs h2
theorem rep_names : {s p : Str} → {l : Layout} → Names render s p l → ∃ t, Rep render s p l t
  | _, _, _, .path s p l h => by
    obtain ⟨t, ht, _⟩ := rep_path h
    exact ⟨t, ht⟩
  | _, _, _, .slice s p l h => by
    obtain ⟨t, ht⟩ := rep_names h
    exact ⟨.slice t, ht.plain, by simp [Ty.print, ht.text], by simp [Ty.print, ht.shown],
      by simp [Ty.layout, ht.layout, bare], (fun h => by cases h), (fun h => by cases h)⟩
  | _, _, _, .str => ⟨.str, trivial, rfl, rfl, rfl, (fun h => by cases h), (fun h => by cases h)⟩
  | _, _, _, .ref s p l h h1 h2 => by
    obtain ⟨t, ht⟩ := rep_names h
    refine ⟨.ref false t, ⟨ht.plain, fun _ => ⟨?_, ?_⟩⟩, by simp [Ty.print, ht.text], by simp [Ty.print, ht.shown],
      by simp [Ty.layout, ht.layout, bare], (fun h => by cases h), (fun h => by cases h)⟩
    · cases hu : t.isUnsized with
      | false => rfl
      | true =>
        obtain ⟨e, he⟩ := ht.notUnsized hu
        exact absurd he (h2 e)
    · cases hu : t.isStrPath with
      | false => rfl
      | true => exact absurd (ht.notStr hu) h1
  | _, _, _, .refMut s p l h => by
    obtain ⟨t, ht⟩ := rep_names h
    exact ⟨.ref true t, ⟨ht.plain, fun h => by cases h⟩, by simp [Ty.print, ht.text], by simp [Ty.print, ht.shown],
      by simp [Ty.layout, ht.layout, bare], (fun h => by cases h), (fun h => by cases h)⟩
  | _, _, _, .never => ⟨.never, trivial, rfl, rfl, rfl, (fun h => by cases h), (fun h => by cases h)⟩
  | _, _, _, .array s p l n h hn => by
    obtain ⟨t, ht⟩ := rep_names h
    exact ⟨.array t (.fixed n), ⟨ht.plain, hn⟩, by simp [Ty.print, Size.print, ht.text], by simp [Ty.print, Size.print, ht.shown],
      by simp [Ty.layout, ht.layout, bare], (fun h => by cases h), (fun h => by cases h)⟩
  | _, _, _, .unsized s p l h => by
    obtain ⟨t, ht⟩ := rep_names h
    exact ⟨.array t .none, ⟨ht.plain, trivial⟩, by simp [Ty.print, Size.print, ht.text], by simp [Ty.print, Size.print, ht.shown],
      by simp [Ty.layout, ht.layout, bare], (fun _ => ⟨_, rfl⟩), (fun h => by cases h)⟩
  | _, _, _, .unit => ⟨.tuple .nil, trivial, rfl, rfl, rfl, (fun h => by cases h), (fun h => by cases h)⟩
  | _, _, _, .single s p l h => by
    obtain ⟨t, ht⟩ := rep_names h
    exact ⟨.tuple (.cons t .nil), ⟨ht.plain, trivial⟩, by simp [Ty.print, ht.text], by simp [Ty.print, ht.shown],
      by simp [Ty.layout, Tys.layouts, ht.layout, bare, anonymous, membersFrom], (fun h => by cases h), (fun h => by cases h)⟩
  | _, _, _, .tuple s ss p ps l ls h hne hs => by
    obtain ⟨t, ht⟩ := rep_names h
    obtain ⟨ts, hts⟩ := rep_many hs
    cases ts with
    | nil => exact absurd (hts.nil_iff.1 rfl) hne
    | cons t' ts =>
      exact ⟨.tuple (.cons t (.cons t' ts)), ⟨ht.plain, hts.plain⟩,
        by simp [Ty.print, ht.text, ← hts.text, Tys.prints], by simp [Ty.print, ht.shown, ← hts.shown, Tys.prints],
        by simp [Ty.layout, ht.layout, ← hts.layout, Tys.layouts, anonymous_eq], (fun h => by cases h), (fun h => by cases h)⟩
  | _, _, _, .fn s ss p ps l ls h hs => by
    obtain ⟨t, ht⟩ := rep_names h
    obtain ⟨ts, hts⟩ := rep_many hs
    exact ⟨.fn false (.cons t ts) .none, ⟨rfl, by simp, ⟨ht.plain, hts.plain⟩, trivial⟩,
      by simp [Ty.print, ht.text, ← hts.text, Tys.prints, OptTy.print], by simp [Ty.print, ht.shown, ← hts.shown, Tys.prints, OptTy.print],
      by simp [Ty.layout, ht.layout, ← hts.layout, Tys.layouts, anonymous_eq, OptTy.layout], (fun h => by cases h), (fun h => by cases h)⟩
  | _, _, _, .fnRet s ss p ps l ls s' p' l' h hs h' => by
    obtain ⟨t, ht⟩ := rep_names h
    obtain ⟨ts, hts⟩ := rep_many hs
    obtain ⟨t', ht'⟩ := rep_names h'
    exact ⟨.fn false (.cons t ts) (.some t'), ⟨rfl, by simp, ⟨ht.plain, hts.plain⟩, ht'.plain⟩,
      by simp [Ty.print, ht.text, ← hts.text, Tys.prints, OptTy.print, ht'.text],
      by simp [Ty.print, ht.shown, ← hts.shown, Tys.prints, OptTy.print, ht'.shown],
      by simp [Ty.layout, ht.layout, ← hts.layout, Tys.layouts, anonymous_eq, OptTy.layout, ht'.layout, bare],
      (fun h => by cases h), (fun h => by cases h)⟩
  | _, _, _, .dyn s ss p ps l h hs => by
    obtain ⟨t, ht, hp⟩ := rep_path h
    obtain ⟨ts, h1, h2, h3, h4⟩ := rep_traits hs
    refine ⟨.dyn (.cons t ts), ⟨by simp, ⟨ht.plain, h1⟩, ?_⟩,
      by simp [Ty.print, ht.text, ← h2, Tys.prints], by simp [Ty.print, ht.shown, ← h3, Tys.prints],
      by simp [Ty.layout, Ty.print, ht.shown, ← h3, Tys.prints], (fun h => by cases h), (fun h => by cases h)⟩
    intro x hx
    rcases List.mem_cons.1 hx with rfl | hx
    · exact hp
    · exact h4 x hx
  | _, _, _, .const s p l h => by
    obtain ⟨t, ht⟩ := rep_names h
    exact ⟨.ptr false t, ⟨rustRender_ptr false, ht.plain⟩, by simp [Ty.print, ht.text, rustRender_ptr], by simp [Ty.print, ht.shown],
      by simp [Ty.layout, ht.layout, bare], (fun h => by cases h), (fun h => by cases h)⟩
  | _, _, _, .mutPtr s p l h => by
    obtain ⟨t, ht⟩ := rep_names h
    exact ⟨.ptr true t, ⟨rustRender_ptr true, ht.plain⟩, by simp [Ty.print, ht.text, rustRender_ptr], by simp [Ty.print, ht.shown],
      by simp [Ty.layout, ht.layout, bare], (fun h => by cases h), (fun h => by cases h)⟩
theorem rep_many : {ss ps : List Str} → {ls : List Layout} → Many render ss ps ls → ∃ ts, RepMany render ss ps ls ts
  | _, _, _, .nil => ⟨.nil, trivial, rfl, rfl, rfl⟩
  | _, _, _, .cons s ss p ps l ls h hs => by
    obtain ⟨t, ht⟩ := rep_names h
    obtain ⟨ts, hts⟩ := rep_many hs
    exact ⟨.cons t ts, ⟨ht.plain, hts.plain⟩, by simp [Tys.prints, ht.text, hts.text], by simp [Tys.prints, ht.shown, hts.shown],
      by simp [Tys.layouts, ht.layout, hts.layout]⟩
theorem rep_traits : {ss ps : List Str} → Traits render ss ps → ∃ ts : Tys, ts.Plain rustRender ∧
    ts.prints rustRender = ss ∧ ts.prints render = ps ∧ ∀ t ∈ ts.toList, t.isPath = true
  | _, _, .nil => ⟨.nil, trivial, rfl, rfl, by simp [Tys.toList]⟩
  | _, _, .cons s ss p ps l h hs => by
    obtain ⟨t, ht, hp⟩ := rep_path h
    obtain ⟨ts, h1, h2, h3, h4⟩ := rep_traits hs
    refine ⟨.cons t ts, ⟨ht.plain, h1⟩, by simp [Tys.prints, ht.text, h2], by simp [Tys.prints, ht.shown, h3], ?_⟩
    intro x hx
    rcases List.mem_cons.1 hx with rfl | hx
    · exact hp
    · exact h4 x hx
end

/-- The parser does not depend on how tokens are printed. -/
theorem typeP_render (lib : Lib) (r : List Tok → Str) (n : Nat) : typeP { lib with render := r } n = typeP lib n := by
  induction n with
  | zero => rfl
  | succ n ih =>
    funext ts
    simp only [typeP]
    rw [ih]
    rfl

theorem parse_rust (lib : Lib) (hl : lib.LexesPlain) (t : Ty) (h : t.Plain rustRender) :
    parseType lib (t.print rustRender) = .ok t := by
  have := parse_print { lib with render := rustRender } hl t h
  simpa only [parseType, typeP_render] using this

/-- Names of types are read as the specification says. -/
theorem parse_names (lib : Lib) (hl : lib.LexesPlain) {s p : Str} {l : Layout} (h : Names lib.render s p l) :
    ∃ t, parseType lib s = .ok t ∧ t.print lib.render = p ∧ t.layout lib.render = l := by
  obtain ⟨t, ht⟩ := rep_names h
  exact ⟨t, ht.text ▸ parse_rust lib hl t ht.plain, ht.shown, ht.layout⟩

end Rudy.TypeNames
