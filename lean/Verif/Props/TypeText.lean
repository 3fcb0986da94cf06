import Verif.Props.TypeNames
import Verif.Props.Shown
/-
C85: the name shown for a type is the type as one writes it in Rust; it can be read back, and tells types apart.
-/
namespace Rudy.TypeText
open Rudy Rudy.Layout Rudy.TypeNames
open Rudy.Expr (joinWith)

/-! ### Specification: types and how they are written -/

mutual
/-- A type of Rust. `&str` is a reference to `str`, `()` a tuple of nothing; a user's type is known by its name. -/
inductive RTy where
  | prim (name : Str)
  | user (name : Str)
  | never
  | ref (mutable : Bool) (t : RTy)
  /-- `&[T]` -/
  | slice (t : RTy)
  | array (t : RTy) (n : Nat)
  | tuple (ts : RTys)
  | fn (args : RTys) (ret : ROpt)
  /-- A type of the standard library. -/
  | std (id : Str) (args : RTys)
  | ptr (mutable : Bool) (t : RTy)
/-- Types. -/
inductive RTys where
  | nil
  | cons (t : RTy) (ts : RTys)
/-- A type or none. -/
inductive ROpt where
  | none
  | some (t : RTy)
end

/-- The number of types. -/
def RTys.length : RTys → Nat
  | .nil => 0
  | .cons _ ts => ts.length + 1

/-- The `i`th of the types. -/
def RTys.get? : RTys → Nat → Option RTy
  | .nil, _ => .none
  | .cons t _, 0 => .some t
  | .cons _ ts, i + 1 => ts.get? i

mutual
/-- How the type is written in Rust. -/
def RTy.text : RTy → Str
  | .prim s => s
  | .user s => s
  | .never => chars! "!"
  | .ref false t => chars! "&" ++ t.text
  | .ref true t => chars! "&mut " ++ t.text
  | .slice t => chars! "&[" ++ t.text ++ chars! "]"
  | .array t n => chars! "[" ++ t.text ++ chars! "; " ++ natStr n ++ chars! "]"
  | .tuple (.cons t .nil) => chars! "(" ++ t.text ++ chars! ",)"
  | .tuple ts => chars! "(" ++ joinWith (chars! ", ") ts.texts ++ chars! ")"
  | .fn args ret => chars! "fn(" ++ joinWith (chars! ", ") args.texts ++ chars! ")" ++ ret.text
  | .std id args => withArgs id args.texts
  | .ptr false t => chars! "*const " ++ t.text
  | .ptr true t => chars! "*mut " ++ t.text
/-- How types are written. -/
def RTys.texts : RTys → List Str
  | .nil => []
  | .cons t ts => t.text :: ts.texts
/-- The return type of a function. -/
def ROpt.text : ROpt → Str
  | .none => []
  | .some t => chars! " -> " ++ t.text
end

/-- The primitive types with their layouts; `usize` and `isize` have the layouts of `u64` and `i64`. -/
def fixedTable : List (Str × Layout) :=
  [(chars! "u8", .uint 1), (chars! "u16", .uint 2), (chars! "u32", .uint 4), (chars! "u64", .uint 8),
   (chars! "u128", .uint 16), (chars! "i8", .int 1), (chars! "i16", .int 2), (chars! "i32", .int 4), (chars! "i64", .int 8),
   (chars! "i128", .int 16), (chars! "f32", .float 4), (chars! "f64", .float 8), (chars! "bool", .bool), (chars! "char", .char),
   (chars! "str", .str)]

mutual
/-- The layout is that of the type, wherever its parts are. -/
inductive IsType : Layout → RTy → Prop
  | prim {l s} : (s, l) ∈ fixedTable → IsType l (.prim s)
  | never : IsType .never .never
  | unit : IsType .unit (.tuple .nil)
  | str {a b} : IsType (.strSlice a b) (.ref false (.prim (chars! "str")))
  | ref {m loc l t} : IsType l t → IsType (.reference m (.mk loc l)) (.ref m t)
  | ptr {m loc l t} : IsType l t → IsType (.pointer m (.mk loc l)) (.ptr m t)
  | slice {loc l t a b} : IsType l t → IsType (.slice (.mk loc l) a b) (.slice t)
  | array {loc l t n} : IsType l t → IsType (.array (.mk loc l) n) (.array t n)
  | tuple {ms ts n} : AreTypes ms ts → IsType (.tuple ms n) (.tuple ts)
  | fn {ms ts o r} : AreTypes ms ts → IsRet o r → IsType (.function o ms) (.fn ts r)
  | string {a b c t} : IsType (.string a b c t) (.std (chars! "String") .nil)
  | vec {a b c loc l t} : IsType l t → IsType (.vec a b c (.mk loc l)) (.std (chars! "Vec") (.cons t .nil))
  | option {n d o loc l t s} : IsType l t → IsType (.option n d o (.mk loc l) s) (.std (chars! "Option") (.cons t .nil))
  | result {n d o o' loc l t loc' l' t' s} : IsType l t → IsType l' t' →
      IsType (.result n d (.mk loc l) o (.mk loc' l') o' s) (.std (chars! "Result") (.cons t (.cons t' .nil)))
  | hashMap {a b c d e f loc l t loc' l' t'} : IsType l t → IsType l' t' →
      IsType (.map (.hashMap a b c d e f) (.mk loc l) (.mk loc' l')) (.std (chars! "HashMap") (.cons t (.cons t' .nil)))
  | btreeMap {a b c d nl loc l t loc' l' t'} : IsType l t → IsType l' t' →
      IsType (.map (.btreeMap a b c d nl) (.mk loc l) (.mk loc' l')) (.std (chars! "BTreeMap") (.cons t (.cons t' .nil)))
  | smart {v id loc l t a b} : (id, v) ∈ smartTable → IsType l t →
      IsType (.smartPtr v (.mk loc l) a b) (.std id (.cons t .nil))
  | struct {n a b ms} : IsType (.struct n a b ms) (.user n)
  | enum {n d vs s} : IsType (.enum n d vs s) (.user n)
  | cenum {n d vs s} : IsType (.cenum n d vs s) (.user n)
  | byName {n} : IsType (.alias n) (.user n)
/-- The members have these types, in order. -/
inductive AreTypes : Members → RTys → Prop
  | nil : AreTypes .nil .nil
  | cons {n o loc l ms t ts} : IsType l t → AreTypes ms ts → AreTypes (.cons n o (.mk loc l) ms) (.cons t ts)
/-- The return type. -/
inductive IsRet : OptTypeDef → ROpt → Prop
  | none : IsRet .none .none
  | some {loc l t} : IsType l t → IsRet (.some (.mk loc l)) (.some t)
end

/-- The name is one a user's type can have: that of a path or of a trait object, and not that of a primitive or standard library type. -/
def UserName (render : List Tok → Str) (s : Str) : Prop := Names render s s (.alias s)

mutual
/-- What the theorems leave out: raw pointers, tuples of one, functions without parameters, and shared references to empty arrays. -/
def RTy.Good (render : List Tok → Str) : RTy → Prop
  | .prim _ => True
  | .user s => UserName render s
  | .never => True
  | .ref m t => t.Good render ∧ (m = false → ∀ t', t ≠ .array t' 0)
  | .slice t => t.Good render
  | .array t n => t.Good render ∧ n < 2 ^ 64
  | .tuple ts => ts.length ≠ 1 ∧ ts.Good render
  | .fn args ret => args.length ≠ 0 ∧ args.Good render ∧ ret.Good render
  | .std _ args => args.Good render
  | .ptr _ _ => False
/-- All of them. -/
def RTys.Good (render : List Tok → Str) : RTys → Prop
  | .nil => True
  | .cons t ts => t.Good render ∧ ts.Good render
/-- If there is one. -/
def ROpt.Good (render : List Tok → Str) : ROpt → Prop
  | .none => True
  | .some t => t.Good render
end

/-! ### What is shown -/

variable {render : List Tok → Str}

theorem fixed_prim {s : Str} {l : Layout} (h : (s, l) ∈ fixedTable) : (s, l) ∈ primTable ∧ l.displayName = s := by
  simp only [fixedTable, List.mem_cons, List.not_mem_nil, or_false, Prod.mk.injEq] at h
  rcases h with h | h | h | h | h | h | h | h | h | h | h | h | h | h | h <;> obtain ⟨rfl, rfl⟩ := h <;>
    exact ⟨by simp [primTable], by with_unfolding_all rfl⟩

theorem smart_name {id : Str} {v : SmartPtr} (h : (id, v) ∈ smartTable) : v.name = id ∧ id ∈ stdNames := by
  simp only [smartTable, List.mem_cons, List.not_mem_nil, or_false, Prod.mk.injEq] at h
  rcases h with h | h | h | h | h | h | h | h <;> obtain ⟨rfl, rfl⟩ := h <;> exact ⟨rfl, by decide⟩

mutual
theorem display_text {l : Layout} {t : RTy} (h : IsType l t) (hg : t.Good render) : l.displayName = t.text := by
  cases h with
  | prim h => exact (fixed_prim h).2
  | never => rfl
  | unit => rfl
  | str => rfl
  | @ref m loc l t h =>
    have := display_text h hg.1
    cases m <;> simp [Layout.displayName, TypeDef.displayName, RTy.text, this]
  | ptr h => exact hg.elim
  | slice h => simp [Layout.displayName, TypeDef.displayName, RTy.text, display_text h hg]
  | array h => simp [Layout.displayName, TypeDef.displayName, RTy.text, display_text h hg.1]
  | @tuple ms ts n h =>
    have := displays_text h hg.2
    cases ts with
    | nil => simp [Layout.displayName, RTy.text, this]
    | cons t ts =>
      cases ts with
      | nil => exact absurd rfl hg.1
      | cons t' ts => simp [Layout.displayName, RTy.text, this]
  | fn h h' =>
    have h1 := displays_text h hg.2.1
    have h2 := ret_text h' hg.2.2
    simp [Layout.displayName, RTy.text, h1, h2]
  | string => rfl
  | vec h => simp [Layout.displayName, TypeDef.displayName, RTy.text, RTys.texts, withArgs, joinWith, display_text h hg.1]
  | option h => simp [Layout.displayName, TypeDef.displayName, RTy.text, RTys.texts, withArgs, joinWith, display_text h hg.1]
  | result h h' =>
    simp [Layout.displayName, TypeDef.displayName, RTy.text, RTys.texts, withArgs, joinWith, display_text h hg.1, display_text h' hg.2.1]
  | hashMap h h' =>
    simp [Layout.displayName, TypeDef.displayName, RTy.text, RTys.texts, withArgs, joinWith, display_text h hg.1, display_text h' hg.2.1, MapVariant.name]
  | btreeMap h h' =>
    simp [Layout.displayName, TypeDef.displayName, RTy.text, RTys.texts, withArgs, joinWith, display_text h hg.1, display_text h' hg.2.1, MapVariant.name]
  | smart hv h =>
    simp [Layout.displayName, TypeDef.displayName, RTy.text, RTys.texts, withArgs, joinWith, display_text h hg.1, (smart_name hv).1]
  | struct => rfl
  | enum => rfl
  | cenum => rfl
  | byName => rfl
theorem displays_text {ms : Members} {ts : RTys} (h : AreTypes ms ts) (hg : ts.Good render) :
    ms.displayNames = joinWith (chars! ", ") ts.texts := by
  cases h with
  | nil => rfl
  | cons h h' =>
    have h1 := display_text h hg.1
    have h2 := displays_text h' hg.2
    cases h' with
    | nil => simp [Members.displayNames, TypeDef.displayName, RTys.texts, joinWith, h1]
    | cons a b =>
      simp only [RTys.texts] at h2
      simp [Members.displayNames, TypeDef.displayName, RTys.texts, joinWith, h1, h2]
theorem ret_text {o : OptTypeDef} {r : ROpt} (h : IsRet o r) (hg : r.Good render) : o.displaySuffix = r.text := by
  cases h with
  | none => rfl
  | some h => simp [OptTypeDef.displaySuffix, TypeDef.displayName, ROpt.text, display_text h hg]
end

/-- C85: the name shown for a type is the type as written in Rust. -/
theorem C85_written_as_in_rust_partial (l : Layout) (t : RTy) (h : IsType l t) (hg : t.Good render) : l.displayName = t.text :=
  display_text h hg

/-! ### Reading it back -/

theorem std_path (id : Str) (h : id ∈ stdNames) : PathOk [] id := by
  simp only [stdNames, List.mem_cons, List.not_mem_nil, or_false] at h
  rcases h with rfl | rfl | rfl | rfl | rfl | rfl | rfl | rfl | rfl | rfl | rfl | rfl | rfl | rfl <;>
    exact ⟨by simp, ⟨_, _, rfl, by decide, by decide⟩, by decide⟩

theorem std_names {id : Str} {ss : List Str} {ls : List Layout} {l : Layout} (hi : id ∈ stdNames) (hs : StdNamed id ls l)
    (hm : Many render ss ss ls) : Names render (withArgs id ss) (withArgs id ss) l := by
  have := PathName.std (render := render) [] id ss ss ls l (Or.inl rfl) (std_path id hi) hs hm
  simpa [qualify, joinWith] using Names.path _ _ _ this

mutual
theorem names_text {l : Layout} {t : RTy} (h : IsType l t) (hg : t.Good render) :
    ∃ l', Names render t.text t.text l' ∧ IsType l' t := by
  cases h with
  | prim h => exact ⟨l, .path _ _ _ (.prim _ _ (fixed_prim h).1), .prim h⟩
  | never => exact ⟨_, .never, .never⟩
  | unit => exact ⟨_, .unit, .unit⟩
  | str => exact ⟨_, .str, .str⟩
  | @ref m loc l t h =>
    obtain ⟨l', h1, h2⟩ := names_text h hg.1
    cases m with
    | true => exact ⟨_, .refMut _ _ _ h1, .ref h2⟩
    | false =>
      by_cases hs : l' = .str
      · subst hs
        cases h2 with
        | prim hp =>
          have : _ = _ := (fixed_prim hp).2
          subst this
          exact ⟨_, .str, .str (a := 0) (b := 0)⟩
      · refine ⟨_, .ref _ _ _ h1 hs ?_, .ref h2⟩
        rintro e rfl
        cases h2 with
        | prim hp => simp [fixedTable] at hp
        | array h => exact hg.2 rfl _ rfl
  | ptr h => exact hg.elim
  | slice h =>
    obtain ⟨l', h1, h2⟩ := names_text h hg
    exact ⟨_, .slice _ _ _ h1, .slice h2⟩
  | array h =>
    obtain ⟨l', h1, h2⟩ := names_text h hg.1
    exact ⟨_, .array _ _ _ _ h1 hg.2, .array h2⟩
  | @tuple ms ts n h =>
    obtain ⟨ls, h1, h2⟩ := many_text h hg.2
    cases ts with
    | nil => exact ⟨_, .unit, .unit⟩
    | cons t ts =>
      cases ts with
      | nil => exact absurd rfl hg.1
      | cons t' ts =>
        simp only [RTys.texts] at h1
        cases h1 with
        | cons _ _ _ _ l0 ls0 a b => exact ⟨_, .tuple _ _ _ _ _ _ a (by simp [RTys.texts]) b, .tuple h2⟩
  | @fn ms ts o r h h' =>
    obtain ⟨ls, h1, h2⟩ := many_text h hg.2.1
    cases ts with
    | nil => exact absurd rfl hg.1
    | cons t ts =>
      simp only [RTys.texts] at h1
      cases h1 with
      | cons _ _ _ _ l0 ls0 a b =>
        cases h' with
        | none =>
          refine ⟨.function .none (anonymous (l0 :: ls0)), ?_, .fn h2 .none⟩
          simpa [RTy.text, ROpt.text, RTys.texts] using Names.fn _ _ _ _ _ _ a b
        | some h' =>
          obtain ⟨l', h3, h4⟩ := names_text h' hg.2.2
          refine ⟨.function (.some (.mk none l')) (anonymous (l0 :: ls0)), ?_, .fn h2 (.some h4)⟩
          simpa [RTy.text, ROpt.text, RTys.texts] using Names.fnRet _ _ _ _ _ _ _ _ _ a b h3
  | string => exact ⟨_, std_names (by decide) (.string []) .nil, .string⟩
  | vec h =>
    obtain ⟨l', h1, h2⟩ := names_text h hg.1
    exact ⟨_, std_names (by decide) (.vec l' []) (.cons _ _ _ _ _ _ h1 .nil), .vec h2⟩
  | option h =>
    obtain ⟨l', h1, h2⟩ := names_text h hg.1
    exact ⟨_, std_names (by decide) (.option l' []) (.cons _ _ _ _ _ _ h1 .nil), .option h2⟩
  | result h h' =>
    obtain ⟨l', h1, h2⟩ := names_text h hg.1
    obtain ⟨l'', h3, h4⟩ := names_text h' hg.2.1
    exact ⟨_, std_names (by decide) (.result l' l'' []) (.cons _ _ _ _ _ _ h1 (.cons _ _ _ _ _ _ h3 .nil)), .result h2 h4⟩
  | hashMap h h' =>
    obtain ⟨l', h1, h2⟩ := names_text h hg.1
    obtain ⟨l'', h3, h4⟩ := names_text h' hg.2.1
    exact ⟨_, std_names (by decide) (.hashMap l' l'' []) (.cons _ _ _ _ _ _ h1 (.cons _ _ _ _ _ _ h3 .nil)), .hashMap h2 h4⟩
  | btreeMap h h' =>
    obtain ⟨l', h1, h2⟩ := names_text h hg.1
    obtain ⟨l'', h3, h4⟩ := names_text h' hg.2.1
    exact ⟨_, std_names (by decide) (.btreeMap l' l'' []) (.cons _ _ _ _ _ _ h1 (.cons _ _ _ _ _ _ h3 .nil)), .btreeMap h2 h4⟩
  | smart hv h =>
    obtain ⟨l', h1, h2⟩ := names_text h hg.1
    exact ⟨_, std_names (smart_name hv).2 (.smart _ _ l' [] hv) (.cons _ _ _ _ _ _ h1 .nil), .smart hv h2⟩
  | struct => exact ⟨_, hg, .byName⟩
  | enum => exact ⟨_, hg, .byName⟩
  | cenum => exact ⟨_, hg, .byName⟩
  | byName => exact ⟨_, hg, .byName⟩
theorem many_text {ms : Members} {ts : RTys} (h : AreTypes ms ts) (hg : ts.Good render) :
    ∃ ls, Many render ts.texts ts.texts ls ∧ AreTypes (anonymous ls) ts := by
  cases h with
  | nil => exact ⟨[], .nil, .nil⟩
  | cons h h' =>
    obtain ⟨l', h1, h2⟩ := names_text h hg.1
    obtain ⟨ls, h3, h4⟩ := many_text h' hg.2
    exact ⟨l' :: ls, .cons _ _ _ _ _ _ h1 h3, .cons h2 h4⟩
end

/-- C85: the name shown for a type, typed in by the user, is read as that type. -/
theorem C85_read_back_partial (lib : Lib) (hl : lib.LexesPlain) (l : Layout) (t : RTy) (h : IsType l t) (hg : t.Good lib.render) :
    ∃ ty, parseType lib l.displayName = .ok ty ∧ ty.print lib.render = l.displayName ∧ IsType (ty.layout lib.render) t := by
  obtain ⟨l', h1, h2⟩ := names_text h hg
  obtain ⟨ty, h3, h4, h5⟩ := C45_names lib hl _ _ _ h1
  rw [display_text h hg]
  exact ⟨ty, h3, h4, by rw [h5]; exact h2⟩

/-! ### Telling types apart -/

theorem fixed_unique {s s' : Str} {l : Layout} (h : (s, l) ∈ fixedTable) (h' : (s', l) ∈ fixedTable) : s = s' :=
  (fixed_prim h).2.symm.trans (fixed_prim h').2

theorem smart_unique {s s' : Str} {v : SmartPtr} (h : (s, v) ∈ smartTable) (h' : (s', v) ∈ smartTable) : s = s' :=
  (smart_name h).1.symm.trans (smart_name h').1

mutual
theorem type_unique {l : Layout} {t t' : RTy} (h : IsType l t) (h' : IsType l t') : t = t' := by
  cases h with
  | prim h =>
    cases h' with
    | prim h' => rw [fixed_unique h h']
    | _ => simp [fixedTable] at h
  | never => cases h' with
    | prim h' => simp [fixedTable] at h'
    | never => rfl
  | unit => cases h' with
    | prim h' => simp [fixedTable] at h'
    | unit => rfl
  | str => cases h' with
    | prim h' => simp [fixedTable] at h'
    | str => rfl
  | ref h => cases h' with
    | prim h' => simp [fixedTable] at h'
    | ref h' => rw [type_unique h h']
  | ptr h => cases h' with
    | prim h' => simp [fixedTable] at h'
    | ptr h' => rw [type_unique h h']
  | slice h => cases h' with
    | prim h' => simp [fixedTable] at h'
    | slice h' => rw [type_unique h h']
  | array h => cases h' with
    | prim h' => simp [fixedTable] at h'
    | array h' => rw [type_unique h h']
  | tuple h => cases h' with
    | prim h' => simp [fixedTable] at h'
    | tuple h' => rw [types_unique h h']
  | fn h k => cases h' with
    | prim h' => simp [fixedTable] at h'
    | fn h' k' => rw [types_unique h h', ret_unique k k']
  | string => cases h' with
    | prim h' => simp [fixedTable] at h'
    | string => rfl
  | vec h => cases h' with
    | prim h' => simp [fixedTable] at h'
    | vec h' => rw [type_unique h h']
  | option h => cases h' with
    | prim h' => simp [fixedTable] at h'
    | option h' => rw [type_unique h h']
  | result h k => cases h' with
    | prim h' => simp [fixedTable] at h'
    | result h' k' => rw [type_unique h h', type_unique k k']
  | hashMap h k => cases h' with
    | prim h' => simp [fixedTable] at h'
    | hashMap h' k' => rw [type_unique h h', type_unique k k']
  | btreeMap h k => cases h' with
    | prim h' => simp [fixedTable] at h'
    | btreeMap h' k' => rw [type_unique h h', type_unique k k']
  | smart hv h => cases h' with
    | prim h' => simp [fixedTable] at h'
    | smart hv' h' => rw [smart_unique hv hv', type_unique h h']
  | struct => cases h' with
    | prim h' => simp [fixedTable] at h'
    | struct => rfl
  | enum => cases h' with
    | prim h' => simp [fixedTable] at h'
    | enum => rfl
  | cenum => cases h' with
    | prim h' => simp [fixedTable] at h'
    | cenum => rfl
  | byName => cases h' with
    | prim h' => simp [fixedTable] at h'
    | byName => rfl
theorem types_unique {ms : Members} {ts ts' : RTys} (h : AreTypes ms ts) (h' : AreTypes ms ts') : ts = ts' := by
  cases h with
  | nil => cases h'; rfl
  | cons h k => cases h' with
    | cons h' k' => rw [type_unique h h', types_unique k k']
theorem ret_unique {o : OptTypeDef} {r r' : ROpt} (h : IsRet o r) (h' : IsRet o r') : r = r' := by
  cases h with
  | none => cases h'; rfl
  | some h => cases h' with
    | some h' => rw [type_unique h h']
end

/-- C85: types shown with the same name are the same type (user's types being known by their names). -/
theorem C85_same_name_same_type_partial (lib : Lib) (hl : lib.LexesPlain) (l l' : Layout) (t t' : RTy) (h : IsType l t) (h' : IsType l' t')
    (hg : t.Good lib.render) (hg' : t'.Good lib.render) (hn : l.displayName = l'.displayName) : t = t' := by
  obtain ⟨k, h1, h2⟩ := names_text h hg
  obtain ⟨k', h3, h4⟩ := names_text h' hg'
  rw [display_text h hg, display_text h' hg'] at hn
  rw [hn] at h1
  obtain ⟨rfl, _⟩ := C45_names_unique lib hl _ _ _ _ _ h1 h3
  exact type_unique h2 h4

/-! ### The types of a program -/

section
open Rudy.Dwarf Rudy.Parse Rudy.TypeRes Rudy.Shown
variable (typedef : Nat → Option Layout) (db : Db)

/-- The entry `e` of the debug file is that of the type: a user's type by its name, and the others as in C76, by what they are made of. -/
inductive Entry : Nat → RTy → Prop
  | user {e s} : Ordinary typedef e → Named db e s → Entry e (.user s)
  | plain {e l t} : Describes typedef db e (.plain l) → IsType l t → Entry e t
  | string {e a b c x t} : Describes typedef db e (.string a b c x) → Entry x t → Entry e (.std (chars! "String") .nil)
  | str {e a b} : Describes typedef db e (.str a b) → Entry e (.ref false (.prim (chars! "str")))
  | vec {e a b c x t} : Describes typedef db e (.vec a b c x) → Entry x t → Entry e (.std (chars! "Vec") (.cons t .nil))
  | slice {e a b x t} : Describes typedef db e (.slice a b x) → Entry x t → Entry e (.slice t)
  | pointer {e m x t} : Describes typedef db e (.pointer m x) → Entry x t → Entry e (.ptr m t)
  | reference {e m x t} : Describes typedef db e (.reference m x) → Entry x t → Entry e (.ref m t)
  | smart {e v id a b x t} : Describes typedef db e (.smart v a b x) → (id, v) ∈ smartTable → Entry x t → Entry e (.std id (.cons t .nil))
  | option {e n d o x s t} : Describes typedef db e (.option n d o x s) → Entry x t → Entry e (.std (chars! "Option") (.cons t .nil))
  | hashMap {e a b c d f g x y t t'} : Describes typedef db e (.hashMap a b c d f g x y) → Entry x t → Entry y t' →
      Entry e (.std (chars! "HashMap") (.cons t (.cons t' .nil)))
  | btreeMap {e a b c d nl x y t t'} : Describes typedef db e (.btreeMap a b c d nl x y) → Entry x t → Entry y t' →
      Entry e (.std (chars! "BTreeMap") (.cons t (.cons t' .nil)))
  | result {e n d o x o' y s t t'} : Describes typedef db e (.result n d o x o' y s) → Entry x t → Entry y t' →
      Entry e (.std (chars! "Result") (.cons t (.cons t' .nil)))
  | tuple {e s es ts} : Describes typedef db e (.tuple s es) → es.length = ts.length →
      (∀ i x t, es[i]? = some x → ts.get? i = some t → Entry x.2 t) → Entry e (.tuple ts)

variable {typedef db}

theorem areTypes_of {T : Nat → TypeDef} {es : List (Nat × Nat)} {ts : RTys} (hl : es.length = ts.length)
    (h : ∀ i x t, es[i]? = some x → ts.get? i = some t → ∃ l, T x.2 = .mk (some x.2) l ∧ IsType l t) :
    AreTypes (membersOf (es.map fun x => ([], x.1, T x.2))) ts := by
  induction es generalizing ts with
  | nil => cases ts with
    | nil => exact .nil
    | cons t ts => simp [RTys.length] at hl
  | cons x es ih => cases ts with
    | nil => simp [RTys.length] at hl
    | cons t ts =>
      obtain ⟨l, h1, h2⟩ := h 0 x t rfl rfl
      simp only [List.map_cons, membersOf, h1]
      exact .cons h2 (ih (by simpa [RTys.length] using hl) fun i y t hy ht => h (i + 1) y t hy ht)

theorem RTys.exists_get {ts : RTys} {i : Nat} (h : i < ts.length) : ∃ t, ts.get? i = .some t := by
  induction i generalizing ts with
  | zero => cases ts with
    | nil => simp [RTys.length] at h
    | cons t ts => exact ⟨t, rfl⟩
  | succ i ih => cases ts with
    | nil => simp [RTys.length] at h
    | cons t ts => exact ih (by simpa [RTys.length] using h)

/-- There is a depth from which on the type of the entry, as part of another, is this. -/
def Resolved (typedef : Nat → Option Layout) (db : Db) (e : Nat) (t : RTy) : Prop :=
  ∃ N l, shallow typedef db N e = .ok (.mk (some e) l) ∧ IsType l t

theorem resolved_of {e : Nat} {t : RTy} {desc : Desc} (hw : WellFormed db) (hdec : Decodes db) (ho : ¬ Ordinary typedef e)
    (h : Describes typedef db e desc) (hp : ∀ x ∈ desc.parts, ∃ t, Resolved typedef db x t)
    (hl : ∀ T : Nat → TypeDef, (∀ x ∈ desc.parts, ∀ t, Resolved typedef db x t → ∃ l, T x = .mk (some x) l ∧ IsType l t) →
      IsType (desc.layout T) t) : Resolved typedef db e t := by
  obtain ⟨N, hN⟩ := list_bound desc.parts (fun x d => shallow typedef db d x = .ok (ty typedef db d x)) (by
    intro x hx
    obtain ⟨t, N, l, h1, h2⟩ := hp x hx
    refine ⟨N, fun d hd => ?_⟩
    have := shallow_mono hd h1
    rw [ty_eq this, this])
  refine ⟨N + 1 + 1, _, shallow_of_resolve ho (layout_at hw hdec (d := N + 1) (by omega) h (hN (N + 1) (by omega))), hl _ ?_⟩
  intro x hx t ⟨M, l, h1, h2⟩
  refine ⟨l, ?_, h2⟩
  have h3 := hN (N + 1) (by omega) x hx
  have h4 := shallow_mono (Nat.le_max_left M (N + 1)) h1
  have h5 := shallow_mono (Nat.le_max_right M (N + 1)) h3
  rw [h4] at h5
  exact (Res.ok.inj h5).symm

theorem entry_resolved (hw : WellFormed db) (hdec : Decodes db) {e : Nat} {t : RTy} (h : Entry typedef db e t) : Resolved typedef db e t := by
  induction h with
  | @user e s ho hn =>
    refine ⟨1, _, ?_, .byName (n := s)⟩
    simp only [shallow, builtin_ordinary ho, Res.bind_ok]
    simp only [(dieName_ok db e s).2 hn]
  | @plain e l t hd hl =>
    refine resolved_of hw hdec ?_ hd (by simp [Desc.parts]) fun T _ => hl
    obtain ⟨h1, h2⟩ := hd
    simp only [Ordinary, h1]
    cases l <;> simp_all [Plain]
  | @string e a b c x t hd _ ih =>
    refine resolved_of hw hdec ?_ hd (by simpa [Desc.parts] using ⟨t, ih⟩) fun T _ => .string
    obtain ⟨⟨_, _, _, _, h1⟩, _⟩ := hd
    simp [Ordinary, h1]
  | @str e a b hd =>
    refine resolved_of hw hdec ?_ hd (by simp [Desc.parts]) fun T _ => .str
    obtain ⟨⟨_, _, h1⟩, _⟩ := hd
    simp [Ordinary, h1]
  | @vec e a b c x t hd _ ih =>
    refine resolved_of hw hdec ?_ hd (by simpa [Desc.parts] using ⟨t, ih⟩) fun T hT => ?_
    · obtain ⟨⟨_, _, _, _, h1⟩, _⟩ := hd
      simp [Ordinary, h1]
    · obtain ⟨l, h1, h2⟩ := hT x (by simp [Desc.parts]) t ih
      simp only [Desc.layout, h1]
      exact .vec h2
  | @slice e a b x t hd _ ih =>
    refine resolved_of hw hdec ?_ hd (by simpa [Desc.parts] using ⟨t, ih⟩) fun T hT => ?_
    · obtain ⟨⟨_, _, _, h1⟩, _⟩ := hd
      simp [Ordinary, h1]
    · obtain ⟨l, h1, h2⟩ := hT x (by simp [Desc.parts]) t ih
      simp only [Desc.layout, h1]
      exact .slice h2
  | @pointer e m x t hd _ ih =>
    refine resolved_of hw hdec ?_ hd (by simpa [Desc.parts] using ⟨t, ih⟩) fun T hT => ?_
    · obtain ⟨⟨_, h1⟩, _⟩ := hd
      simp [Ordinary, h1]
    · obtain ⟨l, h1, h2⟩ := hT x (by simp [Desc.parts]) t ih
      simp only [Desc.layout, h1]
      exact .ptr h2
  | @reference e m x t hd _ ih =>
    refine resolved_of hw hdec ?_ hd (by simpa [Desc.parts] using ⟨t, ih⟩) fun T hT => ?_
    · obtain ⟨⟨_, h1⟩, _⟩ := hd
      simp [Ordinary, h1]
    · obtain ⟨l, h1, h2⟩ := hT x (by simp [Desc.parts]) t ih
      simp only [Desc.layout, h1]
      exact .ref h2
  | @smart e v id a b x t hd hv _ ih =>
    refine resolved_of hw hdec ?_ hd (by simpa [Desc.parts] using ⟨t, ih⟩) fun T hT => ?_
    · obtain ⟨⟨_, _, _, h1⟩, _⟩ := hd
      simp [Ordinary, h1]
    · obtain ⟨l, h1, h2⟩ := hT x (by simp [Desc.parts]) t ih
      simp only [Desc.layout, h1]
      exact .smart hv h2
  | @option e n d o x s t hd _ ih =>
    refine resolved_of hw hdec ?_ hd (by simpa [Desc.parts] using ⟨t, ih⟩) fun T hT => ?_
    · obtain ⟨⟨_, _, _, _, _, h1⟩, _⟩ := hd
      simp [Ordinary, h1]
    · obtain ⟨l, h1, h2⟩ := hT x (by simp [Desc.parts]) t ih
      simp only [Desc.layout, h1]
      exact .option h2
  | @hashMap e a b c d f g x y t t' hd _ _ ih ih' =>
    refine resolved_of hw hdec ?_ hd (by simpa [Desc.parts] using ⟨⟨t, ih⟩, ⟨t', ih'⟩⟩) fun T hT => ?_
    · obtain ⟨⟨_, _, _, _, _, _, _, _, h1⟩, _⟩ := hd
      simp [Ordinary, h1]
    · obtain ⟨l, h1, h2⟩ := hT x (by simp [Desc.parts]) t ih
      obtain ⟨l', h1', h2'⟩ := hT y (by simp [Desc.parts]) t' ih'
      simp only [Desc.layout, h1, h1']
      exact .hashMap h2 h2'
  | @btreeMap e a b c d nl x y t t' hd _ _ ih ih' =>
    refine resolved_of hw hdec ?_ hd (by simpa [Desc.parts] using ⟨⟨t, ih⟩, ⟨t', ih'⟩⟩) fun T hT => ?_
    · obtain ⟨⟨_, _, _, _, _, _, _, h1⟩, _⟩ := hd
      simp [Ordinary, h1]
    · obtain ⟨l, h1, h2⟩ := hT x (by simp [Desc.parts]) t ih
      obtain ⟨l', h1', h2'⟩ := hT y (by simp [Desc.parts]) t' ih'
      simp only [Desc.layout, h1, h1']
      exact .btreeMap h2 h2'
  | @result e n d o x o' y s t t' hd _ _ ih ih' =>
    refine resolved_of hw hdec ?_ hd (by simpa [Desc.parts] using ⟨⟨t, ih⟩, ⟨t', ih'⟩⟩) fun T hT => ?_
    · obtain ⟨⟨_, _, _, _, _, _, _, h1⟩, _⟩ := hd
      simp [Ordinary, h1]
    · obtain ⟨l, h1, h2⟩ := hT x (by simp [Desc.parts]) t ih
      obtain ⟨l', h1', h2'⟩ := hT y (by simp [Desc.parts]) t' ih'
      simp only [Desc.layout, h1, h1']
      exact .result h2 h2'
  | @tuple e s es ts hd hl _ ih =>
    have hget : ∀ i x, es[i]? = some x → ∃ t, ts.get? i = .some t := fun i x hx =>
      RTys.exists_get (by rw [← hl]; exact (List.getElem?_eq_some_iff.1 hx).1)
    refine resolved_of hw hdec ?_ hd ?_ fun T hT => ?_
    · obtain ⟨⟨_, _, h1⟩, _⟩ := hd
      simp [Ordinary, h1]
    · intro x hx
      simp only [Desc.parts, List.mem_map] at hx
      obtain ⟨y, hy, rfl⟩ := hx
      obtain ⟨i, hi⟩ := List.getElem?_of_mem hy
      obtain ⟨t, ht⟩ := hget i y hi
      exact ⟨t, ih i y t hi ht⟩
    · exact .tuple (areTypes_of hl fun i x t hx ht =>
        hT x.2 (by simp only [Desc.parts]; exact List.mem_map_of_mem (f := fun x => x.2) (List.mem_of_getElem? hx)) t (ih i x t hx ht))

/-- C85: whatever is said about a type of the program - the type of a variable, of a field, of a parameter - it is called by its name in Rust,
its parts by theirs. -/
theorem C85_named_as_in_rust_partial (hw : WellFormed db) (hdec : Decodes db) {e : Nat} {t : RTy} (h : Entry typedef db e t)
    (hg : t.Good render) : ∃ N, ∀ d, N ≤ d → ∃ td, shallow typedef db d e = .ok td ∧ td.displayName = t.text ∧
      ∀ td', resolveType typedef db d e = .ok td' → ¬ Ordinary typedef e → td'.displayName = t.text := by
  obtain ⟨N, l, h1, h2⟩ := entry_resolved hw hdec h
  refine ⟨N, fun d hd => ⟨_, shallow_mono hd h1, display_text h2 hg, fun td' h3 ho => ?_⟩⟩
  rw [resolve_of_shallow' ho (shallow_mono hd h1)] at h3
  cases h3
  exact display_text h2 hg

/-- C85: a variable of a user's type, or one of an array, is said to be of that type. -/
theorem C85_user_types_partial (hw : WellFormed db) (hdec : Decodes db) {e : Nat} {desc : Desc} {name : Str} (h : Is typedef db e desc)
    (hd : (∃ a b fs, desc = .struct name a b fs) ∨ (∃ d vs a, desc = .enum name d vs a) ∨ (∃ d vs a, desc = .cenum name d vs a)) :
    ∃ N, ∀ d, N ≤ d → ∃ td, resolveType typedef db d e = .ok td ∧ td.displayName = name := by
  obtain ⟨N, hN⟩ := types_at hw hdec h
  refine ⟨N, fun d hd' => ⟨_, (hN d hd').2.1, ?_⟩⟩
  rcases hd with ⟨a, b, fs, rfl⟩ | ⟨_, vs, a, rfl⟩ | ⟨_, vs, a, rfl⟩ <;> rfl

/-- C85: and so is one of an array. -/
theorem C85_arrays_partial (hw : WellFormed db) (hdec : Decodes db) {e x n : Nat} {t : RTy} (h : Describes typedef db e (.array x n))
    (hx : Entry typedef db x t) (hg : t.Good render) :
    ∃ N, ∀ d, N ≤ d → ∃ td, resolveType typedef db d e = .ok td ∧ td.displayName = (RTy.array t n).text := by
  obtain ⟨N, l, h1, h2⟩ := entry_resolved hw hdec hx
  refine ⟨N + 1, fun d hd => ?_⟩
  have h3 := layout_at hw hdec (d := d) (T := fun _ => .mk (some x) l) (by omega) h (by
    intro y hy
    simp only [Desc.parts, List.mem_singleton] at hy
    subst hy
    exact shallow_mono (by omega) h1)
  refine ⟨_, h3, ?_⟩
  simp only [TypeDef.displayName, Desc.layout, Layout.displayName, RTy.text, display_text h2 hg]

/-- C85 fails for arrays inside other types: the entry of an array has no name, and the type is called `unknown`. -/
theorem C85_array_part_fails (hw : WellFormed db) (hdec : Decodes db) {e x y n a b c : Nat} (hv : Describes typedef db e (.vec a b c x))
    (hx : Describes typedef db x (.array y n)) (hn : ∀ s, ¬ Named db x s) :
    ∃ N, ∀ d, N ≤ d → ∃ td, resolveType typedef db d e = .ok td ∧ td.displayName = chars! "Vec<unknown>" := by
  have h1 : ∀ d, shallow typedef db (d + 1) x = .ok (.mk (some x) (.alias (chars! "unknown"))) := by
    intro d
    simp only [shallow, builtin_ordinary hx.1, Res.bind_ok]
    cases h : dieName db x with
    | ok s => exact absurd ((dieName_ok db x s).1 h) (hn s)
    | err => rfl
    | panic => rfl
  refine ⟨1, fun d hd => ⟨_, layout_at hw hdec (T := fun _ => .mk (some x) (.alias (chars! "unknown"))) hd hv (by
    intro z hz
    simp only [Desc.parts, List.mem_singleton] at hz
    subst hz
    obtain ⟨d, rfl⟩ : ∃ k, d = k + 1 := ⟨d - 1, by omega⟩
    exact h1 d), rfl⟩⟩

/-- C85 fails for types of the same name in different modules: they are called the same. -/
theorem C85_same_name_fails {x y : Nat} {s : Str} (hx : Ordinary typedef x) (hy : Ordinary typedef y) (h : Named db x s) (h' : Named db y s)
    (d : Nat) : ∃ td td', shallow typedef db (d + 1) x = .ok td ∧ shallow typedef db (d + 1) y = .ok td' ∧ td.displayName = td'.displayName := by
  simp only [shallow, builtin_ordinary hx, builtin_ordinary hy, Res.bind_ok, (dieName_ok db x s).2 h, (dieName_ok db y s).2 h']
  exact ⟨_, _, rfl, rfl, rfl⟩

end

/-! ### What is not kept -/

/-- C85 fails for raw pointers: `*const u8` and `*mut u8` are both called `*u8`, which is no type of Rust. -/
theorem C85_pointer_fails : ∃ l l' t t', IsType l t ∧ IsType l' t' ∧ t ≠ t' ∧ l.displayName = l'.displayName ∧
    l.displayName = chars! "*u8" :=
  ⟨.pointer false (.mk none (.uint 1)), .pointer true (.mk none (.uint 1)), .ptr false (.prim (chars! "u8")), .ptr true (.prim (chars! "u8")),
    .ptr (.prim (by simp [fixedTable])), .ptr (.prim (by simp [fixedTable])), by simp, by with_unfolding_all rfl, by with_unfolding_all rfl⟩

/-- C85 fails for tuples of one: `(u8,)` is called `(u8)`. -/
theorem C85_one_tuple_fails : ∃ l, IsType l (.tuple (.cons (.prim (chars! "u8")) .nil)) ∧ l.displayName = chars! "(u8)" ∧
    (RTy.tuple (.cons (.prim (chars! "u8")) .nil)).text = chars! "(u8,)" :=
  ⟨.tuple (.cons [] 0 (.mk none (.uint 1)) .nil) 1, .tuple (.cons (.prim (by simp [fixedTable])) .nil), by with_unfolding_all rfl, by with_unfolding_all rfl⟩

/-- C85 fails for `usize` and `isize`: they are called `u64` and `i64`. -/
theorem C85_usize_fails : (∃ l, (chars! "usize", l) ∈ primTable ∧ l.displayName = chars! "u64") ∧
    ∃ l, (chars! "isize", l) ∈ primTable ∧ l.displayName = chars! "i64" :=
  ⟨⟨.uint 8, by simp [primTable], by with_unfolding_all rfl⟩, ⟨.int 8, by simp [primTable], by with_unfolding_all rfl⟩⟩

/-! ### A concrete type -/

/-- `HashMap<&str, Vec<(u8, Box<S>)>>` with a user's type `S`. -/
def demoType : RTy :=
  .std (chars! "HashMap") (.cons (.ref false (.prim (chars! "str"))) (.cons (.std (chars! "Vec") (.cons (.tuple (.cons (.prim (chars! "u8"))
    (.cons (.std (chars! "Box") (.cons (.user (chars! "S")) .nil)) .nil))) .nil)) .nil))

/-- Its layout in some program. -/
def demoLayout : Layout :=
  .map (.hashMap 24 16 40 40 0 16) (.mk (some 3) (.strSlice 0 8)) (.mk (some 4) (.vec 16 8 0 (.mk (some 5) (.tuple (.cons (chars! "__0") 0 (.mk none (.uint 1))
    (.cons (chars! "__1") 8 (.mk none (.smartPtr .box (.mk (some 9) (.struct (chars! "S") 4 4 .nil)) 0 0)) .nil)) 16))))

theorem demo_user : UserName render (chars! "S") := by
  have := PathName.other (render := render) [] (chars! "S") [] [] [] ⟨by simp, ⟨_, _, rfl, by decide, by decide⟩, by decide⟩ (by decide)
    (fun _ l => by simp [primTable]) (fun _ => by decide) .nil
  exact .path _ _ _ (by simpa [qualify, joinWith, withArgs] using this)

/-- The hypotheses are met, and what is shown is what one expects. -/
example : IsType demoLayout demoType ∧ demoType.Good render ∧
    demoType.text = chars! "HashMap<&str, Vec<(u8, Box<S>)>>" ∧ demoLayout.displayName = chars! "HashMap<&str, Vec<(u8, Box<S>)>>" :=
  ⟨.hashMap .str (.vec (.tuple (.cons (.prim (by simp [fixedTable])) (.cons (.smart (by simp [smartTable]) .struct) .nil)))),
    by simp [demoType, RTy.Good, RTys.Good, RTys.length, demo_user], by with_unfolding_all rfl, by with_unfolding_all rfl⟩

/-- In the program of C76, the type of the entry 1 is called `Vec<u8>`. -/
example : Entry TypeRes.demoTypedef (TypeRes.dbOf TypeRes.demo) 1 (.std (chars! "Vec") (.cons (.prim (chars! "u8")) .nil)) :=
  .vec Shown.is_vec.1 (.plain Shown.is_u8.1 (.prim (by simp [fixedTable])))

end Rudy.TypeText
