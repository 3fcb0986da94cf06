import Verif.Proof.Parser
import Verif.Model.TypeRes
import Mathlib.Data.List.Forall2
/-
Specification vocabulary for type layouts: what the debugging information says about a type, and the
lemmas connecting the parsers with it.
-/
namespace Rudy.TypeRes
open Rudy.Dwarf Rudy.Parse Rudy.Layout

/-! ### Vocabulary -/

/-- The entry is a field or a type parameter of the type it belongs to (and not, say, one of its methods). -/
def IsPart (db : Db) (c : Nat) : Prop := (∃ o, Located db c o) ∨ Tagged db c .templateTypeParameter

/-- The fields and type parameters of `e` have distinct names, and methods that are called like them come after them. -/
def Distinct (db : Db) (e : Nat) : Prop :=
  ∀ before c after n, db.children e = .ok (before ++ c :: after) → Named db c n → IsPart db c → ∀ b ∈ before, ¬ Named db b n

/-- The child of `e` called `n` is at offset `o`. -/
def OffOf (db : Db) (e : Nat) (n : Str) (o : Nat) : Prop :=
  ∃ c, FirstChild db e (fun c => Named db c n) c ∧ Located db c o

/-- The type parameter of `e` called `n` is the type `t`. -/
def Param (db : Db) (e : Nat) (n : Str) (t : Nat) : Prop :=
  ∃ c, FirstChild db e (fun c => Named db c n) c ∧ Tagged db c .templateTypeParameter ∧ Typed db c t

/-- The entry at `c` refers to `t` by the attribute. -/
def Refers (db : Db) (c : Nat) (a : At) (t : Nat) : Prop :=
  ∃ d, db.entry c = some d ∧ d.attr a = some (.ref t)

/-! ### Parsers over children -/

theorem child_named {T : Type} (p : Parser T) (db : Db) (e : Nat) (n : Str) (hd : Distinct db e)
    (hok : ∀ c x, p db c = .ok x → Named db c n ∧ IsPart db c) (herr : ∀ c, ¬ Named db c n → p db c = .err) (x : T) :
    child p db e = .ok x ↔ ∃ c, FirstChild db e (fun c => Named db c n) c ∧ p db c = .ok x := by
  rw [child_ok]
  constructor
  · rintro ⟨b, c, a, h1, h2, h3⟩
    exact ⟨c, ⟨b, a, h1, (hok _ _ h2).1, hd b c a n h1 (hok _ _ h2).1 (hok _ _ h2).2⟩, h2⟩
  · rintro ⟨c, ⟨b, a, h1, h2, h3⟩, h4⟩
    exact ⟨b, c, a, h1, h4, fun x hx => herr x (h3 x hx)⟩

theorem parseChildren_single {T : Type} (p : Parser T) : parseChildren (single p) = child p := rfl

/-- A parser that first checks the name of the entry. -/
theorem nameGuard_err {T : Type} (db : Db) (c : Nat) (n : Str) (f : Res T) (h : ¬ Named db c n) :
    ((dieName db c).bind fun x => if x = n then f else .err) = .err := by
  cases hx : dieName db c with
  | err => rfl
  | panic => exact absurd hx (dieName_no_panic db c)
  | ok x =>
    have : x ≠ n := fun he => h (he ▸ (dieName_ok db c x).1 hx)
    simp [this]

theorem nameGuard_ok {T : Type} (db : Db) (c : Nat) (n : Str) (f : Res T) (y : T) :
    ((dieName db c).bind fun x => if x = n then f else .err) = .ok y ↔ Named db c n ∧ f = .ok y := by
  rw [Res.bind_eq_ok]
  constructor
  · rintro ⟨x, h1, h2⟩
    split at h2
    · rename_i he; subst he; exact ⟨(dieName_ok db c x).1 h1, h2⟩
    · cases h2
  · rintro ⟨h1, h2⟩
    exact ⟨n, (dieName_ok db c n).2 h1, by simp [h2]⟩

theorem child_isMemberOffset (db : Db) (e : Nat) (n : Str) (hd : Distinct db e) (o : Nat) :
    child (isMemberOffset n) db e = .ok o ↔ OffOf db e n o := by
  rw [child_named _ db e n hd
    (fun c x h => ⟨((nameGuard_ok db c n _ x).1 h).1, .inl ⟨x, (located_iff db c x).1 ((nameGuard_ok db c n _ x).1 h).2⟩⟩)
    (fun c h => nameGuard_err db c n _ h)]
  constructor
  · rintro ⟨c, h1, h2⟩
    exact ⟨c, h1, (located_iff db c o).1 ((nameGuard_ok db c n _ o).1 h2).2⟩
  · rintro ⟨c, h1, h2⟩
    obtain ⟨_, _, _, hn, _⟩ := id h1
    exact ⟨c, h1, (nameGuard_ok db c n _ o).2 ⟨hn, (located_iff db c o).2 h2⟩⟩

theorem isMember_ok (db : Db) (c : Nat) (n : Str) (x : Nat) :
    isMember n db c = .ok x ↔ Named db c n ∧ x = c := by
  rw [isMember, nameGuard_ok]
  constructor
  · rintro ⟨h, h2⟩; cases h2; exact ⟨h, rfl⟩
  · rintro ⟨h, rfl⟩; exact ⟨h, rfl⟩

theorem isMember_err (db : Db) (c : Nat) (n : Str) (h : ¬ Named db c n) : isMember n db c = .err :=
  nameGuard_err db c n _ h

theorem child_isMember {T : Type} (q : Parser T) (db : Db) (e : Nat) (n : Str) (hd : Distinct db e)
    (hq : ∀ c x, q db c = .ok x → IsPart db c) (y : T) :
    child (andThen (isMember n) q) db e = .ok y ↔
      ∃ c, FirstChild db e (fun c => Named db c n) c ∧ q db c = .ok y := by
  rw [child_named _ db e n hd]
  · constructor
    · rintro ⟨c, h1, h2⟩
      simp only [andThen, Res.bind_eq_ok] at h2
      obtain ⟨m, h2, h3⟩ := h2
      obtain ⟨_, rfl⟩ := (isMember_ok db c n m).1 h2
      exact ⟨m, h1, h3⟩
    · rintro ⟨c, h1, h2⟩
      obtain ⟨_, _, _, hn, _⟩ := id h1
      exact ⟨c, h1, by simp only [andThen, (isMember_ok db c n c).2 ⟨hn, rfl⟩, Res.bind_ok, h2]⟩
  · intro c x h
    simp only [andThen, Res.bind_eq_ok] at h
    obtain ⟨m, h2, h3⟩ := h
    obtain ⟨hn, rfl⟩ := (isMember_ok db c n m).1 h2
    exact ⟨hn, hq _ _ h3⟩
  · intro c h
    simp only [andThen, isMember_err db c n h, Res.bind_err]

theorem child_isMember_off (db : Db) (e : Nat) (n : Str) (hd : Distinct db e) (o : Nat) :
    child (andThen (isMember n) dataOffset) db e = .ok o ↔ OffOf db e n o := by
  rw [child_isMember _ db e n hd (fun c x h => .inl ⟨x, (located_iff db c x).1 h⟩)]
  simp only [located_iff, OffOf]

theorem both_ok {T U : Type} (p : Parser T) (q : Parser U) (db : Db) (e : Nat) (x : T) (y : U) :
    both p q db e = .ok (x, y) ↔ p db e = .ok x ∧ q db e = .ok y := by
  simp only [both, Res.bind_eq_ok]
  constructor
  · rintro ⟨x', h1, y', h2, h3⟩; cases h3; exact ⟨h1, h2⟩
  · rintro ⟨h1, h2⟩; exact ⟨x, h1, y, h2, rfl⟩

theorem andThen_ok {U : Type} (p : Parser Nat) (q : Parser U) (db : Db) (e : Nat) (x : U) :
    andThen p q db e = .ok x ↔ ∃ m, p db e = .ok m ∧ q db m = .ok x := Res.bind_eq_ok ..

theorem child_isMember_field (db : Db) (e : Nat) (n : Str) (hd : Distinct db e) (o t : Nat) :
    child (andThen (isMember n) (both dataOffset entryType)) db e = .ok (o, t) ↔ Field db e n o t := by
  rw [child_isMember _ db e n hd (fun c x h => .inl ⟨x.1, (located_iff db c x.1).1 ((both_ok _ _ _ _ _ _).1 h).1⟩)]
  simp only [both_ok, located_iff, typed_iff, Field]

theorem generic_ok (db : Db) (c : Nat) (n : Str) (t : Nat) :
    generic n db c = .ok t ↔ Tagged db c .templateTypeParameter ∧ Named db c n ∧ Typed db c t := by
  simp only [generic]
  split
  · rename_i h
    rw [nameGuard_ok]
    simp only [(tagged_iff db c _).1 h, true_and]
    exact and_congr_right fun _ => typed_iff db c t
  · rename_i h
    simp [show ¬ Tagged db c .templateTypeParameter from fun h' => h ((tagged_iff db c _).2 h')]

theorem generic_err (db : Db) (c : Nat) (n : Str) (h : ¬ Named db c n) : generic n db c = .err := by
  simp only [generic]
  split
  · exact nameGuard_err db c n _ h
  · rfl

theorem child_generic {T : Type} (q : Parser T) (db : Db) (e : Nat) (n : Str) (hd : Distinct db e) (y : T) :
    child (andThen (generic n) q) db e = .ok y ↔ ∃ t, Param db e n t ∧ q db t = .ok y := by
  rw [child_named _ db e n hd]
  · constructor
    · rintro ⟨c, h1, h2⟩
      obtain ⟨t, h2, h3⟩ := (andThen_ok _ _ _ _ _).1 h2
      obtain ⟨h4, _, h5⟩ := (generic_ok db c n t).1 h2
      exact ⟨t, ⟨c, h1, h4, h5⟩, h3⟩
    · rintro ⟨t, ⟨c, h1, h2, h3⟩, h4⟩
      obtain ⟨_, _, _, hn, _⟩ := id h1
      exact ⟨c, h1, (andThen_ok _ _ _ _ _).2 ⟨t, (generic_ok db c n t).2 ⟨h2, hn, h3⟩, h4⟩⟩
  · intro c x h
    obtain ⟨t, h2, h3⟩ := (andThen_ok _ _ _ _ _).1 h
    exact ⟨((generic_ok db c n t).1 h2).2.1, .inr ((generic_ok db c n t).1 h2).1⟩
  · intro c h
    simp only [andThen, generic_err db c n h, Res.bind_err]

theorem child_resolvedGeneric (sh : Sh) (db : Db) (e : Nat) (n : Str) (hd : Distinct db e) (y : TypeDef) :
    child (resolvedGeneric sh n) db e = .ok y ↔ ∃ t, Param db e n t ∧ sh t = .ok y :=
  child_generic (resolveShallow sh) db e n hd y

theorem child_fieldPathOffset (db : Db) (e : Nat) (n : Str) (ns : List Str) (hd : Distinct db e) (o : Nat) :
    child (fieldPathOffset (n :: ns)) db e = .ok o ↔ (∃ t, Along db e (n :: ns) o t) ∧ o < u64Max1 := by
  have hok : ∀ c x, fieldPathOffset (n :: ns) db c = .ok x ↔ ∃ t, fieldPath (n :: ns) db c = .ok (t, x) := by
    intro c x
    simp only [fieldPathOffset, mapP, Res.bind_eq_ok, Prod.exists]
    constructor
    · rintro ⟨t, y, h, h2⟩; cases h2; exact ⟨t, h⟩
    · rintro ⟨t, h⟩; exact ⟨t, x, h, rfl⟩
  rw [child_named _ db e n hd]
  · constructor
    · rintro ⟨c, h1, h2⟩
      obtain ⟨t, h2⟩ := (hok c o).1 h2
      obtain ⟨hn, o1, t1, o2, h3, h4, h5, rfl, h6⟩ := (fieldPath_ok db n ns c t o).1 h2
      exact ⟨⟨t, .cons ⟨c, h1, h3, h4⟩ h5⟩, h6⟩
    · rintro ⟨⟨t, h⟩, ho⟩
      cases h with
      | @cons _ t1 _ o1 o2 _ _ hf ha =>
        obtain ⟨c, h1, h2, h3⟩ := hf
        obtain ⟨_, _, _, hn, _⟩ := id h1
        exact ⟨c, h1, (hok c _).2 ⟨t, (fieldPath_ok db n ns c t _).2 ⟨hn, o1, t1, o2, h2, h3, ha, rfl, ho⟩⟩⟩
  · intro c x h
    obtain ⟨t, h⟩ := (hok c x).1 h
    obtain ⟨hn, o1, -, -, h3, -⟩ := (fieldPath_ok db n ns c t x).1 h
    exact ⟨hn, .inl ⟨o1, h3⟩⟩
  · intro c h
    have : fieldPath (n :: ns) db c = .err := nameGuard_err db c n _ h
    simp [fieldPathOffset, mapP, this]

theorem member_field (db : Db) (e : Nat) (n : Str) (o t : Nat) :
    andThen (member n) (both dataOffset entryType) db e = .ok (o, t) ↔ Field db e n o t := by
  simp only [andThen_ok, both_ok, located_iff, typed_iff, Field]
  exact exists_congr fun c => and_congr_left fun _ => getMember_ok db e n c

/-- The child of `e` called `n` has the type `t`. -/
def TypeOf (db : Db) (e : Nat) (n : Str) (t : Nat) : Prop :=
  ∃ c, FirstChild db e (fun c => Named db c n) c ∧ Typed db c t

theorem member_type (db : Db) (e : Nat) (n : Str) (t : Nat) :
    andThen (member n) entryType db e = .ok t ↔ TypeOf db e n t := by
  simp only [andThen_ok, typed_iff, TypeOf]
  exact exists_congr fun c => and_congr_left fun _ => getMember_ok db e n c

theorem memberUdata_off (db : Db) (e : Nat) (n : Str) (o : Nat) :
    memberUdata n .dataMemberLocation db e = .ok o ↔ OffOf db e n o := by
  rw [memberUdata, Res.bind_eq_ok]
  exact exists_congr fun c => and_congr (getMember_ok db e n c) (located_iff db c o)

theorem addU_ok (a b c : Nat) : addU a b = .ok c ↔ c = a + b ∧ a + b < u64Max1 := by
  simp only [addU]
  split
  · rename_i h
    constructor
    · intro h'; cases h'; exact ⟨rfl, h⟩
    · rintro ⟨rfl, _⟩; rfl
  · rename_i h
    constructor
    · intro h'; cases h'
    · rintro ⟨_, h'⟩; exact absurd h' h

end Rudy.TypeRes

namespace Rudy.TypeRes
open Rudy.Dwarf Rudy.Parse Rudy.Layout

/-! ### Enumerations -/

/-- `v` is the variant whose member is called `n`; `m` is that member. -/
def Variant (db : Db) (v : Nat) (n : Str) (m : Nat) : Prop :=
  Tagged db v .variant ∧ FirstChild db v (fun c => Named db c n) m

/-- No two variants of a variant part have members of the same name. -/
def DistinctVariants (db : Db) (part : Nat) : Prop :=
  ∀ before v after n m, db.children part = .ok (before ++ v :: after) → Variant db v n m →
    ∀ b ∈ before, ∀ m', ¬ Variant db b n m'

/-- What the compiler guarantees about names: the fields and type parameters of a type have distinct names and come before methods of the same name
(`struct S { len: usize }` with a method `len`), and the variants of an enumeration have distinct names. -/
structure WellFormed (db : Db) : Prop where
  types : ∀ x e, Typed db x e → Distinct db e
  variants : ∀ part, Tagged db part .variantPart → DistinctVariants db part

/-- The integer type of a discriminant. -/
def discTy : Layout → DiscTy
  | .int n => .int n
  | .uint n => .uint n
  | _ => .implicit

/-- What the code takes to be the discriminant of a variant part. -/
def DiscOf (sh : Sh) (db : Db) (part : Nat) (d : Disc) : Prop :=
  (∃ m t td, Refers db part .discr m ∧ Typed db m t ∧ sh t = .ok td ∧ d.ty = discTy td.layout ∧
    (Located db part d.offset ∨ (∀ o, ¬ Located db part o) ∧ d.offset = 0)) ∨
  ((∀ m, ¬ Refers db part .discr m) ∧ d = { ty := .implicit, offset := 0 })

/-- The variant called `n` of the part has one field of interest, `__0`, at offset `o` of type `t`. -/
def Payload (db : Db) (part : Nat) (n : Str) (o t : Nat) : Prop :=
  ∃ v m s, (∃ before after, db.children part = .ok (before ++ v :: after)) ∧ Variant db v n m ∧
    Located db m 0 ∧ Typed db m s ∧ Field db s (chars! "__0") o t

theorem child_where {T : Type} (p : Parser T) (db : Db) (e : Nat) (P : Nat → Prop)
    (hd : ∀ before c after, db.children e = .ok (before ++ c :: after) → P c → ∀ b ∈ before, ¬ P b)
    (hok : ∀ c x, p db c = .ok x → P c) (herr : ∀ c, ¬ P c → p db c = .err) (x : T) :
    child p db e = .ok x ↔ ∃ c, (∃ before after, db.children e = .ok (before ++ c :: after)) ∧ p db c = .ok x := by
  rw [child_ok]
  constructor
  · rintro ⟨b, c, a, h1, h2, h3⟩
    exact ⟨c, ⟨b, a, h1⟩, h2⟩
  · rintro ⟨c, ⟨b, a, h1⟩, h4⟩
    exact ⟨b, c, a, h1, h4, fun x hx => herr x (hd b c a h1 (hok _ _ h4) x hx)⟩

theorem filterP_ok {T : Type} (p : Parser T) (db : Db) (e : Nat) (hp : p db e ≠ .panic) (o : Option T) :
    filterP p db e = .ok o ↔ (∃ x, o = some x ∧ p db e = .ok x) ∨ (o = none ∧ ∀ x, p db e ≠ .ok x) := by
  simp only [filterP]
  cases h : p db e with
  | ok x =>
    constructor
    · intro h'; cases h'; exact .inl ⟨x, rfl, rfl⟩
    · rintro (⟨y, rfl, h'⟩ | ⟨rfl, h'⟩)
      · cases h'; rfl
      · exact absurd rfl (h' x)
  | err =>
    constructor
    · intro h'; cases h'; exact .inr ⟨rfl, by simp⟩
    · rintro (⟨y, rfl, h'⟩ | ⟨rfl, h'⟩)
      · cases h'
      · rfl
  | panic => exact absurd h hp

theorem enumDiscriminant_ok (sh : Sh) (db : Db) (part : Nat) (d : Disc) :
    enumDiscriminant sh db part = .ok d ↔ DiscOf sh db part d := by
  simp only [enumDiscriminant, Res.bind_eq_ok]
  constructor
  · rintro ⟨r, h1, o, h2, h3⟩
    rw [filterP_ok _ _ _ (refAttr_no_panic db part .discr)] at h1
    rw [filterP_ok _ _ _ (udataAttr_no_panic db part .dataMemberLocation)] at h2
    rcases h1 with ⟨m, rfl, hm⟩ | ⟨rfl, hm⟩
    · simp only [Res.bind_eq_ok, entryShallow] at h3
      obtain ⟨td, ⟨t, ht, hsh⟩, h3⟩ := h3
      cases h3
      refine .inl ⟨m, t, td, (refAttr_ok db part .discr m).1 hm, (typed_iff db m t).1 ht, hsh, ?_, ?_⟩
      · cases td with
        | mk l lay => cases lay <;> rfl
      · rcases h2 with ⟨x, rfl, hx⟩ | ⟨rfl, hx⟩
        · exact .inl ((located_iff db part x).1 hx)
        · exact .inr ⟨fun x hx' => hx x ((located_iff db part x).2 hx'), rfl⟩
    · cases h3
      exact .inr ⟨fun m hm' => hm m ((refAttr_ok db part .discr m).2 hm'), rfl⟩
  · rintro (⟨m, t, td, h1, h2, h3, h4, h5⟩ | ⟨h1, rfl⟩)
    · refine ⟨some m, (filterP_ok _ _ _ (refAttr_no_panic db part .discr) _).2
        (.inl ⟨m, rfl, (refAttr_ok db part .discr m).2 h1⟩), ?_⟩
      rcases h5 with h5 | ⟨h5, h6⟩
      · refine ⟨some d.offset, (filterP_ok _ _ _ (udataAttr_no_panic db part .dataMemberLocation) _).2
          (.inl ⟨_, rfl, (located_iff db part _).2 h5⟩), ?_⟩
        simp only [Res.bind_eq_ok, entryShallow]
        refine ⟨td, ⟨t, (typed_iff db m t).2 h2, h3⟩, ?_⟩
        obtain ⟨ty, off⟩ := d
        simp only at h4 ⊢
        subst h4
        cases td with
        | mk l lay => cases lay <;> rfl
      · refine ⟨none, (filterP_ok _ _ _ (udataAttr_no_panic db part .dataMemberLocation) _).2
          (.inr ⟨rfl, fun x hx => h5 x ((located_iff db part _).1 hx)⟩), ?_⟩
        simp only [Res.bind_eq_ok, entryShallow]
        refine ⟨td, ⟨t, (typed_iff db m t).2 h2, h3⟩, ?_⟩
        obtain ⟨ty, off⟩ := d
        simp only at h4 h6 ⊢
        subst h4 h6
        cases td with
        | mk l lay => cases lay <;> rfl
    · refine ⟨none, (filterP_ok _ _ _ (refAttr_no_panic db part .discr) _).2
        (.inr ⟨rfl, fun x hx => h1 x ((refAttr_ok db part .discr x).1 hx)⟩), ?_⟩
      cases ho : filterP (udataAttr .dataMemberLocation) db part with
      | ok o => exact ⟨o, rfl, rfl⟩
      | err => exact absurd ho (by simp only [filterP]; cases udataAttr .dataMemberLocation db part <;> simp)
      | panic =>
        have := udataAttr_no_panic db part .dataMemberLocation
        simp only [filterP] at ho
        cases hh : udataAttr .dataMemberLocation db part <;> simp_all

theorem isMemberTag_ok (db : Db) (c : Nat) (t : Tag) (x : Nat) :
    isMemberTag t db c = .ok x ↔ Tagged db c t ∧ x = c := by
  simp only [isMemberTag]
  split
  · rename_i h
    constructor
    · intro h'; cases h'; exact ⟨(tagged_iff db c t).1 h, rfl⟩
    · rintro ⟨_, rfl⟩; rfl
  · rename_i h
    constructor
    · intro h'; cases h'
    · rintro ⟨h', _⟩; exact absurd ((tagged_iff db c t).2 h') h

theorem isMemberTag_err (db : Db) (c : Nat) (t : Tag) (h : ¬ Tagged db c t) : isMemberTag t db c = .err := by
  simp only [isMemberTag]
  rw [if_neg (fun h' => h ((tagged_iff db c t).1 h'))]

theorem getMember_no_panic (db : Db) (e : Nat) (n : Str) (h : db.children e ≠ .panic) :
    getMember n db e ≠ .panic := by
  simp only [getMember]
  cases hc : db.children e with
  | ok cs => simp only [Res.bind_ok]; cases cs.find? _ <;> simp [Res.ofOption]
  | err => simp
  | panic => exact absurd hc h

theorem filter_udata_total (db : Db) (e : Nat) (a : At) : ∃ o, filterP (udataAttr a) db e = .ok o := by
  simp only [filterP]
  cases h : udataAttr a db e with
  | ok x => exact ⟨_, rfl⟩
  | err => exact ⟨_, rfl⟩
  | panic => exact absurd h (udataAttr_no_panic db e a)

theorem namedVariant_ok (db : Db) (v : Nat) (n : Str) (r : Option Nat × Nat × Nat) :
    namedVariant n db v = .ok r ↔ filterP (udataAttr .discr) db v = .ok r.1 ∧
      ∃ m, Variant db v n m ∧ Located db m r.2.1 ∧ Typed db m r.2.2 := by
  obtain ⟨d, o, t⟩ := r
  simp only [namedVariant, andThen_ok, isMemberTag_ok, both_ok, located_iff, typed_iff, Variant]
  constructor
  · rintro ⟨m, ⟨h1, rfl⟩, h2, c, h3, h4, h5⟩
    exact ⟨h2, c, ⟨h1, (getMember_ok _ _ _ _).1 h3⟩, h4, h5⟩
  · rintro ⟨h2, c, ⟨h1, h3⟩, h4, h5⟩
    exact ⟨v, ⟨h1, rfl⟩, h2, c, (getMember_ok _ _ _ _).2 h3, h4, h5⟩

theorem namedVariant_err (db : Db) (v : Nat) (n : Str) (hc : db.children v ≠ .panic)
    (h : ∀ m, ¬ Variant db v n m) : namedVariant n db v = .err := by
  simp only [namedVariant, andThen]
  cases ht : isMemberTag .variant db v with
  | panic => simp only [isMemberTag] at ht; split at ht <;> cases ht
  | err => rfl
  | ok x =>
    obtain ⟨ht, rfl⟩ := (isMemberTag_ok db v .variant x).1 ht
    obtain ⟨o, ho⟩ := filter_udata_total db x .discr
    simp only [Res.bind_ok, both, ho, andThen]
    have : member n db x = .err := by
      cases hm : member n db x with
      | err => rfl
      | panic => exact absurd hm (getMember_no_panic db x n hc)
      | ok m => exact absurd ⟨ht, (getMember_ok db x n m).1 hm⟩ (h m)
    simp [this]

theorem namedTuple1_ok {T : Type} (p : Parser T) (db : Db) (v : Nat) (n : Str)
    (hw : WellFormed db) (r : Option Nat × Nat × T) :
    namedTuple1 n p db v = .ok r ↔ filterP (udataAttr .discr) db v = .ok r.1 ∧
      ∃ m s t, Variant db v n m ∧ Located db m 0 ∧ Typed db m s ∧ Field db s (chars! "__0") r.2.1 t ∧
        p db t = .ok r.2.2 := by
  simp only [namedTuple1, Res.bind_eq_ok, Prod.exists]
  obtain ⟨d, o, y⟩ := r
  constructor
  · rintro ⟨d', o', s, h1, h2⟩
    obtain ⟨hd, m, hv, hl, ht⟩ := (namedVariant_ok db v n _).1 h1
    simp only at hl ht hd
    split at h2
    · rename_i h0
      subst h0
      simp only [Res.bind_eq_ok, Prod.exists] at h2
      obtain ⟨o2, y2, h2, h3⟩ := h2
      cases h3
      rw [parseChildren_single, child_isMember _ _ _ _ (hw.types _ _ ht)
        (fun c x h => .inl ⟨x.1, (located_iff db c x.1).1 ((both_ok _ _ _ _ _ _).1 h).1⟩)] at h2
      obtain ⟨c, h4, h5⟩ := h2
      obtain ⟨h5, h6⟩ := (both_ok _ _ _ _ _ _).1 h5
      obtain ⟨t, h6, h7⟩ := (andThen_ok _ _ _ _ _).1 h6
      exact ⟨hd, m, s, t, hv, hl, ht, ⟨c, h4, (located_iff _ _ _).1 h5, (typed_iff _ _ _).1 h6⟩, h7⟩
    · cases h2
  · rintro ⟨hd, m, s, t, hv, hl, ht, ⟨c, h4, h5, h6⟩, h7⟩
    refine ⟨d, 0, s, (namedVariant_ok db v n _).2 ⟨hd, m, hv, hl, ht⟩, ?_⟩
    simp only [if_true, Res.bind_eq_ok, Prod.exists]
    refine ⟨o, y, ?_, rfl⟩
    rw [parseChildren_single, child_isMember _ _ _ _ (hw.types _ _ ht)
      (fun c x h => .inl ⟨x.1, (located_iff db c x.1).1 ((both_ok _ _ _ _ _ _).1 h).1⟩)]
    exact ⟨c, h4, (both_ok _ _ _ _ _ _).2 ⟨(located_iff _ _ _).2 h5,
      (andThen_ok _ _ _ _ _).2 ⟨t, (typed_iff _ _ _).2 h6, h7⟩⟩⟩

/-- Children never panic to decode (die/mod.rs:113-144 returns errors). -/
def Decodes (db : Db) : Prop := ∀ e, db.children e ≠ .panic

theorem namedTuple1_err {T : Type} (p : Parser T) (db : Db) (v : Nat) (n : Str) (hdec : Decodes db)
    (h : ∀ m, ¬ Variant db v n m) : namedTuple1 n p db v = .err := by
  simp only [namedTuple1, namedVariant_err db v n (hdec v) h, Res.bind_err]

theorem child_namedTuple1 {T U : Type} (p : Parser T) (f : Option Nat × Nat × T → U) (db : Db) (part : Nat)
    (n : Str) (hw : WellFormed db) (hdec : Decodes db) (ht : Tagged db part .variantPart) (y : U) :
    child (mapP (namedTuple1 n p) f) db part = .ok y ↔ ∃ d o t x v m s,
      (∃ before after, db.children part = .ok (before ++ v :: after)) ∧ Variant db v n m ∧
      Located db m 0 ∧ Typed db m s ∧ Field db s (chars! "__0") o t ∧
      filterP (udataAttr .discr) db v = .ok d ∧ p db t = .ok x ∧ y = f (d, o, x) := by
  rw [child_where _ db part (fun v => ∃ m, Variant db v n m)]
  · constructor
    · rintro ⟨v, hv, h⟩
      simp only [mapP, Res.bind_eq_ok] at h
      obtain ⟨⟨d, o, x⟩, h, he⟩ := h
      cases he
      obtain ⟨h1, m, s, t, h2, h3, h4, h5, h6⟩ := (namedTuple1_ok p db v n hw _).1 h
      exact ⟨d, o, t, x, v, m, s, hv, h2, h3, h4, h5, h1, h6, rfl⟩
    · rintro ⟨d, o, t, x, v, m, s, hv, h2, h3, h4, h5, h1, h6, rfl⟩
      refine ⟨v, hv, ?_⟩
      simp only [mapP, Res.bind_eq_ok]
      exact ⟨(d, o, x), (namedTuple1_ok p db v n hw _).2 ⟨h1, m, s, t, h2, h3, h4, h5, h6⟩, rfl⟩
  · rintro before v after h ⟨m, hm⟩ b hb ⟨m', hm'⟩
    exact hw.variants part ht before v after n m h hm b hb m' hm'
  · intro v x h
    simp only [mapP, Res.bind_eq_ok] at h
    obtain ⟨r, h, he⟩ := h
    obtain ⟨h1, m, s, t, h2, h3, h4, h5, h6⟩ := (namedTuple1_ok p db v n hw _).1 h
    exact ⟨m, h2⟩
  · intro v h
    have := namedTuple1_err p db v n hdec (fun m hm => h ⟨m, hm⟩)
    simp [mapP, this]

theorem mapP_id {T : Type} (p : Parser T) : mapP p (fun x => x) = p := by
  funext db e
  simp only [mapP]
  cases p db e <;> rfl

/-- The variant part of `e`, its name and its size. -/
def EnumEntry (db : Db) (e : Nat) (name : Str) (size part : Nat) : Prop :=
  Named db e name ∧ HasNum db e .byteSize size ∧ FirstChild db e (fun c => Tagged db c .variantPart) part

theorem FirstChild.holds {db : Db} {e : Nat} {P : Nat → Prop} {c : Nat} (h : FirstChild db e P c) : P c := by
  obtain ⟨_, _, _, h, _⟩ := h; exact h

theorem optionEntry_ok (sh : Sh) (db : Db) (e : Nat) (hw : WellFormed db) (hdec : Decodes db)
    (name : Str) (size : Nat) (d : Disc) (o t : Nat) :
    optionEntry sh db e = .ok (name, size, d, (o, t)) ↔ ∃ part, EnumEntry db e name size part ∧
      DiscOf sh db part d ∧ Payload db part (chars! "Some") o t := by
  simp only [optionEntry, both_ok, andThen_ok, enumDiscriminant_ok, udataAttr_ok]
  constructor
  · rintro ⟨h1, h2, part, h3, h4, h5⟩
    have h3 := (getMemberByTag_ok _ _ _ _).1 h3
    rw [child_namedTuple1 _ _ _ _ _ hw hdec (FirstChild.holds h3)] at h5
    obtain ⟨d, o', t', x, v, m, s, hv, g1, g2, g3, g4, g5, g6, g7⟩ := h5
    cases g6; cases g7
    exact ⟨part, ⟨(dieName_ok _ _ _).1 h1, h2, h3⟩, h4, v, m, s, hv, g1, g2, g3, g4⟩
  · rintro ⟨part, ⟨h1, h2, h3⟩, h4, v, m, s, hv, g1, g2, g3, g4⟩
    refine ⟨(dieName_ok _ _ _).2 h1, h2, part, (getMemberByTag_ok _ _ _ _).2 h3, h4, ?_⟩
    rw [child_namedTuple1 _ _ _ _ _ hw hdec (FirstChild.holds h3)]
    obtain ⟨dd, hdd⟩ := filter_udata_total db v .discr
    exact ⟨dd, o, t, t, v, m, s, hv, g1, g2, g3, g4, hdd, rfl, rfl⟩

theorem nonnull_ok (db : Db) (e t : Nat) :
    nonnull db e = .ok t ↔ ∃ p, Field db e (chars! "pointer") 0 p ∧ Tagged db p .pointerType ∧ Typed db p t := by
  simp only [nonnull, mapRes, Res.bind_eq_ok, Prod.exists, andThen_ok, both_ok, located_iff, typed_iff,
    isMemberTag_ok]
  constructor
  · rintro ⟨o, t', ⟨c, h1, h2, p, h3, p', ⟨h4, rfl⟩, h5⟩, h6⟩
    split at h6
    · cases h6
    · rename_i h0
      cases h6
      have h0 : o = 0 := by omega
      subst h0
      exact ⟨p', ⟨c, (getMember_ok _ _ _ _).1 h1, h2, h3⟩, h4, h5⟩
  · rintro ⟨p, ⟨c, h1, h2, h3⟩, h4, h5⟩
    exact ⟨0, t, ⟨c, (getMember_ok _ _ _ _).2 h1, h2, p, h3, p, ⟨h4, rfl⟩, h5⟩, by simp⟩

end Rudy.TypeRes
