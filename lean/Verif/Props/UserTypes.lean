import Verif.Props.TypeRes
import Verif.Proof.TypeMono
/-
C58: the layouts of primitive, composite and user defined types.
C59: resolution does not depend on the depth allowed to it.
C60: the location of the discriminant of an enumeration.
-/
namespace Rudy.TypeRes
open Rudy.Dwarf Rudy.Parse Rudy.Layout

/-! ### C58: primitive, composite and user defined types -/

section
variable (typedef : Nat → Option Layout) (db : Db) (depth : Nat) (e : Nat)

/-- The name of the entry is not that of a type the code knows itself. -/
def Ordinary (typedef : Nat → Option Layout) (e : Nat) : Prop :=
  match typedef e with
  | none => True
  | some (.struct ..) | some (.enum ..) | some (.cenum ..) | some (.alias _) => True
  | some _ => False

theorem resolve_ordinary (h : Ordinary typedef e) (td : TypeDef) :
    resolveType typedef db depth e = .ok td ↔
      ∃ l, byTag (shallow typedef db depth) db e = .ok l ∧ td = .mk (some e) l := by
  have hb : builtin (shallow typedef db depth) typedef db e = .ok none := by
    simp only [builtin]
    simp only [Ordinary] at h
    split
    · rfl
    · rename_i l hl
      rw [hl] at h
      cases l <;> first | exact h.elim | rfl
  simp only [resolveType, hb, Res.bind_ok, Res.bind_eq_ok]
  constructor
  · rintro ⟨l, h1, h2⟩; cases h2; exact ⟨l, h1, rfl⟩
  · rintro ⟨l, h1, rfl⟩; exact ⟨l, h1, rfl⟩

/-- `c` is a field: its name, offset and resolved type. -/
def IsField (sh : Sh) (db : Db) (c : Nat) (f : Str × Nat × TypeDef) : Prop :=
  Named db c f.1 ∧ Located db c f.2.1 ∧ ∃ t, Typed db c t ∧ sh t = .ok f.2.2

theorem structFields_ok (sh : Sh) (cs : List Nat) (fs : List (Str × Nat × TypeDef)) :
    structFields sh db cs = .ok fs ↔
      List.Forall₂ (IsField sh db) (cs.filter fun c => decide (tag db c = some .member)) fs := by
  induction cs generalizing fs with
  | nil =>
    simp only [structFields, List.filter_nil, List.forall₂_nil_left_iff]
    constructor
    · intro h; cases h; rfl
    · rintro rfl; rfl
  | cons c cs ih =>
    simp only [structFields]
    by_cases ht : tag db c = some .member
    · rw [if_pos ht, List.filter_cons_of_pos (by simpa using ht)]
      simp only [Res.bind_eq_ok, ih]
      constructor
      · rintro ⟨n, h1, o, h2, te, h3, t, h4, r, h5, h6⟩
        cases h6
        exact .cons ⟨(dieName_ok _ _ _).1 h1, (located_iff _ _ _).1 h2, te, (typed_iff _ _ _).1 h3, h4⟩ h5
      · intro h
        cases h with
        | @cons _ f _ r hf hr =>
          obtain ⟨n, o, t⟩ := f
          obtain ⟨h1, h2, te, h3, h4⟩ := hf
          exact ⟨n, (dieName_ok _ _ _).2 h1, o, (located_iff _ _ _).2 h2, te, (typed_iff _ _ _).2 h3, t, h4, r, hr,
            rfl⟩
    · rw [if_neg ht, List.filter_cons_of_neg (by simpa using ht), ih]

/-- C58: a structure has exactly the member entries of its entry as fields, in that order, each with
the name, offset and type the entry says. -/
theorem C58_struct (ho : Ordinary typedef e) (ht : Tagged db e .structureType) (cs : List Nat)
    (hc : db.children e = .ok cs) (hv : ∀ c ∈ cs, ¬ Tagged db c .variantPart) (td : TypeDef) :
    resolveType typedef db depth e = .ok td ↔ ∃ name size align fs,
      Named db e name ∧ HasNum db e .byteSize size ∧ HasNum db e .alignment align ∧
      List.Forall₂ (IsField (shallow typedef db depth) db)
        (cs.filter fun c => decide (tag db c = some .member)) fs ∧
      td = .mk (some e) (.struct name size align (membersOf fs)) := by
  rw [resolve_ordinary typedef db depth e ho]
  have hany : (cs.any fun c => decide (tag db c = some .variantPart)) = false := by
    rw [List.any_eq_false]
    intro c hm
    simpa using fun h => hv c hm ((tagged_iff db c _).1 h)
  simp only [byTag, (tagged_iff db e _).2 ht, hc, Res.bind_ok, hany, Bool.false_eq_true, if_false, structDef,
    Res.bind_eq_ok, structFields_ok, udataAttr_ok]
  constructor
  · rintro ⟨l, ⟨name, h1, size, h2, align, h3, fs, h5, h6⟩, rfl⟩
    cases h6
    exact ⟨name, size, align, fs, (dieName_ok _ _ _).1 h1, h2, h3, h5, rfl⟩
  · rintro ⟨name, size, align, fs, h1, h2, h3, h4, rfl⟩
    exact ⟨_, ⟨name, (dieName_ok _ _ _).2 h1, size, h2, align, h3, fs, h4, rfl⟩, rfl⟩

/-- An element of a tuple: offset and type, no name. -/
def IsElem (sh : Sh) (db : Db) (c : Nat) (f : Str × Nat × TypeDef) : Prop :=
  f.1 = [] ∧ Located db c f.2.1 ∧ ∃ t, Typed db c t ∧ sh t = .ok f.2.2

theorem tupleElems_ok (sh : Sh) (cs : List Nat) (fs : List (Str × Nat × TypeDef)) :
    tupleElems sh db cs = .ok fs ↔ List.Forall₂ (IsElem sh db) cs fs := by
  induction cs generalizing fs with
  | nil =>
    simp only [tupleElems, List.forall₂_nil_left_iff]
    constructor
    · intro h; cases h; rfl
    · rintro rfl; rfl
  | cons c cs ih =>
    simp only [tupleElems, Res.bind_eq_ok, ih, entryShallow]
    constructor
    · rintro ⟨o, h1, t, ⟨te, h2, h3⟩, r, h4, h5⟩
      cases h5
      exact .cons ⟨rfl, (located_iff _ _ _).1 h1, te, (typed_iff _ _ _).1 h2, h3⟩ h4
    · intro h
      cases h with
      | @cons _ f _ r hf hr =>
        obtain ⟨n, o, t⟩ := f
        obtain ⟨h1, h2, te, h3, h4⟩ := hf
        cases h1
        exact ⟨o, (located_iff _ _ _).2 h2, t, ⟨te, (typed_iff _ _ _).2 h3, h4⟩, r, hr, rfl⟩

/-- C58: a tuple has the children of its entry as elements, in order. -/
theorem C58_tuple (m0 : Members) (s0 : Nat) (hn : typedef e = some (.tuple m0 s0)) (td : TypeDef) :
    resolveType typedef db depth e = .ok td ↔ ∃ cs size fs, db.children e = .ok cs ∧ HasNum db e .byteSize size ∧
      List.Forall₂ (IsElem (shallow typedef db depth) db) cs fs ∧
      td = .mk (some e) (.tuple (membersOf fs) size) := by
  simp only [resolveType, builtin, hn, primitive, tupleType, Res.bind_eq_ok, tupleElems_ok, udataAttr_ok]
  constructor
  · rintro ⟨o, ⟨l, ⟨size, h1, cs, h2, fs, h3, h4⟩, h5⟩, h6⟩
    cases h4; cases h5; cases h6
    exact ⟨cs, size, fs, h2, h1, h3, rfl⟩
  · rintro ⟨cs, size, fs, h2, h1, h3, rfl⟩
    exact ⟨_, ⟨_, ⟨size, h1, cs, h2, fs, h3, rfl⟩, rfl⟩, rfl⟩

/-- C58: an (unnamed) array entry: the element type is the entry's type, the length the count of its
first subrange. -/
theorem C58_array (ho : Ordinary typedef e) (ht : Tagged db e .arrayType) (td : TypeDef) :
    resolveType typedef db depth e = .ok td ↔ ∃ t elem s n, Typed db e t ∧ shallow typedef db depth t = .ok elem ∧
      FirstChild db e (fun c => Tagged db c .subrangeType) s ∧ HasNum db s .count n ∧
      td = .mk (some e) (.array elem n) := by
  rw [resolve_ordinary typedef db depth e ho]
  have hs := getMemberByTag_ok db e .subrangeType
  simp only [getMemberByTag] at hs
  simp only [byTag, (tagged_iff db e _).2 ht, Res.bind_eq_ok, entryShallow, udataAttr_ok]
  simp only [Res.bind_eq_ok] at hs
  constructor
  · rintro ⟨l, ⟨elem, ⟨t, h1, h2⟩, cs, h3, s, h4, n, h5, h6⟩, rfl⟩
    cases h6
    exact ⟨t, elem, s, n, (typed_iff _ _ _).1 h1, h2, (hs s).1 ⟨cs, h3, h4⟩, h5, rfl⟩
  · rintro ⟨t, elem, s, n, h1, h2, h3, h5, rfl⟩
    obtain ⟨cs, h3, h4⟩ := (hs s).2 h3
    exact ⟨_, ⟨elem, ⟨t, (typed_iff _ _ _).2 h1, h2⟩, cs, h3, s, h4, n, h5, rfl⟩, rfl⟩

/-- C58: a pointer or reference points to the type of its entry. -/
theorem C58_pointer (m : Bool) (t0 : TypeDef) (td : TypeDef) :
    (typedef e = some (.pointer m t0) → (resolveType typedef db depth e = .ok td ↔ ∃ t inner, Typed db e t ∧
      shallow typedef db depth t = .ok inner ∧ td = .mk (some e) (.pointer m inner))) ∧
    (typedef e = some (.reference m t0) → (resolveType typedef db depth e = .ok td ↔ ∃ t inner, Typed db e t ∧
      shallow typedef db depth t = .ok inner ∧ td = .mk (some e) (.reference m inner))) := by
  constructor <;>
  · intro hn
    simp only [resolveType, builtin, hn, primitive, Res.bind_eq_ok, entryShallow]
    constructor
    · rintro ⟨o, ⟨l, ⟨inner, ⟨t, h1, h2⟩, h3⟩, h4⟩, h5⟩
      cases h3; cases h4; cases h5
      exact ⟨t, inner, (typed_iff _ _ _).1 h1, h2, rfl⟩
    · rintro ⟨t, inner, h1, h2, rfl⟩
      exact ⟨_, ⟨_, ⟨inner, ⟨t, (typed_iff _ _ _).2 h1, h2⟩, rfl⟩, rfl⟩, rfl⟩

/-- C58: a slice: its element type is what its data pointer points to. -/
theorem C58_slice (t0 : TypeDef) (a b : Nat) (hn : typedef e = some (.slice t0 a b)) (td : TypeDef) :
    resolveType typedef db depth e = .ok td ↔ ∃ d p t elem n, Field db e (chars! "data_ptr") d p ∧ Typed db p t ∧
      shallow typedef db depth t = .ok elem ∧ OffOf db e (chars! "length") n ∧
      td = .mk (some e) (.slice elem d n) := by
  simp only [resolveType, builtin, hn, primitive, Res.bind_eq_ok, entryShallow, memberUdata_off]
  constructor
  · rintro ⟨o, ⟨l, ⟨m, h1, d, h2, p, h3, elem, ⟨t, h4, h5⟩, n, h6, h7⟩, h8⟩, h9⟩
    cases h7; cases h8; cases h9
    exact ⟨d, p, t, elem, n, ⟨m, (getMember_ok _ _ _ _).1 h1, (located_iff _ _ _).1 h2, (typed_iff _ _ _).1 h3⟩,
      (typed_iff _ _ _).1 h4, h5, h6, rfl⟩
  · rintro ⟨d, p, t, elem, n, ⟨m, h1, h2, h3⟩, h4, h5, h6, rfl⟩
    exact ⟨_, ⟨_, ⟨m, (getMember_ok _ _ _ _).2 h1, d, (located_iff _ _ _).2 h2, p, (typed_iff _ _ _).2 h3, elem,
      ⟨t, (typed_iff _ _ _).2 h4, h5⟩, n, h6, rfl⟩, rfl⟩, rfl⟩

/-- C58: a string slice. -/
theorem C58_str (a b : Nat) (hn : typedef e = some (.strSlice a b)) (td : TypeDef) :
    resolveType typedef db depth e = .ok td ↔ ∃ d n, OffOf db e (chars! "data_ptr") d ∧
      OffOf db e (chars! "length") n ∧ td = .mk (some e) (.strSlice d n) := by
  simp only [resolveType, builtin, hn, primitive, Res.bind_eq_ok, memberUdata_off]
  constructor
  · rintro ⟨o, ⟨l, ⟨d, h1, n, h2, h3⟩, h4⟩, h5⟩
    cases h3; cases h4; cases h5
    exact ⟨d, n, h1, h2, rfl⟩
  · rintro ⟨d, n, h1, h2, rfl⟩
    exact ⟨_, ⟨_, ⟨d, h1, n, h2, rfl⟩, rfl⟩, rfl⟩

/-! #### Enumerations -/

/-- The results `xs` are those of the children `cs` that have one, in order; the others have none. -/
inductive Collects {T : Type} (R : Nat → T → Prop) : List Nat → List T → Prop
  | nil : Collects R [] []
  | take {c : Nat} {cs : List Nat} {x : T} {xs : List T} : R c x → Collects R cs xs → Collects R (c :: cs) (x :: xs)
  | skip {c : Nat} {cs : List Nat} {xs : List T} : (∀ x, ¬ R c x) → Collects R cs xs → Collects R (c :: cs) xs

theorem collect_sound {T : Type} (p : Parser T) (R : Nat → T → Prop) (hR : ∀ c x, p db c = .ok x ↔ R c x)
    (cs : List Nat) (xs : List T) (h : collect p db cs = .ok xs) : Collects R cs xs := by
  induction cs generalizing xs with
  | nil => cases h; exact .nil
  | cons c cs ih =>
    simp only [collect] at h
    split at h
    · rename_i x hx
      simp only [Res.bind_eq_ok] at h
      obtain ⟨ys, h1, h2⟩ := h
      cases h2
      exact .take ((hR c x).1 hx) (ih ys h1)
    · rename_i hx
      exact .skip (fun x h => by have := (hR c x).2 h; rw [hx] at this; cases this) (ih xs h)
    · cases h

theorem collect_complete {T : Type} (p : Parser T) (R : Nat → T → Prop) (hR : ∀ c x, p db c = .ok x ↔ R c x)
    (cs : List Nat) (hp : ∀ c ∈ cs, p db c ≠ .panic) (xs : List T) (h : Collects R cs xs) :
    collect p db cs = .ok xs := by
  induction h with
  | nil => rfl
  | @take c cs x xs hx _ ih =>
    simp only [collect, (hR c x).2 hx, ih fun c hm => hp c (by simp [hm]), Res.bind_ok]
  | @skip c cs xs hx _ ih =>
    have : p db c = .err := by
      cases hpc : p db c with
      | ok x => exact absurd ((hR c x).1 hpc) (hx x)
      | err => rfl
      | panic => exact absurd hpc (hp c (by simp))
    simp only [collect, this, ih fun c hm => hp c (by simp [hm])]

/-- The number an entry gives for an attribute, signed or not. -/
def HasInt (db : Db) (c : Nat) (a : At) (i : Int) : Prop :=
  (∃ n : Nat, HasNum db c a n ∧ i = n) ∨ ∃ d, db.entry c = some d ∧ d.attr a = some (.sdata i)

theorem intAttr_ok (c : Nat) (a : At) (i : Int) : intAttr a db c = .ok i ↔ HasInt db c a i := by
  simp only [intAttr, getAttr, HasInt, HasNum]
  cases db.entry c with
  | none => simp
  | some d =>
    simp only [Option.some.injEq, exists_eq_left']
    cases hd : d.attr a with
    | none => simp
    | some v => cases v <;> simp [eq_comm]

theorem intAttr_no_panic (c : Nat) (a : At) : intAttr a db c ≠ .panic := by
  simp only [intAttr, getAttr]
  cases db.entry c with
  | none => simp
  | some d =>
    cases hd : d.attr a with
    | none => simp [hd]
    | some v => cases v <;> simp [hd]

/-- An enumerator: its name and value. -/
def Enumerator (db : Db) (c : Nat) (v : Str × Int) : Prop := Named db c v.1 ∧ HasInt db c .constValue v.2

/-- C58: a field-less enumeration has the named constants among the children of its entry as variants,
in order; its discriminant has the integer type of the entry. -/
theorem C58_c_enum (ho : Ordinary typedef e) (ht : Tagged db e .enumerationType) (td : TypeDef) :
    resolveType typedef db depth e = .ok td ↔ ∃ name size t ty disc cs vs,
      Named db e name ∧ HasNum db e .byteSize size ∧ Typed db e t ∧ shallow typedef db depth t = .ok ty ∧
      ((∃ n, ty.layout = .int n ∧ disc = .int n) ∨ (∃ n, ty.layout = .uint n ∧ disc = .uint n)) ∧
      db.children e = .ok cs ∧ Collects (Enumerator db) cs vs ∧
      td = .mk (some e) (.cenum name disc vs size) := by
  rw [resolve_ordinary typedef db depth e ho]
  have hR : ∀ c (x : Str × Int), cEnumVariant db c = .ok x ↔ Enumerator db c x := by
    rintro c ⟨n, i⟩
    simp only [cEnumVariant, both_ok, Enumerator, intAttr_ok]
    exact and_congr_left fun _ => dieName_ok db c n
  have hp : ∀ c, cEnumVariant db c ≠ .panic := by
    intro c
    simp only [cEnumVariant, both]
    cases hn : stringAttr .name db c with
    | panic => exact absurd hn (dieName_no_panic db c)
    | err => simp
    | ok n =>
      simp only [Res.bind_ok]
      cases hi : intAttr .constValue db c with
      | panic => exact absurd hi (intAttr_no_panic db c _)
      | err => simp
      | ok i => simp
  have hcoll : ∀ cs vs, collect cEnumVariant db cs = .ok vs ↔ Collects (Enumerator db) cs vs := fun cs vs =>
    ⟨collect_sound db _ _ hR cs vs, collect_complete db _ _ hR cs (fun c _ => hp c) vs⟩
  simp only [byTag, (tagged_iff db e _).2 ht, cEnumDef, Res.bind_eq_ok, Prod.exists, both_ok, mapRes, udataAttr_ok,
    andThen_ok, typed_iff, forEachChild, hcoll]
  constructor
  · rintro ⟨l, ⟨name, size, disc, ⟨h1, h2, ty, ⟨t, h3, h4⟩, h5⟩, vs, ⟨cs, h6, h7⟩, h8⟩, rfl⟩
    cases h8
    refine ⟨name, size, t, ty, disc, cs, vs, (dieName_ok _ _ _).1 h1, h2, h3, h4, ?_, h6, h7, rfl⟩
    split at h5
    · rename_i n hl; cases h5; exact .inl ⟨n, hl, rfl⟩
    · rename_i n hl; cases h5; exact .inr ⟨n, hl, rfl⟩
    · cases h5
  · rintro ⟨name, size, t, ty, disc, cs, vs, h1, h2, h3, h4, h5, h6, h7, rfl⟩
    refine ⟨_, ⟨name, size, disc, ⟨(dieName_ok _ _ _).2 h1, h2, ty, ⟨t, h3, h4⟩, ?_⟩, vs, ⟨cs, h6, h7⟩, rfl⟩, rfl⟩
    rcases h5 with ⟨n, hl, rfl⟩ | ⟨n, hl, rfl⟩ <;> rw [hl]

/-- A variant of an enumeration with fields: name, discriminant value (if any) and the resolved type of
its fields. -/
def IsVariant (sh : Sh) (db : Db) (v : Nat) (r : Str × Option Int × TypeDef) : Prop :=
  Tagged db v .variant ∧
  ((∃ i, r.2.1 = some i ∧ HasInt db v .discrValue i) ∨ r.2.1 = none ∧ ∀ i, ¬ HasInt db v .discrValue i) ∧
  ∃ m t, FirstChild db v (fun c => Tagged db c .member) m ∧ Named db m r.1 ∧ Located db m 0 ∧ Typed db m t ∧
    sh t = .ok r.2.2

theorem enumVariant_ok (sh : Sh) (v : Nat) (r : Str × Option Int × TypeDef) :
    enumVariant sh db v = .ok r ↔ IsVariant sh db v r := by
  obtain ⟨name, disc, ty⟩ := r
  simp only [enumVariant, mapRes, Res.bind_eq_ok, Prod.exists, andThen_ok, both_ok, isMemberTag_ok,
    filterP_ok _ _ _ (intAttr_no_panic db _ .discrValue), intAttr_ok, located_iff, typed_iff, IsVariant,
    resolveShallow]
  constructor
  · rintro ⟨d, n, o, t, ⟨m, ⟨h1, rfl⟩, h2, c, h3, h4, h5, te, h6, h7⟩, h8⟩
    split at h8
    · rename_i h0
      cases h8
      subst h0
      refine ⟨h1, ?_, c, te, (getMemberByTag_ok _ _ _ _).1 h3, (dieName_ok _ _ _).1 h4, h5, h6, h7⟩
      rcases h2 with ⟨i, rfl, h2⟩ | ⟨rfl, h2⟩
      · exact .inl ⟨i, rfl, h2⟩
      · exact .inr ⟨rfl, fun i h => h2 i ((intAttr_ok db _ _ i).2 h)⟩
    · cases h8
  · rintro ⟨h1, h2, c, te, h3, h4, h5, h6, h7⟩
    refine ⟨disc, name, 0, ty, ⟨v, ⟨h1, rfl⟩, ?_, c, (getMemberByTag_ok _ _ _ _).2 h3, (dieName_ok _ _ _).2 h4, h5,
      te, h6, h7⟩, by simp⟩
    rcases h2 with ⟨i, rfl, h2⟩ | ⟨rfl, h2⟩
    · exact .inl ⟨i, rfl, h2⟩
    · exact .inr ⟨rfl, fun i h => h2 i ((intAttr_ok db _ _ i).1 h)⟩

/-- C58: an enumeration that resolves has the understood variants of its variant part as variants, in
order. -/
theorem C58_enum_sound (ho : Ordinary typedef e) (ht : Tagged db e .structureType) (part : Nat)
    (hv : FirstChild db e (fun c => Tagged db c .variantPart) part) (td : TypeDef)
    (h : resolveType typedef db depth e = .ok td) :
    ∃ name size disc cs vs, Named db e name ∧ HasNum db e .byteSize size ∧
      DiscOf (shallow typedef db depth) db part disc ∧ db.children part = .ok cs ∧
      Collects (IsVariant (shallow typedef db depth) db) cs vs ∧
      td = .mk (some e) (.enum name disc (variantsOf vs) size) := by
  rw [resolve_ordinary typedef db depth e ho] at h
  obtain ⟨before, after, hc, hp, hb⟩ := id hv
  have hany : ((before ++ part :: after).any fun c => decide (tag db c = some .variantPart)) = true := by
    rw [List.any_eq_true]
    exact ⟨part, by simp, by simpa using (tagged_iff db part _).2 hp⟩
  simp only [byTag, (tagged_iff db e _).2 ht, hc, Res.bind_ok, hany, if_true, enumDef, Res.bind_eq_ok, Prod.exists,
    both_ok, udataAttr_ok, enumDiscriminant_ok, forEachChild] at h
  obtain ⟨l, ⟨name, size, part', ⟨h1, h2, h3⟩, disc, h4, vs, ⟨cs, h5, h6⟩, h7⟩, rfl⟩ := h
  cases h7
  cases FirstChild.unique hv ((getMemberByTag_ok _ _ _ _).1 h3)
  exact ⟨name, size, disc, cs, vs, (dieName_ok _ _ _).1 h1, h2, h4, h5,
    collect_sound db _ _ (enumVariant_ok db _) cs vs h6, rfl⟩

/-- C58: an enumeration all of whose variants are understood resolves, with all of them. -/
theorem C58_enum_complete (ho : Ordinary typedef e) (ht : Tagged db e .structureType) (part : Nat)
    (hv : FirstChild db e (fun c => Tagged db c .variantPart) part) (name : Str) (size : Nat) (disc : Disc)
    (cs : List Nat) (vs : List (Str × Option Int × TypeDef)) (h1 : Named db e name) (h2 : HasNum db e .byteSize size)
    (h3 : DiscOf (shallow typedef db depth) db part disc) (h4 : db.children part = .ok cs)
    (h5 : List.Forall₂ (IsVariant (shallow typedef db depth) db)
      (cs.filter fun c => decide (tag db c = some .variant)) vs) :
    resolveType typedef db depth e = .ok (.mk (some e) (.enum name disc (variantsOf vs) size)) := by
  rw [resolve_ordinary typedef db depth e ho]
  obtain ⟨before, after, hc, hp, hb⟩ := id hv
  have hany : ((before ++ part :: after).any fun c => decide (tag db c = some .variantPart)) = true := by
    rw [List.any_eq_true]
    exact ⟨part, by simp, by simpa using (tagged_iff db part _).2 hp⟩
  have hcoll : collect (enumVariant (shallow typedef db depth)) db cs = .ok vs := by
    clear h4
    induction cs generalizing vs with
    | nil => cases h5; rfl
    | cons c cs ih =>
      by_cases hcv : tag db c = some .variant
      · rw [List.filter_cons_of_pos (by simpa using hcv)] at h5
        cases h5 with
        | cons hx hr =>
          simp only [collect, (enumVariant_ok db _ _ _).2 hx, ih _ hr, Res.bind_ok]
      · rw [List.filter_cons_of_neg (by simpa using hcv)] at h5
        have : enumVariant (shallow typedef db depth) db c = .err := by
          simp [enumVariant, mapRes, andThen, isMemberTag_err db c .variant (fun h => hcv ((tagged_iff _ _ _).2 h))]
        simp only [collect, this, ih _ h5]
  refine ⟨_, ?_, rfl⟩
  simp only [byTag, (tagged_iff db e _).2 ht, hc, Res.bind_ok, hany, if_true, enumDef, Res.bind_eq_ok, Prod.exists,
    both_ok, udataAttr_ok, enumDiscriminant_ok, forEachChild]
  exact ⟨name, size, part, ⟨(dieName_ok _ _ _).2 h1, h2, (getMemberByTag_ok _ _ _ _).2 hv⟩, disc, h3, vs,
    ⟨cs, h4, hcoll⟩, rfl⟩

/-- C58 fails: a variant whose fields do not resolve is left out of the enumeration without any error. -/
theorem C58_enum_variant_lost_fails (ho : Ordinary typedef e) (ht : Tagged db e .structureType) (part : Nat)
    (hv : FirstChild db e (fun c => Tagged db c .variantPart) part) (name : Str) (size : Nat) (disc : Disc)
    (v : Nat) (h1 : Named db e name) (h2 : HasNum db e .byteSize size)
    (h3 : DiscOf (shallow typedef db depth) db part disc) (h4 : db.children part = .ok [v])
    (m o t : Nat) (n : Str) (h5 : Tagged db v .variant) (g1 : FirstChild db v (fun c => Tagged db c .member) m)
    (g2 : Named db m n) (g3 : Located db m o) (g4 : Typed db m t) (g5 : shallow typedef db depth t = .err) :
    resolveType typedef db depth e = .ok (.mk (some e) (.enum name disc .nil size)) := by
  have h6 : enumVariant (shallow typedef db depth) db v = .err := by
    have h1 : isMemberTag .variant db v = .ok v := (isMemberTag_ok db v _ v).2 ⟨h5, rfl⟩
    have h2 : memberByTag .member db v = .ok m := (getMemberByTag_ok _ _ _ _).2 g1
    have h3 : stringAttr .name db m = .ok n := (dieName_ok db m n).2 g2
    have h4 : dataOffset db m = .ok o := (located_iff db m o).2 g3
    have h5 : entryType db m = .ok t := (typed_iff db m t).2 g4
    obtain ⟨x, hx⟩ : ∃ x, filterP (intAttr .discrValue) db v = .ok x := by
      simp only [filterP]
      cases h : intAttr .discrValue db v with
      | ok x => exact ⟨_, rfl⟩
      | err => exact ⟨_, rfl⟩
      | panic => exact absurd h (intAttr_no_panic db v _)
    simp [enumVariant, mapRes, andThen, both, h1, h2, h3, h4, h5, hx, resolveShallow, g5]
  rw [resolve_ordinary typedef db depth e ho]
  obtain ⟨before, after, hc, hp, hb⟩ := id hv
  have hany : ((before ++ part :: after).any fun c => decide (tag db c = some .variantPart)) = true := by
    rw [List.any_eq_true]
    exact ⟨part, by simp, by simpa using (tagged_iff db part _).2 hp⟩
  refine ⟨_, ?_, rfl⟩
  simp only [byTag, (tagged_iff db e _).2 ht, hc, Res.bind_ok, hany, if_true, enumDef, Res.bind_eq_ok, Prod.exists,
    both_ok, udataAttr_ok, enumDiscriminant_ok, forEachChild]
  exact ⟨name, size, part, ⟨(dieName_ok _ _ _).2 h1, h2, (getMemberByTag_ok _ _ _ _).2 hv⟩, disc, h3, [],
    ⟨[v], h4, by simp [collect, h6]⟩, rfl⟩

/-! #### Functions -/

/-- An argument of a function type: its type only. -/
def IsArg (sh : Sh) (db : Db) (c : Nat) (f : Str × Nat × TypeDef) : Prop :=
  f.1 = [] ∧ f.2.1 = 0 ∧ ∃ t, Typed db c t ∧ sh t = .ok f.2.2

theorem argTypes_ok (sh : Sh) (cs : List Nat) (fs : List (Str × Nat × TypeDef)) :
    argTypes sh db cs = .ok fs ↔
      List.Forall₂ (IsArg sh db) (cs.filter fun c => decide (tag db c = some .formalParameter)) fs := by
  induction cs generalizing fs with
  | nil =>
    simp only [argTypes, List.filter_nil, List.forall₂_nil_left_iff]
    constructor
    · intro h; cases h; rfl
    · rintro rfl; rfl
  | cons c cs ih =>
    simp only [argTypes]
    by_cases ht : tag db c = some .formalParameter
    · rw [if_pos ht, List.filter_cons_of_pos (by simpa using ht)]
      simp only [Res.bind_eq_ok, ih, entryShallow]
      constructor
      · rintro ⟨t, ⟨te, h3, h4⟩, r, h5, h6⟩
        cases h6
        exact .cons ⟨rfl, rfl, te, (typed_iff _ _ _).1 h3, h4⟩ h5
      · intro h
        cases h with
        | @cons _ f _ r hf hr =>
          obtain ⟨n, o, t⟩ := f
          obtain ⟨h1, h2, te, h3, h4⟩ := hf
          cases h1; cases h2
          exact ⟨t, ⟨te, (typed_iff _ _ _).2 h3, h4⟩, r, hr, rfl⟩
    · rw [if_neg ht, List.filter_cons_of_neg (by simpa using ht), ih]

/-- What a function type entry says it returns: the type, or nothing if its name says nothing and the type is `()`. -/
def Returns (named : OptTypeDef) (t : TypeDef) (ret : OptTypeDef) : Prop :=
  ((named = .none ∧ t.layout = .unit) ∧ ret = .none) ∨ (¬ (named = .none ∧ t.layout = .unit) ∧ ret = .some t)

theorem isUnit_iff (l : Layout) : isUnit l = true ↔ l = .unit := by cases l <;> simp [isUnit]

/-- C58: an entry with the name of a function type has the formal parameters among its children as arguments, in that order, and returns
the type of the entry, or nothing if that is `()` and its name has no result. -/
theorem C58_function (named : OptTypeDef) (m0 : Members) (hn : typedef e = some (.function named m0)) (td : TypeDef) :
    resolveType typedef db depth e = .ok td ↔ ∃ t r cs as ret, Typed db e t ∧ shallow typedef db depth t = .ok r ∧
      db.children e = .ok cs ∧
      List.Forall₂ (IsArg (shallow typedef db depth) db) (cs.filter fun c => decide (tag db c = some .formalParameter)) as ∧
      Returns named r ret ∧ td = .mk (some e) (.function ret (membersOf as)) := by
  have key : ∀ (r : TypeDef) (ret : OptTypeDef), Returns named r ret ↔
      ret = (match named with
        | .none => if isUnit r.layout then OptTypeDef.none else .some r
        | .some _ => .some r) := by
    intro r ret
    unfold Returns
    cases named with
    | some x => simp
    | none =>
      by_cases hu : r.layout = .unit
      · simp [hu, isUnit]
      · have : isUnit r.layout = false := by
          rw [Bool.eq_false_iff]; exact fun h => hu ((isUnit_iff _).1 h)
        simp [hu, this]
  simp only [resolveType, builtin, hn, primitive, entryShallow, Res.bind_eq_ok, argTypes_ok, key]
  cases named <;>
  · constructor
    · rintro ⟨o, ⟨l, ⟨r, ⟨t, h1, h2⟩, cs, h3, as, h4, h5⟩, h6⟩, h7⟩
      cases h5; cases h6; cases h7
      exact ⟨t, r, cs, as, _, (typed_iff _ _ _).1 h1, h2, h3, h4, rfl, rfl⟩
    · rintro ⟨t, r, cs, as, _, h1, h2, h3, h4, rfl, rfl⟩
      exact ⟨_, ⟨_, ⟨r, ⟨t, (typed_iff _ _ _).2 h1, h2⟩, cs, h3, as, h4, rfl⟩, rfl⟩, rfl⟩

/-- C58: a subroutine entry without a name has its formal parameters as arguments, in order; it returns nothing if it has no type, and else
the type of its type (one step too far, see `C58_subroutine_return_fails`). -/
theorem C58_subroutine (ho : Ordinary typedef e) (ht : Tagged db e .subroutineType) (td : TypeDef) :
    resolveType typedef db depth e = .ok td ↔ ∃ cs as ret, db.children e = .ok cs ∧
      List.Forall₂ (IsArg (shallow typedef db depth) db) (cs.filter fun c => decide (tag db c = some .formalParameter)) as ∧
      (((∀ t, ¬ Typed db e t) ∧ ret = .none) ∨
        ∃ t t' r, Typed db e t ∧ Typed db t t' ∧ shallow typedef db depth t' = .ok r ∧ ret = .some r) ∧
      td = .mk (some e) (.function ret (membersOf as)) := by
  rw [resolve_ordinary typedef db depth e ho]
  simp only [byTag, (tagged_iff db e _).2 ht, Res.bind_eq_ok, argTypes_ok]
  have key : ∀ ret, (match refAttr .type db e with
      | .ok t => (entryShallow (shallow typedef db depth) db t).bind fun r => .ok (OptTypeDef.some r)
      | _ => .ok .none) = Res.ok ret ↔
      (((∀ t, ¬ Typed db e t) ∧ ret = .none) ∨
        ∃ t t' r, Typed db e t ∧ Typed db t t' ∧ shallow typedef db depth t' = .ok r ∧ ret = .some r) := by
    intro ret
    have none : ∀ x : Res Nat, (∀ a, x ≠ .ok a) → refAttr .type db e = x → ∀ t, ¬ Typed db e t := by
      intro x hx h t ht'
      have h2 : refAttr .type db e = .ok t := (typed_iff db e t).2 ht'
      exact hx t (h.symm.trans h2)
    cases h : refAttr .type db e with
    | ok t =>
      have h1 := (typed_iff db e t).1 h
      simp only [Res.bind_eq_ok, entryShallow]
      constructor
      · rintro ⟨r, ⟨t', h2, h3⟩, h4⟩
        cases h4
        exact Or.inr ⟨t, t', r, h1, (typed_iff _ _ _).1 h2, h3, rfl⟩
      · rintro (⟨hh, _⟩ | ⟨t2, t', r, h2, h3, h4, rfl⟩)
        · exact absurd h1 (hh t)
        · have : t2 = t := by
            have h5 : refAttr .type db e = .ok t2 := (typed_iff db e t2).2 h2
            rw [h] at h5; cases h5; rfl
          subst this
          exact ⟨r, ⟨t', (typed_iff _ _ _).2 h3, h4⟩, rfl⟩
    | err =>
      have hh := none .err (by simp) h
      constructor
      · intro h; cases h; exact Or.inl ⟨hh, rfl⟩
      · rintro (⟨_, rfl⟩ | ⟨t, _, _, h2, _⟩)
        · rfl
        · exact absurd h2 (hh t)
    | panic =>
      have hh := none .panic (by simp) h
      constructor
      · intro h; cases h; exact Or.inl ⟨hh, rfl⟩
      · rintro (⟨_, rfl⟩ | ⟨t, _, _, h2, _⟩)
        · rfl
        · exact absurd h2 (hh t)
  constructor
  · rintro ⟨l, ⟨ret, h1, cs, h2, as, h3, h4⟩, rfl⟩
    cases h4
    refine ⟨cs, as, ret, h2, h3, (key ret).1 ?_, rfl⟩
    rw [← h1]; cases refAttr .type db e <;> rfl
  · rintro ⟨cs, as, ret, h2, h3, h1, rfl⟩
    refine ⟨_, ⟨ret, ?_, cs, h2, as, h3, rfl⟩, rfl⟩
    rw [← (key ret).2 h1]; cases refAttr .type db e <;> rfl

/-- C58 fails: a function pointer as compilers describe it (a pointer entry named after the function
type, without children, pointing to an unnamed subroutine entry `s`) loses its arguments and its return
type, whatever `s` says. -/
theorem C58_function_pointer_fails (ret : OptTypeDef) (args : Members) (s : Nat)
    (hn : typedef e = some (.function ret args)) (ht : Typed db e s) (hc : db.children e = .ok [])
    (hs : typedef s = none) (hname : dieName db s = .err) (hd : 0 < depth) :
    resolveType typedef db depth e =
      .ok (.mk (some e) (.function (.some (.mk (some s) (.alias (chars! "unknown")))) .nil)) := by
  obtain ⟨n, rfl⟩ : ∃ n, depth = n + 1 := ⟨depth - 1, by omega⟩
  have h1 : refAttr .type db e = .ok s := (typed_iff db e s).2 ht
  have h2 : shallow typedef db (n + 1) s = .ok (.mk (some s) (.alias (chars! "unknown"))) := by
    simp [shallow, builtin, hs, hname]
  simp only [resolveType, builtin, hn, primitive, entryShallow, h1, Res.bind_ok, h2, hc, argTypes, membersOf]
  cases ret <;> rfl

/-- C58 fails: a subroutine entry that returns a type `t` which has no type of its own (such as an
integer) does not resolve: the return type is looked up one step too far. -/
theorem C58_subroutine_return_fails (ho : Ordinary typedef e) (ht : Tagged db e .subroutineType) (t : Nat)
    (hr : Typed db e t) (hb : ∀ t', ¬ Typed db t t') (td : TypeDef) :
    resolveType typedef db depth e ≠ .ok td := by
  intro h
  rw [resolve_ordinary typedef db depth e ho] at h
  obtain ⟨l, h, rfl⟩ := h
  have h1 : refAttr .type db e = .ok t := (typed_iff db e t).2 hr
  simp only [byTag, (tagged_iff db e _).2 ht, h1, Res.bind_eq_ok, entryShallow] at h
  obtain ⟨r, ⟨_, ⟨t', h2, _⟩, _⟩, _⟩ := h
  exact hb t' ((typed_iff db t t').1 h2)

/-! ### C60: where the discriminant is -/

/-- C60 fails: the offset of the discriminant member is not looked at; a variant part has no location of
its own, so the discriminant is taken to be at offset 0 wherever the member is. -/
theorem C60_discriminant_offset_fails (sh : Sh) (part m o : Nat) (d : Disc) (_hm : Refers db part .discr m)
    (_hl : Located db m o) (ho : o ≠ 0) (hpart : ∀ x, ¬ Located db part x)
    (h : enumDiscriminant sh db part = .ok d) : d.offset ≠ o := by
  rw [enumDiscriminant_ok] at h
  rcases h with ⟨_, _, _, _, _, _, _, h | ⟨_, h⟩⟩ | ⟨_, rfl⟩
  · exact absurd h (hpart _)
  · rw [h]; exact ho.symm
  · exact ho.symm

/-- C60, the part that holds: the type of the discriminant is the integer type of the discriminant
member, and its offset is right if the member is at offset 0. -/
theorem C60_discriminant_partial (sh : Sh) (part m t : Nat) (td : TypeDef) (d : Disc)
    (hm : Refers db part .discr m) (ht : Typed db m t) (hs : sh t = .ok td) (hl : Located db m 0)
    (hpart : ∀ x, ¬ Located db part x) :
    enumDiscriminant sh db part = .ok d ↔ d.ty = discTy td.layout ∧ Located db m d.offset := by
  rw [enumDiscriminant_ok]
  constructor
  · rintro (⟨m', t', td', h1, h2, h3, h4, h5 | ⟨_, h5⟩⟩ | ⟨h, _⟩)
    · exact absurd h5 (hpart _)
    · have : m' = m := by
        obtain ⟨d1, e1, f1⟩ := h1; obtain ⟨d2, e2, f2⟩ := hm
        rw [e1] at e2; cases e2; rw [f1] at f2; cases f2; rfl
      subst this
      cases ht.unique h2
      rw [hs] at h3; cases h3
      exact ⟨h4, h5 ▸ hl⟩
    · exact absurd hm (h m)
  · rintro ⟨h1, h2⟩
    exact .inl ⟨m, t, td, hm, ht, hs, h1, .inr ⟨hpart, h2.unique hl⟩⟩

/-- C60: without a discriminant (an enumeration of one variant) it is implicit. -/
theorem C60_no_discriminant (sh : Sh) (part : Nat) (h : ∀ m, ¬ Refers db part .discr m) :
    enumDiscriminant sh db part = .ok { ty := .implicit, offset := 0 } :=
  (enumDiscriminant_ok sh db part _).2 (.inr ⟨h, rfl⟩)

/-- C60: a variant whose fields do not start at offset 0 of the enumeration panics (in a debug build). -/
theorem C60_variant_offset_panics (sh : Sh) (v m o t : Nat) (n : Str) (td : TypeDef) (hv : Tagged db v .variant)
    (hm : FirstChild db v (fun c => Tagged db c .member) m) (hn : Named db m n) (hl : Located db m o) (ho : o ≠ 0)
    (ht : Typed db m t) (hs : sh t = .ok td) : enumVariant sh db v = .panic := by
  have h1 : isMemberTag .variant db v = .ok v := (isMemberTag_ok db v _ v).2 ⟨hv, rfl⟩
  have h2 : memberByTag .member db v = .ok m := (getMemberByTag_ok _ _ _ _).2 hm
  have h3 : stringAttr .name db m = .ok n := (dieName_ok db m n).2 hn
  have h4 : dataOffset db m = .ok o := (located_iff db m o).2 hl
  have h5 : entryType db m = .ok t := (typed_iff db m t).2 ht
  obtain ⟨x, hx⟩ : ∃ x, filterP (intAttr .discrValue) db v = .ok x := by
    simp only [filterP]
    cases h : intAttr .discrValue db v with
    | ok x => exact ⟨_, rfl⟩
    | err => exact ⟨_, rfl⟩
    | panic => exact absurd h (intAttr_no_panic db v _)
  simp [enumVariant, mapRes, andThen, both, h1, h2, h3, h4, h5, hx, resolveShallow, hs, ho]

/-! ### C59: depth -/

/-- C59: unless it overflows the stack, resolution gives the same result however much stack there is:
a result reached with less is the result. -/
theorem C59_depth_independent (m : Nat) (h : depth ≤ m) (hp : resolveType typedef db depth e ≠ .panic) :
    resolveType typedef db m e = resolveType typedef db depth e :=
  (resolveType_le typedef db depth m h e).eq hp

/-- C59: in particular two resolutions that succeed agree. -/
theorem C59_unique (n m : Nat) (t t' : TypeDef) (h : resolveType typedef db n e = .ok t)
    (h' : resolveType typedef db m e = .ok t') : t = t' := by
  rcases Nat.le_total n m with hnm | hnm
  · have := (resolveType_le typedef db n m hnm e).eq (by rw [h]; simp)
    rw [h, h'] at this; cases this; rfl
  · have := (resolveType_le typedef db m n hnm e).eq (by rw [h']; simp)
    rw [h, h'] at this; cases this; rfl

/-- C59 fails for debug information that is not well founded: a pointer entry whose type is itself
overflows every stack. -/
theorem C59_cyclic_pointer_fails (m : Bool) (t0 : TypeDef) (hn : typedef e = some (.pointer m t0))
    (ht : Typed db e e) : resolveType typedef db depth e = .panic := by
  have h1 : refAttr .type db e = .ok e := (typed_iff db e e).2 ht
  have hs : ∀ n, shallow typedef db n e = .panic := by
    intro n
    induction n with
    | zero => rfl
    | succ n ih => simp [shallow, builtin, hn, primitive, entryShallow, h1, ih]
  simp [resolveType, builtin, hn, primitive, entryShallow, h1, hs]

/-- C59: a type that is not one of the known ones is not opened when it occurs inside another: recursive
structures resolve in one step. -/
theorem C59_user_types_stop (ho : Ordinary typedef e) (name : Str) (hn : Named db e name) :
    shallow typedef db (depth + 1) e = .ok (.mk (some e) (.alias name)) := by
  have hb : builtin (shallow typedef db depth) typedef db e = .ok none := by
    simp only [builtin]
    simp only [Ordinary] at ho
    split
    · rfl
    · rename_i l hl
      rw [hl] at ho
      cases l <;> first | exact ho.elim | rfl
  simp [shallow, hb, (dieName_ok db e name).2 hn]

end

/-! ### Concrete debug files -/

/-- A debug file given as a table: offset, tag, attributes, children. -/
abbrev Table := List (Nat × Tag × List (At × Val) × List Nat)

/-- The rows of the table as entries. -/
def dbOf (l : Table) : Db where
  entry e := (l.find? (·.1 == e)).map fun r => { off := e, tag := r.2.1, attrs := r.2.2.1 }
  children e := match l.find? (·.1 == e) with
    | some r => .ok r.2.2.2
    | none => .err

/-- The names of the children. -/
def namesOf (db : Db) (cs : List Nat) : List Str :=
  cs.filterMap fun c => match dieName db c with | .ok n => some n | _ => none

/-- The names of the children of the entry at `x`. -/
def childNames (l : Table) (x : Nat) : List Str :=
  namesOf (dbOf l) ((l.find? (·.1 == x)).elim [] (·.2.2.2))

/-- Is the entry a field or a type parameter. -/
def isPartB (db : Db) (c : Nat) : Bool :=
  decide (tag db c = some .templateTypeParameter) || (match dataOffset db c with | .ok _ => true | _ => false)

/-- Checks the names of a table. -/
def wfTable (l : Table) : Bool :=
  l.all fun r => decide (r.2.2.2.Pairwise fun b c =>
      isPartB (dbOf l) c = true → dieName (dbOf l) b = dieName (dbOf l) c → dieName (dbOf l) c = .err) &&
    (decide (r.2.1 ≠ .variantPart) || decide (r.2.2.2.Pairwise fun b v =>
      ∀ n ∈ childNames l b, n ∉ childNames l v))

theorem children_dbOf (l : Table) (e : Nat) (cs : List Nat) (h : (dbOf l).children e = .ok cs) :
    ∃ r, l.find? (·.1 == e) = some r ∧ r ∈ l ∧ r.2.2.2 = cs := by
  simp only [dbOf] at h
  split at h
  · rename_i r hr
    cases h
    exact ⟨r, hr, List.mem_of_find?_eq_some hr, rfl⟩
  · cases h

theorem mem_namesOf (db : Db) (cs : List Nat) (c : Nat) (n : Str) (hc : c ∈ cs) (hn : Named db c n) :
    n ∈ namesOf db cs := by
  simp only [namesOf, List.mem_filterMap]
  exact ⟨c, hc, by simp [(dieName_ok db c n).2 hn]⟩

theorem isPartB_of (db : Db) (c : Nat) (h : IsPart db c) : isPartB db c = true := by
  simp only [isPartB, Bool.or_eq_true, decide_eq_true_eq]
  rcases h with ⟨o, h⟩ | h
  · exact .inr (by rw [(located_iff db c o).2 h])
  · exact .inl ((tagged_iff db c _).2 h)

theorem distinct_of (l : Table) (h : wfTable l = true) (e : Nat) : Distinct (dbOf l) e := by
  intro before c after n hc hn hp b hb hbn
  obtain ⟨r, hr, hm, hcs⟩ := children_dbOf l e _ hc
  have := List.all_eq_true.1 h r hm
  simp only [Bool.and_eq_true, decide_eq_true_eq] at this
  have := this.1
  rw [hcs, List.pairwise_append] at this
  have := this.2.2 b hb c (by simp) (isPartB_of _ _ hp)
  rw [(dieName_ok _ _ _).2 hn, (dieName_ok _ _ _).2 hbn] at this
  cases this rfl

theorem wellFormed_of (l : Table) (h : wfTable l = true) : WellFormed (dbOf l) ∧ Decodes (dbOf l) := by
  refine ⟨⟨fun _ e _ => distinct_of l h e, ?_⟩, ?_⟩
  · intro part ht before v after n m hc hv b hb m' hb'
    obtain ⟨r, hr, hm, hcs⟩ := children_dbOf l part _ hc
    have := List.all_eq_true.1 h r hm
    simp only [Bool.and_eq_true, Bool.or_eq_true, decide_eq_true_eq] at this
    have hp := this.2
    have htag : r.2.1 = .variantPart := by
      obtain ⟨d, hd, ht⟩ := ht
      simp only [dbOf, hr, Option.map_some, Option.some.injEq] at hd
      subst hd; exact ht
    rcases hp with hp | hp
    · exact hp htag
    · rw [hcs, List.pairwise_append] at hp
      have hpair := hp.2.2 b hb v (by simp)
      have names : ∀ x k, FirstChild (dbOf l) x (fun c => Named (dbOf l) c n) k →
          n ∈ childNames l x := by
        rintro x k ⟨be, af, hx, hk, _⟩
        obtain ⟨q, hq, _, hqs⟩ := children_dbOf l x _ hx
        simp only [childNames, hq, Option.elim_some, hqs]
        exact mem_namesOf _ _ k n (by simp) hk
      exact hpair n (names b m' hb'.2) (names v m hv.2)
  · intro e he
    simp only [dbOf] at he
    split at he <;> cases he

/-- `Vec<u8>` (1) with its method `len`, `HashMap<u8, Vec<u8>>` (40), `Option<u8>` (70) with its discriminant at 0,
`struct Node { next: Box<Node>, bytes: Vec<u8> }` (90), a field-less enumeration (100), and an enumeration
whose discriminant is at 8 (120). -/
def demo : Table :=
  let nm s := (At.name, Val.str s)
  let at_ n := (At.dataMemberLocation, Val.data n)
  let ty n := (At.type, Val.ref n)
  let size n := (At.byteSize, Val.data n)
  [(1, .structureType, [nm (chars! "Vec<u8>"), size 24], [2, 3, 4, 5]),
   (2, .templateTypeParameter, [nm (chars! "T"), ty 30], []),
   (3, .member, [nm (chars! "buf"), at_ 0, ty 10], []),
   (4, .member, [nm (chars! "len"), at_ 16, ty 31], []),
   (5, .subprogram, [nm (chars! "len"), ty 31], []),
   (10, .structureType, [nm (chars! "RawVec<u8>")], [11]),
   (11, .member, [nm (chars! "inner"), at_ 0, ty 12], []),
   (12, .structureType, [nm (chars! "RawVecInner")], [13, 14]),
   (13, .member, [nm (chars! "ptr"), at_ 8, ty 32], []),
   (14, .member, [nm (chars! "cap"), at_ 0, ty 15], []),
   (15, .structureType, [nm (chars! "UsizeNoHighBit")], [16]),
   (16, .member, [nm (chars! "__0"), at_ 0, ty 31], []),
   (30, .baseType, [nm (chars! "u8"), size 1], []),
   (31, .baseType, [nm (chars! "usize"), size 8], []),
   (32, .structureType, [nm (chars! "Unique<u8>")], []),
   (40, .structureType, [nm (chars! "HashMap<u8, Vec<u8>>")], [41, 42, 43]),
   (41, .templateTypeParameter, [nm (chars! "K"), ty 30], []),
   (42, .templateTypeParameter, [nm (chars! "V"), ty 1], []),
   (43, .member, [nm (chars! "base"), at_ 0, ty 44], []),
   (44, .structureType, [nm (chars! "hashbrown::HashMap")], [45]),
   (45, .member, [nm (chars! "table"), at_ 16, ty 46], []),
   (46, .structureType, [nm (chars! "RawTable")], [47, 48]),
   (47, .templateTypeParameter, [nm (chars! "T"), ty 50], []),
   (48, .member, [nm (chars! "table"), at_ 0, ty 55], []),
   (50, .structureType, [nm (chars! "(u8, Vec<u8>)"), size 32], [51, 52]),
   (51, .member, [nm (chars! "__0"), at_ 24, ty 30], []),
   (52, .member, [nm (chars! "__1"), at_ 0, ty 1], []),
   (55, .structureType, [nm (chars! "RawTableInner")], [56, 57, 58]),
   (56, .member, [nm (chars! "bucket_mask"), at_ 8, ty 31], []),
   (57, .member, [nm (chars! "ctrl"), at_ 0, ty 32], []),
   (58, .member, [nm (chars! "items"), at_ 24, ty 31], []),
   (70, .structureType, [nm (chars! "Option<u8>"), size 2], [71]),
   (71, .variantPart, [(.discr, .ref 72)], [72, 73, 75]),
   (72, .member, [at_ 0, ty 30], []),
   (73, .variant, [(.discrValue, .data 0)], [74]),
   (74, .member, [nm (chars! "None"), at_ 0, ty 77], []),
   (75, .variant, [(.discrValue, .data 1)], [76]),
   (76, .member, [nm (chars! "Some"), at_ 0, ty 78], []),
   (77, .structureType, [nm (chars! "None")], []),
   (78, .structureType, [nm (chars! "Some")], [79]),
   (79, .member, [nm (chars! "__0"), at_ 1, ty 30], []),
   (90, .structureType, [nm (chars! "Node"), size 32, (.alignment, .data 8)], [91, 92]),
   (91, .member, [nm (chars! "next"), at_ 24, ty 93], []),
   (92, .member, [nm (chars! "bytes"), at_ 0, ty 1], []),
   (93, .pointerType, [nm (chars! "Box<Node>"), ty 90], []),
   (100, .enumerationType, [nm (chars! "Color"), size 1, ty 30], [101, 102]),
   (101, .enumerator, [nm (chars! "Red"), (.constValue, .data 3)], []),
   (102, .enumerator, [nm (chars! "Blue"), (.constValue, .sdata (-1))], []),
   (120, .structureType, [nm (chars! "Late"), size 16], [121]),
   (121, .variantPart, [(.discr, .ref 122)], [122, 123]),
   (122, .member, [at_ 8, ty 30], []),
   (123, .variant, [(.discrValue, .data 7)], [124]),
   (124, .member, [nm (chars! "Only"), at_ 0, ty 78], [])]

/-- What the names of the entries of `demo` parse to (offsets are not known from a name). -/
def demoTypedef : Nat → Option Layout
  | 1 => some (.vec 0 0 0 (.mk none (.uint 1)))
  | 30 => some (.uint 1)
  | 31 => some (.uint 8)
  | 40 => some (.map (.hashMap 0 0 0 0 0 0) (.mk none (.uint 1)) (.mk none (.uint 1)))
  | 70 => some (.option (chars! "Option") { ty := .implicit, offset := 0 } 0 (.mk none (.uint 1)) 0)
  | 93 => some (.smartPtr .box (.mk none (.alias (chars! "Node"))) 0 0)
  | _ => none

theorem demo_wellFormed : WellFormed (dbOf demo) ∧ Decodes (dbOf demo) ∧ ∀ e, Distinct (dbOf demo) e := by
  have h : wfTable demo = true := by decide
  exact ⟨(wellFormed_of demo h).1, (wellFormed_of demo h).2, distinct_of demo h⟩

/-- The types of `demo` resolve as expected. -/
theorem demo_resolves :
    resolveType demoTypedef (dbOf demo) 3 1 = .ok (.mk (some 1) (.vec 16 8 0 (.mk (some 30) (.uint 1)))) ∧
    resolveType demoTypedef (dbOf demo) 3 40 = .ok (.mk (some 40) (.map (.hashMap 24 16 40 32 24 0)
      (.mk (some 30) (.uint 1)) (.mk (some 1) (.vec 16 8 0 (.mk (some 30) (.uint 1)))))) ∧
    resolveType demoTypedef (dbOf demo) 3 70 = .ok (.mk (some 70) (.option (chars! "Option<u8>")
      { ty := .uint 1, offset := 0 } 1 (.mk (some 30) (.uint 1)) 2)) ∧
    resolveType demoTypedef (dbOf demo) 3 90 = .ok (.mk (some 90) (.struct (chars! "Node") 32 8
      (.cons (chars! "next") 24 (.mk (some 93) (.smartPtr .box (.mk (some 90) (.alias (chars! "Node"))) 0 0))
        (.cons (chars! "bytes") 0 (.mk (some 1) (.vec 16 8 0 (.mk (some 30) (.uint 1)))) .nil)))) ∧
    resolveType demoTypedef (dbOf demo) 3 100 = .ok (.mk (some 100) (.cenum (chars! "Color") (.uint 1)
      [(chars! "Red", 3), (chars! "Blue", -1)] 1)) ∧
    resolveType demoTypedef (dbOf demo) 3 120 = .ok (.mk (some 120) (.enum (chars! "Late")
      { ty := .uint 1, offset := 0 }
      (.cons (chars! "Only") (some 7) (.mk (some 78) (.alias (chars! "Some"))) .nil) 16)) := by
  refine ⟨rfl, rfl, rfl, rfl, rfl, rfl⟩

/-- The hypotheses of `C60_discriminant_offset_fails` are met by the enumeration at 120: its
discriminant is at 8. -/
example (d : Disc) (h : enumDiscriminant (shallow demoTypedef (dbOf demo) 3) (dbOf demo) 121 = .ok d) :
    d.offset ≠ 8 :=
  C60_discriminant_offset_fails (dbOf demo) _ 121 122 8 d ⟨_, rfl, rfl⟩ ⟨_, rfl, rfl⟩ (by decide)
    (by rintro x ⟨y, h1, h2⟩; cases h1; cases h2) h

/-- A function pointer `fn(u8) -> u8` as compilers describe it: 1 is the pointer, 2 the subroutine with
its parameter 3. -/
def demoFn : Table :=
  [(1, .pointerType, [(.name, .str (chars! "fn(u8) -> u8")), (.type, .ref 2)], []),
   (2, .subroutineType, [(.type, .ref 4)], [3]),
   (3, .formalParameter, [(.type, .ref 4)], []),
   (4, .baseType, [(.name, .str (chars! "u8"))], [])]

/-- A subroutine entry with two parameters and no result (1), and an entry with the name of a function type whose own children are its
parameters (5), which returns `()`. -/
def demoSub : Table :=
  [(1, .subroutineType, [], [2, 3]),
   (2, .formalParameter, [(.type, .ref 4)], []),
   (3, .formalParameter, [(.type, .ref 6)], []),
   (4, .baseType, [(.name, .str (chars! "u8"))], []),
   (5, .subroutineType, [(.name, .str (chars! "fn(bool)")), (.type, .ref 7)], [9, 8]),
   (6, .baseType, [(.name, .str (chars! "bool"))], []),
   (7, .baseType, [(.name, .str (chars! "()"))], []),
   (8, .formalParameter, [(.type, .ref 6)], []),
   (9, .templateTypeParameter, [(.type, .ref 4)], [])]

/-- What the names of `demoSub` parse to. -/
def demoSubTypedef : Nat → Option Layout
  | 4 => some (.uint 1)
  | 5 => some (.function .none .nil)
  | 6 => some .bool
  | 7 => some .unit
  | _ => none

/-- The hypotheses of `C58_subroutine` and `C58_function` are met. -/
example : resolveType demoSubTypedef (dbOf demoSub) 2 1 = .ok (.mk (some 1) (.function .none
      (.cons [] 0 (.mk (some 4) (.uint 1)) (.cons [] 0 (.mk (some 6) .bool) .nil)))) ∧
    resolveType demoSubTypedef (dbOf demoSub) 2 5 = .ok (.mk (some 5) (.function .none
      (.cons [] 0 (.mk (some 6) .bool) .nil))) ∧ Ordinary demoSubTypedef 1 ∧ Tagged (dbOf demoSub) 1 .subroutineType := by
  exact ⟨rfl, rfl, trivial, _, rfl, rfl⟩

/-- Its name. -/
def demoFnTypedef : Nat → Option Layout
  | 1 => some (.function (.some (.mk none (.uint 1))) (.cons [] 0 (.mk none (.uint 1)) .nil))
  | 4 => some (.uint 1)
  | _ => none

example :
    resolveType demoFnTypedef (dbOf demoFn) 3 1 =
      .ok (.mk (some 1) (.function (.some (.mk (some 2) (.alias (chars! "unknown")))) .nil)) ∧
    ∀ td, resolveType demoFnTypedef (dbOf demoFn) 3 2 ≠ .ok td :=
  ⟨C58_function_pointer_fails _ _ _ _ _ _ 2 rfl ⟨_, rfl, rfl⟩ rfl rfl rfl (by decide),
   C58_subroutine_return_fails _ _ _ _ trivial ⟨_, rfl, rfl⟩ 4 ⟨_, rfl, rfl⟩
    (by rintro t ⟨y, h1, h2⟩; cases h1; cases h2)⟩

end Rudy.TypeRes
