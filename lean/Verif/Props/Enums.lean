import Verif.Props.Memory
/-
Property theorems C25 (enums) and C47 (pointers and smart pointers).
-/
set_option linter.unusedSimpArgs false
namespace Rudy.Data
open Rudy Rudy.Layout

/-! ### Specification -/

/-- Memory holds the discriminant `d` of the given type at `a`. -/
def Mem.HoldsDisc (m : Mem) (a : Nat) (ty : DiscTy) (d : Int) : Prop :=
  match ty with
  | .int s => s ∈ [1, 2, 4, 8] ∧ m.HoldsInt a s d
  | .uint s => s ∈ [1, 2, 4, 8] ∧ ∃ n : Nat, d = n ∧ m.HoldsNat a s n
  | .implicit => False

/-- `v` is the variant a stored discriminant `d` stands for: the first one that declares `d`, or, if
none does, the first one that declares no discriminant (the dataful variant of a niche-encoded enum). -/
def Denotes (vs : List (Str × Option Int × TypeDef)) (d : Int) (v : Str × Option Int × TypeDef) : Prop :=
  (∃ pre post, vs = pre ++ v :: post ∧ v.2.1 = some d ∧ ∀ w ∈ pre, w.2.1 ≠ some d) ∨
  ((∀ w ∈ vs, w.2.1 ≠ some d) ∧ ∃ pre post, vs = pre ++ v :: post ∧ v.2.1 = none ∧ ∀ w ∈ pre, w.2.1 ≠ none)

theorem readDisc_ok (T : Target) (m : Mem) (hT : T.Reads m) (a : Nat) (ty : DiscTy) (d : Int) :
    readDisc T a ty = .ok d ↔ m.HoldsDisc a ty d := by
  cases ty with
  | int s =>
    simp only [readDisc, Mem.HoldsDisc, Mem.holdsInt_iff]
    rcases readE_cases hT a s with ⟨bs, hb, hl, hr⟩ | ⟨_, hb, hr⟩
    · rw [hr, hb, Res.bind_ok]
      by_cases hs : s = 1 ∨ s = 2 ∨ s = 4 ∨ s = 8
      · rw [if_pos hs, if_pos hl]; simp [hs]
      · rw [if_neg hs]; simp at hs; simp [hs]
    · rw [hr, hb]; simp
  | uint s =>
    simp only [readDisc, Mem.HoldsDisc, Mem.holdsNat_iff]
    rcases readE_cases hT a s with ⟨bs, hb, hl, hr⟩ | ⟨_, hb, hr⟩
    · rw [hr, hb, Res.bind_ok]
      by_cases hs : s = 1 ∨ s = 2 ∨ s = 4 ∨ s = 8
      · rw [if_pos hs, if_pos hl]; simp [hs]; exact eq_comm
      · rw [if_neg hs]; simp at hs; simp [hs]
    · rw [hr, hb]; simp
  | implicit => simp [readDisc, Mem.HoldsDisc]

theorem find_first {α : Type} (p : α → Bool) (l : List α) (x : α) :
    l.find? p = some x ↔ ∃ pre post, l = pre ++ x :: post ∧ p x = true ∧ ∀ y ∈ pre, p y = false := by
  rw [List.find?_eq_some_iff_append]
  constructor
  · rintro ⟨h, as, bs, rfl, h2⟩
    exact ⟨as, bs, rfl, h, fun y hy => by simpa using h2 y hy⟩
  · rintro ⟨as, bs, rfl, h, h2⟩
    exact ⟨h, as, bs, rfl, fun y hy => by simpa using h2 y hy⟩

theorem pickVariant_explicit (d : Int) (vs : List (Str × Option Int × TypeDef)) :
    (∀ v, Denotes vs d v → pickVariant d true vs = some (v.1, v.2.2)) ∧
    ((∀ w ∈ vs, w.2.1 ≠ some d ∧ w.2.1 ≠ none) → pickVariant d true vs = none) := by
  simp only [pickVariant, if_true]
  constructor
  · rintro v (⟨pre, post, h1, h2, h3⟩ | ⟨h0, pre, post, h1, h2, h3⟩)
    · rw [(find_first _ vs v).2 ⟨pre, post, h1, by simp [h2], fun w hw => by simpa using h3 w hw⟩]
    · have hn : vs.find? (fun v => v.2.1 == some d) = none := by
        rw [List.find?_eq_none]; intro w hw; simpa using h0 w hw
      have hs : vs.find? (fun v => v.2.1.isNone) = some v :=
        (find_first _ vs v).2 ⟨pre, post, h1, by simp [h2], fun w hw => by simpa [Option.isSome_iff_ne_none] using h3 w hw⟩
      rw [hn, hs]; rfl
  · intro h
    have hn : vs.find? (fun v => v.2.1 == some d) = none := by
      rw [List.find?_eq_none]; intro w hw; simpa using (h w hw).1
    have hs : vs.find? (fun v => v.2.1.isNone) = none := by
      rw [List.find?_eq_none]; intro w hw; simpa using (h w hw).2
    rw [hn, hs]; rfl

theorem HoldsDisc_explicit {m : Mem} {a : Nat} {ty : DiscTy} {d : Int} (h : m.HoldsDisc a ty d) :
    ty ≠ .implicit := by
  rintro rfl; exact h

theorem readEnum_explicit (T : Target) (m : Mem) (hT : T.Reads m) (rec : Nat → TypeDef → Res Value) (a : Nat)
    (name : Str) (disc : Disc) (vs : List (Str × Option Int × TypeDef)) (d : Int)
    (ha : a + disc.offset < u64Max1) (hd : m.HoldsDisc (a + disc.offset) disc.ty d) :
    readEnum T rec a name disc vs =
      (Res.ofOption (pickVariant d true vs)).bind fun v =>
        (rec a v.2).bind fun inner => .ok (reformatVariant name v.1 inner) := by
  have hne := HoldsDisc_explicit hd
  have hr := (readDisc_ok T m hT _ _ _).2 hd
  unfold readEnum
  rw [addU_ok ha, Res.bind_ok]
  have : (decide (disc.ty ≠ DiscTy.implicit)) = true := by simpa using hne
  rw [this]
  cases hty : disc.ty with
  | implicit => exact absurd hty hne
  | int s => simp only [hty] at hr; simp only [hr, Res.bind_ok]
  | uint s => simp only [hty] at hr; simp only [hr, Res.bind_ok]

/-! ### C25 -/

section
variable (T : Target) (m : Mem) (hT : T.Reads m) (f a : Nat) (loc : Option Nat) (name : Str) (disc : Disc)
  (variants : Variants) (size : Nat) (d : Int)
  (ha : a + disc.offset < u64Max1) (hd : m.HoldsDisc (a + disc.offset) disc.ty d)
include hT ha hd

/-- C25: an enum whose stored discriminant stands for a variant without fields is shown as that
variant's name. -/
theorem C25_unit_variant (v : Str × Option Int × TypeDef) (hv : Denotes variants.toList d v) (sn : Str)
    (hin : readMem T f a v.2.2 = .ok (.struct sn [])) :
    readMem T (f + 1) a (.mk loc (.enum name disc variants size)) =
      .ok (.scalar (name ++ chars! "::" ++ v.1) v.1) := by
  simp only [readMem, readLayout]
  rw [readEnum_explicit T m hT _ a name disc _ d ha hd, (pickVariant_explicit d _).1 v hv]
  simp only [Res.ofOption, Res.bind_ok, hin]; rfl

/-- C25: with a struct-like payload, the variant is shown as a struct with the payload's fields. -/
theorem C25_struct_variant (v : Str × Option Int × TypeDef) (hv : Denotes variants.toList d v) (sn : Str)
    (es : List (Str × Value)) (hin : readMem T f a v.2.2 = .ok (.struct sn es))
    (hf : ∃ e ∈ es, ∀ rest, e.1 ≠ '_' :: '_' :: rest) :
    readMem T (f + 1) a (.mk loc (.enum name disc variants size)) =
      .ok (.struct (name ++ chars! "::" ++ v.1) es) := by
  simp only [readMem, readLayout]
  rw [readEnum_explicit T m hT _ a name disc _ d ha hd, (pickVariant_explicit d _).1 v hv]
  simp only [Res.ofOption, Res.bind_ok, hin]
  obtain ⟨e, he, hne⟩ := hf
  have h1 : es.isEmpty = false := by cases es <;> simp_all
  have h2 : es.all (fun f => (chars! "__").isPrefixOf f.1) = false := by
    rw [List.all_eq_false]
    refine ⟨e, he, ?_⟩
    intro hp
    obtain ⟨r, hr⟩ := List.isPrefixOf_iff_prefix.1 hp
    exact hne r hr.symm
  simp only [reformatVariant, h1, h2]
  rfl

/-- C25: with a tuple-like payload (fields `__0`, `__1`, …), the variant is shown as a tuple of the
payload's values in the order of the field names. -/
theorem C25_tuple_variant (v : Str × Option Int × TypeDef) (hv : Denotes variants.toList d v) (sn : Str)
    (es : List (Str × Value)) (hin : readMem T f a v.2.2 = .ok (.struct sn es)) (h0 : es ≠ [])
    (hf : ∀ e ∈ es, ∃ rest, e.1 = '_' :: '_' :: rest) :
    readMem T (f + 1) a (.mk loc (.enum name disc variants size)) =
      .ok (.tuple (name ++ chars! "::" ++ v.1) (es.map (·.2))) := by
  simp only [readMem, readLayout]
  rw [readEnum_explicit T m hT _ a name disc _ d ha hd, (pickVariant_explicit d _).1 v hv]
  simp only [Res.ofOption, Res.bind_ok, hin]
  have h1 : es.isEmpty = false := by cases es <;> simp_all
  have h2 : es.all (fun f => (chars! "__").isPrefixOf f.1) = true := by
    rw [List.all_eq_true]
    intro e he
    obtain ⟨r, hr⟩ := hf e he
    rw [hr]; simp [List.isPrefixOf]
  simp only [reformatVariant, h1, h2]
  rfl

/-- C25: a discriminant that stands for no variant is an error. -/
theorem C25_no_variant (h : ∀ w ∈ variants.toList, w.2.1 ≠ some d ∧ w.2.1 ≠ none) :
    readMem T (f + 1) a (.mk loc (.enum name disc variants size)) = .err := by
  simp only [readMem, readLayout]
  rw [readEnum_explicit T m hT _ a name disc _ d ha hd, (pickVariant_explicit d _).2 h]
  rfl

end

theorem findIndexed_get (d : Int) : ∀ (vs : List (Str × Option Int × TypeDef)) (i : Nat),
    (∀ (k : Nat) v, vs[k]? = some v → d = (i + k : Nat) → findIndexed d i vs = some (v.1, v.2.2)) ∧
    ((∀ k : Nat, k < vs.length → d ≠ (i + k : Nat)) → findIndexed d i vs = none) := by
  intro vs
  induction vs with
  | nil => intro i; exact ⟨fun k v h => by simp at h, fun _ => rfl⟩
  | cons w r ih =>
    intro i
    obtain ⟨n, x, t⟩ := w
    refine ⟨?_, ?_⟩
    · intro k v hk hd
      cases k with
      | zero =>
        simp only [List.getElem?_cons_zero, Option.some.injEq] at hk
        subst hk
        simp only [findIndexed]
        rw [if_pos (by simpa using hd.symm)]
      | succ k =>
        simp only [List.getElem?_cons_succ] at hk
        simp only [findIndexed]
        rw [if_neg (by omega)]
        exact (ih (i + 1)).1 k v hk (by omega)
    · intro h
      have h0 := h 0 (by simp)
      simp only [findIndexed]
      rw [if_neg (by omega)]
      refine (ih (i + 1)).2 fun k hk => ?_
      have := h (k + 1) (by simpa using hk)
      omega

theorem readEnum_implicit (T : Target) (m : Mem) (hT : T.Reads m) (rec : Nat → TypeDef → Res Value) (a : Nat)
    (name : Str) (off : Nat) (vs : List (Str × Option Int × TypeDef)) (d : Int)
    (ha : a + off + off < u64Max1) (hd : m.HoldsInt (a + off + off) 4 d) :
    readEnum T rec a name ⟨.implicit, off⟩ vs =
      (Res.ofOption (findIndexed d 0 vs)).bind fun v =>
        (rec a v.2).bind fun inner => .ok (reformatVariant name v.1 inner) := by
  obtain ⟨bs, hb, he⟩ := (m.holdsInt_iff _ _ _).1 hd
  have hr : T.readE (a + off + off) 4 = .ok bs := by
    rcases readE_cases hT (a + off + off) 4 with ⟨bs', hb', -, hr⟩ | ⟨h, -, -⟩
    · rw [hb] at hb'; cases hb'; exact hr
    · rw [m.slice_none _ _ h] at hb; cases hb
  unfold readEnum
  rw [addU_ok (show a + off < u64Max1 by omega), Res.bind_ok]
  simp only [addU_ok ha, Res.bind_ok, readExact_eq hT, hr, he, pickVariant]
  rfl

/-! ### C25: enumerations that store no discriminant -/

section
variable (T : Target) (m : Mem) (hT : T.Reads m) (f a : Nat) (loc : Option Nat) (name : Str) (off : Nat)
  (variants : Variants) (size : Nat) (d : Int)
  (ha : a + off + off < u64Max1) (hd : m.HoldsInt (a + off + off) 4 d)
include hT ha hd

/-- C25: for an enumeration without a discriminant, four bytes of its value are taken for the number of
the variant, counting from 0. A unit variant is shown as its name, … -/
theorem C25_implicit_unit_variant (k : Nat) (v : Str × Option Int × TypeDef) (hv : variants.toList[k]? = some v)
    (hk : d = k) (sn : Str) (hin : readMem T f a v.2.2 = .ok (.struct sn [])) :
    readMem T (f + 1) a (.mk loc (.enum name ⟨.implicit, off⟩ variants size)) =
      .ok (.scalar (name ++ chars! "::" ++ v.1) v.1) := by
  simp only [readMem, readLayout]
  rw [readEnum_implicit T m hT _ a name off _ d ha hd, (findIndexed_get d _ 0).1 k v hv (by simpa using hk)]
  simp only [Res.ofOption, Res.bind_ok, hin]; rfl

/-- … one with named fields as a struct, and one with fields `__0`, `__1`, … as a tuple. -/
theorem C25_implicit_variant (k : Nat) (v : Str × Option Int × TypeDef) (hv : variants.toList[k]? = some v)
    (hk : d = k) (sn : Str) (e : Str × Value) (es : List (Str × Value))
    (hin : readMem T f a v.2.2 = .ok (.struct sn (e :: es))) :
    ((∃ x ∈ e :: es, ∀ rest, x.1 ≠ '_' :: '_' :: rest) →
      readMem T (f + 1) a (.mk loc (.enum name ⟨.implicit, off⟩ variants size)) =
        .ok (.struct (name ++ chars! "::" ++ v.1) (e :: es))) ∧
    ((∀ x ∈ e :: es, ∃ rest, x.1 = '_' :: '_' :: rest) →
      readMem T (f + 1) a (.mk loc (.enum name ⟨.implicit, off⟩ variants size)) =
        .ok (.tuple (name ++ chars! "::" ++ v.1) (e.2 :: es.map (·.2)))) := by
  simp only [readMem, readLayout]
  rw [readEnum_implicit T m hT _ a name off _ d ha hd, (findIndexed_get d _ 0).1 k v hv (by simpa using hk)]
  simp only [Res.ofOption, Res.bind_ok, hin]
  refine ⟨fun ⟨x, hx, hne⟩ => ?_, fun hf => ?_⟩
  · have h2 : (e :: es).all (fun f => (chars! "__").isPrefixOf f.1) = false := by
      rw [List.all_eq_false]
      refine ⟨x, hx, fun hp => ?_⟩
      obtain ⟨r, hr⟩ := List.isPrefixOf_iff_prefix.1 hp
      exact hne r hr.symm
    simp only [reformatVariant, h2]; rfl
  · have h2 : (e :: es).all (fun f => (chars! "__").isPrefixOf f.1) = true := by
      rw [List.all_eq_true]
      intro x hx
      obtain ⟨r, hr⟩ := hf x hx
      rw [hr]; simp [List.isPrefixOf]
    simp only [reformatVariant, h2]; rfl

/-- C25: a number no variant has is an error. -/
theorem C25_implicit_no_variant (h : ∀ k : Nat, k < variants.toList.length → d ≠ k) :
    readMem T (f + 1) a (.mk loc (.enum name ⟨.implicit, off⟩ variants size)) = .err := by
  simp only [readMem, readLayout]
  rw [readEnum_implicit T m hT _ a name off _ d ha hd, (findIndexed_get d _ 0).2 (by simpa using h)]
  rfl

/-- C25 is false of the code for enumerations of one variant, which store no discriminant: if the first
four bytes of the payload are not all 0, the value cannot be shown. -/
theorem C25_single_variant_fails (v : Str × Option Int × TypeDef) (h1 : variants.toList = [v]) (h : d ≠ 0) :
    readMem T (f + 1) a (.mk loc (.enum name ⟨.implicit, off⟩ variants size)) = .err := by
  refine C25_implicit_no_variant T m hT f a loc name off variants size d ha hd ?_
  intro k hk
  rw [h1] at hk
  have : k = 0 := by simpa using hk
  subst this; simpa using h

end

/-- The hypotheses are met: `enum Only { Id(u32) }` holding `Id(7)` is an error, and holding `Id(0)` is shown. -/
example : readMem (demoTarget (demoMem 0 [7, 0, 0, 0])) 2 0 (.mk none (.enum (chars! "Only") ⟨.implicit, 0⟩
      (.cons (chars! "Id") none (.mk none (.struct (chars! "Id") 4 4
        (.cons (chars! "__0") 0 (.mk none (.uint 4)) .nil))) .nil) 4)) = .err ∧
    readMem (demoTarget (demoMem 0 [0, 0, 0, 0])) 2 0 (.mk none (.enum (chars! "Only") ⟨.implicit, 0⟩
      (.cons (chars! "Id") none (.mk none (.struct (chars! "Id") 4 4
        (.cons (chars! "__0") 0 (.mk none (.uint 4)) .nil))) .nil) 4)) =
      .ok (.tuple (chars! "Only::Id") [.pointer 0 (.mk none (.uint 4))]) := by
  refine ⟨?_, by rfl⟩
  exact C25_single_variant_fails _ _ (demoTarget_reads (demoMem 0 [7, 0, 0, 0])) 1 0 none _ 0 _ _ 7 (by decide)
    ((Mem.holdsInt_iff _ _ _ _).2 ⟨_, rfl, rfl⟩) _ rfl (by decide)

/-- C25: an enum whose discriminant bytes are not mapped, or have an unsupported width, is an error. -/
theorem C25_unreadable (T : Target) (m : Mem) (hT : T.Reads m) (f a : Nat) (loc : Option Nat) (name : Str)
    (disc : Disc) (variants : Variants) (size : Nat) (ha : a + disc.offset < u64Max1) (s : Nat)
    (hty : disc.ty = .int s ∨ disc.ty = .uint s) (h : s ∉ [1, 2, 4, 8] ∨ ¬ m.Mapped (a + disc.offset) s) :
    readMem T (f + 1) a (.mk loc (.enum name disc variants size)) = .err := by
  simp only [readMem, readLayout, readEnum]
  rw [addU_ok ha, Res.bind_ok]
  have : readDisc T (a + disc.offset) disc.ty = .err := by
    rcases readE_cases hT (a + disc.offset) s with ⟨bs, hb, hl, hr⟩ | ⟨_, _, hr⟩
    · rcases h with h | h
      · rcases hty with e | e <;> simp only [e, readDisc, hr, Res.bind_ok] <;> rw [if_neg (by simpa using h)]
      · rw [m.slice_none _ _ h] at hb; cases hb
    · rcases hty with e | e <;> simp only [e, readDisc, hr, Res.bind_err]
  rcases hty with e | e <;> simp only [e] at this ⊢ <;> rw [this] <;> rfl

/-- C25: tuple payloads of at most ten fields are shown in declaration order: the names `__0` … `__9`
are in ascending order. -/
theorem C25_tuple_order_partial (T : Target) (f a : Nat) (loc : Option Nat) (sn : Str) (size align : Nat)
    (fields : Members) (n : Nat) (hn : n ≤ 10)
    (hnames : fields.toList.map (·.1) = (List.range n).map fun i => '_' :: '_' :: natStr i)
    (ha : ∀ x ∈ fields.toList, a + x.2.1 < u64Max1) :
    readMem T (f + 1) a (.mk loc (.struct sn size align fields)) =
      .ok (.struct sn (fields.toList.map fun x => (x.1, .pointer (a + x.2.1) x.2.2))) := by
  have hasc : (fields.toList.map (·.1)).Pairwise (fun x y => compare x y = .lt) := by
    rw [hnames]
    have : ∀ n, n ≤ 10 →
        ((List.range n).map fun i => '_' :: '_' :: natStr i).Pairwise (fun x y => compare x y = .lt) := by
      decide
    exact this n hn
  have hnd : (fields.toList.map (·.1)).Nodup := by
    refine hasc.imp ?_
    intro x y h he
    subst he
    rw [Std.ReflCmp.compare_self (cmp := (compare : Str → Str → Ordering))] at h; cases h
  obtain ⟨es, h1, h2, h3⟩ := C23_struct_fields T f a loc sn size align fields hnd ha
  rw [h1, sorted_perm_eq es _ h2 h3 ?_]
  rw [List.pairwise_map] at hasc ⊢
  exact hasc

/-- Members from a list (used in examples). -/
def membersOf : List (Str × Nat × TypeDef) → Members
  | [] => .nil
  | x :: r => .cons x.1 x.2.1 x.2.2 (membersOf r)

/-- C25 is false of the code for tuple variants with more than ten fields: they are shown in the order of
the field names as strings, so field 10 appears before field 2. -/
theorem C25_tuple_order_fails :
    ∃ (T : Target) (m : Mem) (fields : Members), T.Reads m ∧
      fields.toList = (List.range 11).map (fun i => ('_' :: '_' :: natStr i, 8 * i, TypeDef.mk none (.uint 8))) ∧
      ∃ es, readMem T 2 0 (.mk none (.enum (chars! "E") ⟨.uint 1, 0⟩
        (.cons (chars! "V") (some 0) (.mk none (.struct (chars! "V") 88 8 fields)) .nil) 88)) =
          .ok (.tuple (chars! "E::V") es) ∧
        es[2]? = some (.pointer 80 (.mk none (.uint 8))) := by
  refine ⟨demoTarget (demoMem 0 [0]), _,
    membersOf ((List.range 11).map (fun i => ('_' :: '_' :: natStr i, 8 * i, TypeDef.mk none (.uint 8)))),
    demoTarget_reads _, rfl, ?_⟩
  exact ⟨_, rfl, by rfl⟩

/-- C25: a C-like enum is shown as the variant whose value is stored, together with that number … -/
theorem C25_c_enum (T : Target) (m : Mem) (hT : T.Reads m) (f a : Nat) (loc : Option Nat) (name : Str)
    (disc : DiscTy) (pre post : List (Str × Int)) (vn : Str) (size : Nat) (d : Int) (hd : m.HoldsDisc a disc d)
    (hpre : ∀ w ∈ pre, w.2 ≠ d) :
    readMem T (f + 1) a (.mk loc (.cenum name disc (pre ++ (vn, d) :: post) size)) =
      .ok (.scalar (name ++ chars! "::" ++ vn) (toString d).toList) := by
  simp only [readMem, readLayout, readCEnum]
  rw [(readDisc_ok T m hT _ _ _).2 hd, Res.bind_ok,
    (find_first (fun v : Str × Int => v.2 == d) (pre ++ (vn, d) :: post) (vn, d)).2
      ⟨pre, post, rfl, by simp, fun w hw => by simpa using hpre w hw⟩, ← intStr_toString]
  rfl

/-- … and is an error if no variant has the stored value. -/
theorem C25_c_enum_no_variant (T : Target) (m : Mem) (hT : T.Reads m) (f a : Nat) (loc : Option Nat) (name : Str)
    (disc : DiscTy) (vs : List (Str × Int)) (size : Nat) (d : Int) (hd : m.HoldsDisc a disc d)
    (h : ∀ w ∈ vs, w.2 ≠ d) :
    readMem T (f + 1) a (.mk loc (.cenum name disc vs size)) = .err := by
  simp only [readMem, readLayout, readCEnum]
  have : vs.find? (fun v => v.2 == d) = none := by
    rw [List.find?_eq_none]; intro w hw; simpa using h w hw
  rw [(readDisc_ok T m hT _ _ _).2 hd, Res.bind_ok, this]
  rfl

/-- The hypotheses are met: a niche-encoded enum with discriminant 7 at offset 4 stored as `u32`. -/
example : Mem.HoldsDisc (demoMem 0 [0, 0, 0, 0, 7, 0, 0, 0]) (0 + 4) (.uint 4) 7 ∧
    Denotes [(chars! "A", some 5, .mk none .unit), (chars! "B", none, .mk none .unit)] 7
      (chars! "B", none, .mk none .unit) :=
  ⟨⟨by decide, 7, rfl, (Mem.holdsNat_iff _ _ _ _).2 ⟨_, rfl, rfl⟩⟩,
    Or.inr ⟨by decide, [(chars! "A", some 5, .mk none .unit)], [], rfl, rfl, by decide⟩⟩

/-! ### C47: pointers and smart pointers -/

section
variable (T : Target) (m : Mem) (hT : T.Reads m) (f a : Nat) (loc : Option Nat) (t : TypeDef) (p : Nat) (v : Value)
include hT

/-- C47: a reference or raw pointer shows the value it points to, its type marked with `&` or `*`. -/
theorem C47_pointer (mt : Bool) (hp : m.HoldsNat a 8 p) (hv : readMem T f p t = .ok v) :
    readMem T (f + 1) a (.mk loc (.reference mt t)) = .ok (v.mapType fun ty => chars! "&" ++ ty) ∧
      readMem T (f + 1) a (.mk loc (.pointer mt t)) = .ok (v.mapType fun ty => chars! "*" ++ ty) := by
  simp only [readMem, readLayout, readAddress_eq hT, (readNat_ok hT _ _ _).2 hp, Res.bind_ok, hv]
  exact ⟨rfl, rfl⟩

/-- C47: a `Box` shows the value it points to. -/
theorem C47_box (innerOff dataOff : Nat) (hp : m.HoldsNat a 8 p) (hv : readMem T f p t = .ok v) :
    readMem T (f + 1) a (.mk loc (.smartPtr .box t innerOff dataOff)) =
      .ok (v.mapType fun ty => chars! "Box<" ++ ty ++ chars! ">") := by
  simp only [readMem, readLayout, readAddress_eq hT]
  rw [(readNat_ok hT _ _ _).2 hp, Res.bind_ok, hv]
  rfl

/-- C47: an `Rc` or `Arc` shows the value stored in its allocation, after the reference counts. -/
theorem C47_rc (k : SmartPtr) (hk : k = .rc ∨ k = .arc) (innerOff dataOff : Nat)
    (hp : m.HoldsNat (a + innerOff) 8 p) (hv : readMem T f (p + dataOff) t = .ok v)
    (h1 : a + innerOff < u64Max1) (h2 : p + dataOff < u64Max1) :
    readMem T (f + 1) a (.mk loc (.smartPtr k t innerOff dataOff)) =
      .ok (v.mapType fun ty => k.name ++ chars! "<" ++ ty ++ chars! ">") := by
  rcases hk with rfl | rfl <;>
  · simp only [readMem, readLayout, readAddress_eq hT]
    rw [addU_ok h1, Res.bind_ok, (readNat_ok hT _ _ _).2 hp, Res.bind_ok, addU_ok h2, Res.bind_ok, hv]
    rfl

omit hT in
/-- C47: a `Mutex` or `RefCell` shows the value stored inside it. -/
theorem C47_mutex (k : SmartPtr) (hk : k = .mutex ∨ k = .refCell) (innerOff dataOff : Nat)
    (hv : readMem T f (a + innerOff) t = .ok v) (h1 : a + innerOff < u64Max1) :
    readMem T (f + 1) a (.mk loc (.smartPtr k t innerOff dataOff)) =
      .ok (v.mapType fun ty => k.name ++ chars! "<" ++ ty ++ chars! ">") := by
  rcases hk with rfl | rfl <;>
  · simp only [readMem, readLayout]
    rw [addU_ok h1, Res.bind_ok, hv]
    rfl

omit hT in
/-- C47: a type known only by name (an alias) shows what the named type shows. -/
theorem C47_alias (n : Str) (d : Nat) (hd : T.resolve d = .ok t) :
    readMem T (f + 1) a (.mk (some d) (.alias n)) = readMem T f a t := by
  simp only [readMem, readLayout, Option.bind_some, hd]; simp only [Target.resolveAt, hd, Res.bind_ok]

end

/-- C47: a dangling pointer (nothing mapped where it points) to a number is an error, not a crash. -/
theorem C47_dangling (T : Target) (m : Mem) (hT : T.Reads m) (f a : Nat) (loc loc' : Option Nat) (mt : Bool) (s p : Nat)
    (hp : m.HoldsNat a 8 p) (hd : ¬ m.Mapped p s) :
    readMem T (f + 2) a (.mk loc (.reference mt (.mk loc' (.uint s)))) = .err := by
  rw [readMem]
  simp only [readLayout, readAddress_eq hT]
  rw [(readNat_ok hT _ _ _).2 hp, Res.bind_ok, (C22_unsupported T m hT f p s loc' (Or.inr hd)).1]
  rfl

/-- C47 is false of the code for the remaining smart pointers: displaying a `Cell`, `RwLock` or
`UnsafeCell` panics, whatever memory holds. -/
theorem C47_cell_fails (T : Target) (f a : Nat) (loc : Option Nat) (t : TypeDef) (i j : Nat) (k : SmartPtr)
    (hk : k = .cell ∨ k = .rwLock ∨ k = .unsafeCell) :
    readMem T (f + 1) a (.mk loc (.smartPtr k t i j)) = .panic := by
  rcases hk with rfl | rfl | rfl <;> rfl

/-- The hypotheses are met: a `Box<u8>` at 0 pointing to 8. -/
example : readMem (demoTarget (demoMem 0 (encNat 8 8 ++ [42]))) 2 0 (.mk none (.smartPtr .box (.mk none (.uint 1)) 0 0)) =
    .ok (.scalar (chars! "Box<u8>") (chars! "42")) := rfl

end Rudy.Data
