import Verif.Props.Enums
import Verif.Props.Maps
/-
Property theorems C43: corrupt memory.
-/
set_option linter.unusedSimpArgs false
namespace Rudy.Data
open Rudy Rudy.Layout

/-- Specification: types whose values are read without any assumption on what memory contains, at every
address that leaves room for `D` more bytes. Alias types must name a type of the class (or fail to
resolve). Maps, `Vec`, slices and `Rc`/`Arc` are not in the class (see the `_fails` theorems). -/
inductive Robust (T : Target) : Nat → TypeDef → Prop
  | bool (D loc) : Robust T D (.mk loc .bool)
  | char (D loc) : Robust T D (.mk loc .char)
  | int (D loc s) : Robust T D (.mk loc (.int s))
  | uint (D loc s) : Robust T D (.mk loc (.uint s))
  | float (D loc s) : Robust T D (.mk loc (.float s))
  | never (D loc) : Robust T D (.mk loc .never)
  | unit (D loc) : Robust T D (.mk loc .unit)
  | function (D loc r as) : Robust T D (.mk loc (.function r as))
  | cenum (D loc n d vs s) : Robust T D (.mk loc (.cenum n d vs s))
  | pointer (D loc mt t) : Robust T 0 t → Robust T D (.mk loc (.pointer mt t))
  | reference (D loc mt t) : Robust T 0 t → Robust T D (.mk loc (.reference mt t))
  | box (D loc t i d) : Robust T 0 t → Robust T D (.mk loc (.smartPtr .box t i d))
  | mutex (D loc t i d) : i ≤ D → Robust T (D - i) t → Robust T D (.mk loc (.smartPtr .mutex t i d))
  | refCell (D loc t i d) : i ≤ D → Robust T (D - i) t → Robust T D (.mk loc (.smartPtr .refCell t i d))
  | string (D loc l d c e) : l ≤ D → d ≤ D → Robust T D (.mk loc (.string l d c e))
  | strSlice (D loc d l) : l ≤ D → d ≤ D → Robust T D (.mk loc (.strSlice d l))
  | option (D loc n disc so t s) : disc.offset ≤ D → 0 < disc.size → so ≤ D → Robust T (D - so) t →
      Robust T D (.mk loc (.option n disc so t s))
  | struct (D loc n s al fields) : (∀ x ∈ fields.toList, x.2.1 ≤ D) → Robust T D (.mk loc (.struct n s al fields))
  | enum (D loc n disc variants s) : 2 * disc.offset ≤ D →
      (∀ v ∈ variants.toList, Robust T D v.2.2) → Robust T D (.mk loc (.enum n disc variants s))
  | array (D loc e et n esz) : Resolved T e et → et.size = .ok (some esz) → n * esz ≤ D → n * 48 < 2 ^ 63 →
      Robust T D (.mk loc (.array e n))
  | aliasUnknown (D d n) : T.resolve d = .err → Robust T D (.mk (some d) (.alias n))
  | alias (D d n t) : T.resolve d = .ok t → Robust T D t → Robust T D (.mk (some d) (.alias n))

theorem bind_np {α β : Type} {x : Res α} {g : α → Res β} (hx : x ≠ .panic)
    (hg : ∀ a, x = .ok a → g a ≠ .panic) : x.bind g ≠ .panic := by
  cases x with
  | ok a => exact hg a rfl
  | err => simp
  | panic => exact absurd rfl hx

theorem ofOption_np {α : Type} (o : Option α) : Res.ofOption o ≠ .panic := by
  cases o <;> simp [Res.ofOption]

theorem addU_np {a b : Nat} (h : a + b < u64Max1) : addU a b ≠ .panic := by rw [addU_ok h]; simp

theorem readDisc_np (T : Target) (m : Mem) (hT : T.Reads m) (a : Nat) (ty : DiscTy) : readDisc T a ty ≠ .panic := by
  cases ty with
  | int s =>
    simp only [readDisc]
    refine bind_np (readE_noPanic _ _) fun bs hbs => ?_
    have hl := m.slice_length _ _ _ ((readE_ok hT _ _ _).1 hbs)
    split
    · simp
    · simp
  | uint s =>
    simp only [readDisc]
    refine bind_np (readE_noPanic _ _) fun bs hbs => ?_
    have hl := m.slice_length _ _ _ ((readE_ok hT _ _ _).1 hbs)
    split
    · simp
    · simp
  | implicit => simp [readDisc]

theorem structFields_np (a D : Nat) (fs : List (Str × Nat × TypeDef)) (om : OMap Str Value)
    (h : ∀ x ∈ fs, x.2.1 ≤ D) (ha : a + D < u64Max1) : structFields a fs om ≠ .panic := by
  induction fs generalizing om with
  | nil => simp [structFields]
  | cons x r ih =>
    obtain ⟨n, o, t⟩ := x
    have := h (n, o, t) (by simp)
    simp only at this
    simp only [structFields]
    refine bind_np (addU_np (by omega)) fun fa _ => ?_
    exact ih _ fun y hy => h y (List.mem_cons_of_mem _ hy)

theorem findIndexed_mem (d : Int) (i : Nat) (vs : List (Str × Option Int × TypeDef)) (v : Str × TypeDef)
    (h : findIndexed d i vs = some v) : ∃ w ∈ vs, v = (w.1, w.2.2) := by
  induction vs generalizing i with
  | nil => simp [findIndexed] at h
  | cons x r ih =>
    obtain ⟨n, o, t⟩ := x
    simp only [findIndexed] at h
    split at h
    · cases h; exact ⟨(n, o, t), by simp, rfl⟩
    · obtain ⟨w, hw, e⟩ := ih _ h
      exact ⟨w, List.mem_cons_of_mem _ hw, e⟩

theorem pickVariant_mem (d : Int) (b : Bool) (vs : List (Str × Option Int × TypeDef)) (v : Str × TypeDef)
    (h : pickVariant d b vs = some v) : ∃ w ∈ vs, v = (w.1, w.2.2) := by
  unfold pickVariant at h
  split at h
  · split at h
    · rename_i w hw
      cases h
      exact ⟨w, List.mem_of_find?_eq_some hw, rfl⟩
    · rw [Option.map_eq_some_iff] at h
      obtain ⟨w, hw, e⟩ := h
      exact ⟨w, List.mem_of_find?_eq_some hw, e.symm⟩
  · exact findIndexed_mem d 0 vs v h

theorem fuel_bound (T : Target) (D : Nat) : ∀ vs : List (Str × Option Int × TypeDef),
    (∀ v ∈ vs, ∃ F, ∀ f, F ≤ f → ∀ a, a + D < u64Max1 → readMem T f a v.2.2 ≠ .panic) →
    ∃ F, ∀ f, F ≤ f → ∀ v ∈ vs, ∀ a, a + D < u64Max1 → readMem T f a v.2.2 ≠ .panic
  | [], _ => ⟨0, by simp⟩
  | v :: r, h => by
    obtain ⟨F1, h1⟩ := h v (by simp)
    obtain ⟨F2, h2⟩ := fuel_bound T D r fun w hw => h w (List.mem_cons_of_mem _ hw)
    refine ⟨max F1 F2, fun f hf w hw a ha => ?_⟩
    rcases List.mem_cons.1 hw with rfl | hw
    · exact h1 f (by omega) a ha
    · exact h2 f (by omega) w hw a ha

/-- C43: for the types of the class `Robust`, no memory contents whatsoever crash the debugger: with
enough stack for the nesting of the type, reading returns a value or an error at every address. -/
theorem C43_never_panics_partial (T : Target) (m : Mem) (hT : T.Reads m) (D : Nat) (t : TypeDef) (h : Robust T D t) :
    ∃ F, ∀ f, F ≤ f → ∀ a, a + D < u64Max1 → readMem T f a t ≠ .panic := by
  have one : ∀ (D : Nat) (loc : Option Nat) (l : Layout),
      (∀ rec a, a + D < u64Max1 → readLayout T rec a loc l ≠ .panic) →
      ∃ F, ∀ f, F ≤ f → ∀ a, a + D < u64Max1 → readMem T f a (.mk loc l) ≠ .panic := by
    intro D loc l h
    refine ⟨1, fun f hf a ha => ?_⟩
    obtain ⟨f, rfl⟩ : ∃ g, f = g + 1 := ⟨f - 1, by omega⟩
    exact h _ a ha
  have next : ∀ (D D' : Nat) (loc : Option Nat) (l : Layout) (t' : TypeDef),
      (∃ F, ∀ f, F ≤ f → ∀ a, a + D' < u64Max1 → readMem T f a t' ≠ .panic) →
      (∀ rec : Nat → TypeDef → Res Value, (∀ a, a + D' < u64Max1 → rec a t' ≠ .panic) →
        ∀ a, a + D < u64Max1 → readLayout T rec a loc l ≠ .panic) →
      ∃ F, ∀ f, F ≤ f → ∀ a, a + D < u64Max1 → readMem T f a (.mk loc l) ≠ .panic := by
    rintro D D' loc l t' ⟨F, hF⟩ h
    refine ⟨F + 1, fun f hf a ha => ?_⟩
    obtain ⟨f, rfl⟩ : ∃ g, f = g + 1 := ⟨f - 1, by omega⟩
    exact h _ (hF f (by omega)) a ha
  have ptr : ∀ a, T.readAddress a ≠ .panic := fun a => by
    rw [readAddress_eq hT]; exact readNat_noPanic hT _ _
  have ptrlt : ∀ a p, T.readAddress a = .ok p → p + 0 < u64Max1 := fun a p h => by
    rw [readAddress_eq hT] at h
    exact HoldsNat_lt8 ((readNat_ok hT _ _ _).1 h)
  induction h with
  | bool D loc =>
    refine one _ _ _ fun rec a _ => ?_
    refine bind_np (readE_noPanic _ _) fun bs hbs => ?_
    have hl := m.slice_length _ _ _ ((readE_ok hT _ _ _).1 hbs)
    cases bs with
    | nil => simp at hl
    | cons b r => simp
  | char D loc =>
    refine one _ _ _ fun rec a _ => ?_
    refine bind_np (readNat_noPanic hT _ _) fun n _ => ?_
    split <;> simp
  | int D loc s =>
    refine one _ _ _ fun rec a _ => ?_
    refine bind_np (readE_noPanic _ _) fun bs hbs => ?_
    have hl := m.slice_length _ _ _ ((readE_ok hT _ _ _).1 hbs)
    split
    · simp
    · simp
  | uint D loc s =>
    refine one _ _ _ fun rec a _ => ?_
    refine bind_np (readE_noPanic _ _) fun bs hbs => ?_
    have hl := m.slice_length _ _ _ ((readE_ok hT _ _ _).1 hbs)
    split
    · simp
    · simp
  | float D loc s =>
    refine one _ _ _ fun rec a _ => ?_
    refine bind_np (readE_noPanic _ _) fun bs hbs => ?_
    have hl := m.slice_length _ _ _ ((readE_ok hT _ _ _).1 hbs)
    split
    · simp
    · simp
  | never D loc => exact one _ _ _ fun rec a _ => by simp [readLayout]
  | unit D loc => exact one _ _ _ fun rec a _ => by simp [readLayout]
  | function D loc r as => exact one _ _ _ fun rec a _ => by simp [readLayout]
  | cenum D loc n d vs s =>
    refine one _ _ _ fun rec a _ => ?_
    refine bind_np (readDisc_np T m hT _ _) fun d _ => ?_
    exact bind_np (ofOption_np _) fun v _ => by simp
  | pointer D loc mt t _ ih =>
    refine next _ _ _ _ _ ih fun rec hrec a _ => ?_
    exact bind_np (ptr _) fun p hp => bind_np (hrec p (ptrlt _ _ hp)) fun v _ => by simp
  | reference D loc mt t _ ih =>
    refine next _ _ _ _ _ ih fun rec hrec a _ => ?_
    exact bind_np (ptr _) fun p hp => bind_np (hrec p (ptrlt _ _ hp)) fun v _ => by simp
  | box D loc t i d _ ih =>
    refine next _ _ _ _ _ ih fun rec hrec a _ => ?_
    exact bind_np (ptr _) fun p hp => bind_np (hrec p (ptrlt _ _ hp)) fun v _ => by simp
  | mutex D loc t i d hi _ ih =>
    refine next _ _ _ _ _ ih fun rec hrec a ha => ?_
    refine bind_np (addU_np (by omega)) fun p hp => bind_np (hrec p ?_) fun v _ => by simp
    obtain ⟨_, rfl⟩ := addU_eq_ok.1 hp; omega
  | refCell D loc t i d hi _ ih =>
    refine next _ _ _ _ _ ih fun rec hrec a ha => ?_
    refine bind_np (addU_np (by omega)) fun p hp => bind_np (hrec p ?_) fun v _ => by simp
    obtain ⟨_, rfl⟩ := addU_eq_ok.1 hp; omega
  | string D loc l d c e hl hd =>
    refine one _ _ _ fun rec a ha => ?_
    refine bind_np (addU_np (by omega)) fun la _ => bind_np (ptr _) fun len _ => ?_
    refine bind_np (addU_np (by omega)) fun pa _ => bind_np (ptr _) fun data _ => ?_
    exact bind_np (readE_noPanic _ _) fun bs _ => by simp
  | strSlice D loc d l hl hd =>
    refine one _ _ _ fun rec a ha => ?_
    refine bind_np (addU_np (by omega)) fun la _ => bind_np (addU_np (by omega)) fun pa _ => ?_
    refine bind_np (ptr _) fun data _ => bind_np (readNat_noPanic hT _ _) fun len _ => ?_
    exact bind_np (readE_noPanic _ _) fun bs _ => by simp
  | option D loc n disc so t s hdo hds hso _ ih =>
    refine next _ _ _ _ _ ih fun rec hrec a ha => ?_
    refine bind_np (addU_np (by omega)) fun da _ => ?_
    refine bind_np (readE_noPanic _ _) fun bs hbs => ?_
    have hl := m.slice_length _ _ _ ((readE_ok hT _ _ _).1 hbs)
    cases bs with
    | nil => simp at hl; omega
    | cons b r =>
      simp only
      split
      · simp
      · refine bind_np (addU_np (by omega)) fun sa hsa => bind_np (hrec sa ?_) fun v _ => by simp
        obtain ⟨_, rfl⟩ := addU_eq_ok.1 hsa; omega
  | struct D loc n s al fields hf =>
    refine one _ _ _ fun rec a ha => ?_
    exact bind_np (structFields_np a D _ _ hf ha) fun om _ => by simp
  | enum D loc n disc variants s hdo hvs ih =>
    obtain ⟨F, hF⟩ := fuel_bound T D variants.toList ih
    refine ⟨F + 1, fun f hf a ha => ?_⟩
    obtain ⟨f, rfl⟩ : ∃ g, f = g + 1 := ⟨f - 1, by omega⟩
    simp only [readMem, readLayout, readEnum]
    refine bind_np (addU_np (by omega)) fun da hda => ?_
    obtain ⟨_, rfl⟩ := addU_eq_ok.1 hda
    refine bind_np ?_ fun d _ => ?_
    · cases hty : disc.ty with
      | implicit =>
        refine bind_np (addU_np (by omega)) fun da' _ => ?_
        rw [readExact_eq hT]
        exact bind_np (readE_noPanic _ _) fun bs _ => by simp
      | int s => exact readDisc_np T m hT _ _
      | uint s => exact readDisc_np T m hT _ _
    · refine bind_np (ofOption_np _) fun v hv => ?_
      have hp : pickVariant d (decide (disc.ty ≠ DiscTy.implicit)) variants.toList = some v := by
        cases hpv : pickVariant d (decide (disc.ty ≠ DiscTy.implicit)) variants.toList with
        | none => rw [hpv] at hv; cases hv
        | some x => rw [hpv] at hv; cases hv; rfl
      obtain ⟨w, hw, e⟩ := pickVariant_mem _ _ _ _ hp
      subst e
      exact bind_np (hF f (by omega) w hw a ha) fun inner _ => by simp
  | array D loc e et n esz h1 h2 h3 h4 =>
    refine ⟨1, fun f hf a ha => ?_⟩
    obtain ⟨f, rfl⟩ : ∃ g, f = g + 1 := ⟨f - 1, by omega⟩
    rw [C24_array_reads T f a loc e et n esz h1 h2 (by omega) h4]
    simp
  | aliasUnknown D d n hd =>
    refine one _ _ _ fun rec a ha => ?_
    simp [readLayout, hd, Target.resolveAt]
  | alias D d n t hd _ ih =>
    refine next _ _ _ _ _ ih fun rec hrec a ha => ?_
    simp only [readLayout, Option.bind_some, hd, Target.resolveAt, Res.bind_ok]
    exact hrec a ha

/-- C43 is false of the code for `Vec`: a stored length of `u64::MAX` crashes the debugger ("capacity
overflow"). -/
theorem C43_vec_length_fails :
    ∃ (T : Target) (m : Mem), T.Reads m ∧
      readMem T 1 0 (.mk none (.vec 16 8 0 (.mk none (.uint 1)))) = .panic :=
  ⟨demoTarget (demoMem 0 (List.replicate 24 0xff)), _, demoTarget_reads _, rfl⟩

/-- C43 is false of the code for `HashMap`: a stored bucket mask of `u64::MAX` overflows. -/
theorem C43_hashmap_mask_fails :
    ∃ (T : Target) (m : Mem), T.Reads m ∧
      readMem T 1 0 (.mk none (.map (.hashMap 0 8 16 8 0 4) (.mk none (.uint 4)) (.mk none (.uint 4)))) = .panic :=
  ⟨demoTarget (demoMem 0 (List.replicate 24 0xff)), _, demoTarget_reads _, rfl⟩

/-- C43 is false of the code for `HashMap`: a control pointer below the size of a bucket underflows. -/
theorem C43_hashmap_ctrl_fails :
    ∃ (T : Target) (m : Mem), T.Reads m ∧
      readMem T 1 0 (.mk none (.map (.hashMap 0 8 16 8 0 4) (.mk none (.uint 4)) (.mk none (.uint 4)))) = .panic :=
  ⟨demoTarget (demoMem 0 (encNat 8 3 ++ encNat 8 4 ++ encNat 8 1)), _, demoTarget_reads _, rfl⟩

/-- C43 is false of the code for `Rc`: a stored pointer at the end of the address space overflows. -/
theorem C43_rc_pointer_fails :
    ∃ (T : Target) (m : Mem), T.Reads m ∧
      readMem T 2 0 (.mk none (.smartPtr .rc (.mk none (.uint 4)) 0 16)) = .panic :=
  ⟨demoTarget (demoMem 0 (List.replicate 8 0xff)), _, demoTarget_reads _, rfl⟩

/-- C43 is false of the code for tuples, `Result` and bare `str`: displaying them panics whatever memory
holds. -/
theorem C43_unimplemented_fails (T : Target) (f a : Nat) (loc : Option Nat) (es : Members) (s : Nat) (n : Str)
    (d : Disc) (ok err : TypeDef) (o1 o2 : Nat) :
    readMem T (f + 1) a (.mk loc (.tuple es s)) = .panic ∧
      readMem T (f + 1) a (.mk loc (.result n d ok o1 err o2 s)) = .panic ∧
      readMem T (f + 1) a (.mk loc .str) = .panic := ⟨rfl, rfl, rfl⟩

/-- C43 is false of the code for fields and elements of a type that cannot be looked up without a panic (an `RwLock` or `IndexMap`, see
C57_rwlock_fails): displaying one panics whatever memory holds. -/
theorem C43_unresolved_fails (T : Target) (f a d : Nat) (n : Str) (hd : T.resolve d = .panic) :
    readMem T (f + 1) a (.mk (some d) (.alias n)) = .panic := by
  simp [readMem, readLayout, Target.resolveAt, hd]

/-- C43 is false of the code for a debugger front end that answers a memory request with fewer bytes than
asked for: reading a `u32` then panics. -/
theorem C43_short_read_fails :
    ∃ T : Target, (∀ a n, ∃ bs, T.read a n = some bs ∧ bs.length ≤ n) ∧
      readMem T 1 0 (.mk none (.uint 4)) = .panic :=
  ⟨{ read := fun _ _ => some [], resolve := fun _ => .err, lossy := fun _ => [], floatStr := fun _ _ => [] },
    fun _ _ => ⟨[], rfl, Nat.zero_le _⟩, rfl⟩

/-- The class is not trivial: `&Option<&Mutex<…>>`-like nestings belong to it. -/
example (T : Target) : Robust T 8
    (.mk none (.option (chars! "O") ⟨.uint 8, 0⟩ 8 (.mk none (.reference false (.mk none (.uint 4)))) 16)) :=
  .option _ _ _ _ _ _ _ (by decide) (by decide) (by decide) (.reference _ _ _ _ (.uint _ _ _))

end Rudy.Data
