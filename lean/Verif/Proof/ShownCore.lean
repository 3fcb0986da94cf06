import Verif.Proof.ShownTypes
import Verif.Props.Synthetic
/-
The induction for C76: reading and expanding a value memory holds gives that value.
-/
set_option linter.unusedSimpArgs false
namespace Rudy.Shown
open Rudy Rudy.Dwarf Rudy.Parse Rudy.Layout Rudy.Data Rudy.TypeRes Rudy.Eval

/-! ### With enough stack -/

/-- With enough stack for resolving types, for reading and for reading again. -/
def Enough (P : Nat → Nat → Nat → Prop) : Prop := ∃ N, ∀ d f s, N ≤ d → N ≤ f → N ≤ s → P d f s

theorem Enough.and {P Q : Nat → Nat → Nat → Prop} (h : Enough P) (h' : Enough Q) : Enough fun d f s => P d f s ∧ Q d f s := by
  obtain ⟨N, h⟩ := h
  obtain ⟨M, h'⟩ := h'
  exact ⟨max N M, fun d f s h1 h2 h3 => ⟨h d f s (by omega) (by omega) (by omega), h' d f s (by omega) (by omega) (by omega)⟩⟩

theorem Enough.mono {P Q : Nat → Nat → Nat → Prop} (h : Enough P) (hi : ∀ d f s, P d f s → Q d f s) : Enough Q := by
  obtain ⟨N, h⟩ := h
  exact ⟨N, fun d f s h1 h2 h3 => hi _ _ _ (h d f s h1 h2 h3)⟩

theorem Enough.always {P : Nat → Nat → Nat → Prop} (h : ∀ d f s, P d f s) : Enough P := ⟨0, fun d f s _ _ _ => h d f s⟩

/-- One level of reading costs one unit. -/
theorem Enough.succ {P : Nat → Nat → Nat → Prop} (h : Enough fun d f s => P d (f + 1) s) : Enough P := by
  obtain ⟨N, h⟩ := h
  refine ⟨N + 1, fun d f s h1 h2 h3 => ?_⟩
  obtain ⟨f, rfl⟩ : ∃ k, f = k + 1 := ⟨f - 1, by omega⟩
  exact h d f s (by omega) (by omega) (by omega)

theorem Enough.types {P : Nat → Prop} (h : ∃ N, ∀ d, N ≤ d → P d) : Enough fun d _ _ => P d := by
  obtain ⟨N, h⟩ := h
  exact ⟨N, fun d _ _ h1 _ _ => h d h1⟩

theorem Enough.mem {α : Type} {l : List α} {P : α → Nat → Nat → Nat → Prop} (h : ∀ x ∈ l, Enough (P x)) :
    Enough fun d f s => ∀ x ∈ l, P x d f s := by
  induction l with
  | nil => exact .always fun _ _ _ x hx => by cases hx
  | cons y l ih =>
    refine ((h y (by simp)).and (ih fun x hx => h x (by simp [hx]))).mono fun d f s ⟨h1, h2⟩ x hx => ?_
    rcases List.mem_cons.1 hx with rfl | hx
    · exact h1
    · exact h2 x hx

theorem Enough.index {α : Type} {l : List α} {P : Nat → α → Nat → Nat → Nat → Prop}
    (h : ∀ i x, l[i]? = some x → Enough (P i x)) : Enough fun d f s => ∀ i x, l[i]? = some x → P i x d f s := by
  have := Enough.mem (l := List.range l.length) (P := fun i d f s => ∀ x, l[i]? = some x → P i x d f s) (by
    intro i hi
    have hi := List.mem_range.1 hi
    refine (h i l[i] (List.getElem?_eq_getElem hi)).mono fun d f s hP x hx => ?_
    rw [List.getElem?_eq_getElem hi] at hx
    cases hx; exact hP)
  refine this.mono fun d f s h1 i x hx => h1 i ?_ x hx
  rw [List.mem_range]
  exact (List.getElem?_eq_some_iff.1 hx).1

section
variable (typedef : Nat → Option Layout) (db : Db) (m : Mem) (lossy : List UInt8 → Str) (floatStr : Nat → Nat → Str)

/-- The process as it is read: its memory and its types. -/
def target (d : Nat) : Target :=
  { read := m.slice
    resolve := resolveType typedef db d
    lossy := lossy
    floatStr := floatStr }

theorem target_reads (d : Nat) : (target typedef db m lossy floatStr d).Reads m := fun _ _ => rfl

/-- The value read shows `v`, with `n` levels below it. -/
def Shows (d s n : Nat) (x : Value) (v : RVal) : Prop :=
  NotPtr x ∧ ∀ k, 2 * n ≤ k → ∃ y, expand (target typedef db m lossy floatStr d) s k x = .ok y ∧ shown y = v

/-- Reading the value at `a` of the type `e` shows `v`. -/
def Core (n a e : Nat) (v : RVal) : Prop :=
  Enough fun d f s => ∀ td, resolveType typedef db d e = .ok td ∨ shallow typedef db d e = .ok td →
    ∃ x, readMem (target typedef db m lossy floatStr d) f a td = .ok x ∧ Shows typedef db m lossy floatStr d s n x v

variable {typedef db m lossy floatStr}

theorem Shows.scalar {d s n : Nat} {t v : Str} : Shows typedef db m lossy floatStr d s n (.scalar t v) (.leaf v) := by
  refine ⟨trivial, fun k _ => ⟨.scalar t v, ?_, rfl⟩⟩
  cases k <;> rfl

theorem Shows.mark {d s n : Nat} {x : Value} {v : RVal} (g : Str → Str) (h : Shows typedef db m lossy floatStr d s n x v) :
    Shows typedef db m lossy floatStr d s n (x.mapType g) (v.mark g) := by
  refine ⟨h.1.mapType, fun k hk => ?_⟩
  obtain ⟨y, h1, h2⟩ := h.2 k hk
  exact ⟨y.mapType g, by rw [expand_mapType _ _ _ _ _ h.1, h1]; rfl, by rw [shown_mapType, h2]⟩

variable (hw : WellFormed db) (hdec : Decodes db)
include hw hdec

/-- It is enough to read the value with the full layout of its type. -/
theorem reads_of {a e : Nat} {desc : Desc} {Q : Nat → Nat → Value → Prop} (h : Is typedef db e desc)
    (hr : Enough fun d f s => (∀ t ∈ desc.parts, shallow typedef db d t = .ok (ty typedef db d t)) →
      ∃ x, readMem (target typedef db m lossy floatStr d) f a (full typedef db d e desc) = .ok x ∧ Q d s x) :
    Enough fun d f s => ∀ td, resolveType typedef db d e = .ok td ∨ shallow typedef db d e = .ok td →
      ∃ x, readMem (target typedef db m lossy floatStr d) f a td = .ok x ∧ Q d s x := by
  have ht := Enough.types (types_at hw hdec h)
  obtain ⟨N, hN⟩ := hr.and ht
  refine ⟨N + 1, fun d f s h1 h2 h3 td htd => ?_⟩
  obtain ⟨f, rfl⟩ : ∃ k, f = k + 1 := ⟨f - 1, by omega⟩
  obtain ⟨hr1, hp, hres, htds⟩ := hN d (f + 1) s (by omega) (by omega) (by omega)
  rcases htds td htd with rfl | ⟨_, nm, rfl⟩
  · exact hr1 hp
  · obtain ⟨hr2, _⟩ := hN d f s (by omega) (by omega) (by omega)
    obtain ⟨x, hx, hs⟩ := hr2 hp
    refine ⟨x, ?_, hs⟩
    rw [C47_alias (t := full typedef db d e desc) (hd := by simp [target, hres]), hx]

theorem core_of {n a e : Nat} {v : RVal} {desc : Desc} (h : Is typedef db e desc)
    (hr : Enough fun d f s => (∀ t ∈ desc.parts, shallow typedef db d t = .ok (ty typedef db d t)) →
      ∃ x, readMem (target typedef db m lossy floatStr d) f a (full typedef db d e desc) = .ok x ∧
        Shows typedef db m lossy floatStr d s n x v) : Core typedef db m lossy floatStr n a e v :=
  reads_of hw hdec (Q := fun d s x => Shows typedef db m lossy floatStr d s n x v) h hr

omit hw hdec in
/-- A part of a type is read through its type by name. -/
theorem part_ok {n a t : Nat} {v : RVal} (h : Core typedef db m lossy floatStr n a t v) :
    Enough fun d f s => shallow typedef db d t = .ok (ty typedef db d t) →
      ∃ x, readMem (target typedef db m lossy floatStr d) f a (ty typedef db d t) = .ok x ∧
        Shows typedef db m lossy floatStr d s n x v :=
  Enough.mono h fun _ _ _ h1 h2 => h1 _ (.inr h2)

/-! ### Expanding -/

omit hw hdec in
/-- What is behind a pointer is read and shown. -/
def Behind (typedef : Nat → Option Layout) (db : Db) (m : Mem) (lossy : List UInt8 → Str) (floatStr : Nat → Nat → Str)
    (d s n a : Nat) (td : TypeDef) (v : RVal) : Prop :=
  ∃ x, readMem (target typedef db m lossy floatStr d) s a td = .ok x ∧ Shows typedef db m lossy floatStr d s n x v

omit hw hdec in
theorem Behind.expand {d s n a : Nat} {td : TypeDef} {v : RVal} (h : Behind typedef db m lossy floatStr d s n a td v) (k : Nat)
    (hk : 2 * n + 1 ≤ k) :
    ∃ y, expand (target typedef db m lossy floatStr d) s k (.pointer a td) = .ok y ∧ shown y = v := by
  obtain ⟨x, h1, h2⟩ := h
  obtain ⟨k, rfl⟩ : ∃ j, k = j + 1 := ⟨k - 1, by omega⟩
  obtain ⟨y, h3, h4⟩ := h2.2 k (by omega)
  exact ⟨y, by simp only [Eval.expand, h1, Res.bind_ok, h3], h4⟩

omit hw hdec in
theorem expandList_ok {α : Type} (g : Value → Res Value) (vs : List α) (val : α → Value) (r : α → RVal)
    (h : ∀ x ∈ vs, ∃ y, g (val x) = .ok y ∧ shown y = r x) :
    ∃ ys, expandList g (vs.map val) = .ok ys ∧ shownList ys = vs.map r := by
  induction vs with
  | nil => exact ⟨[], rfl, rfl⟩
  | cons x vs ih =>
    obtain ⟨y, h1, h2⟩ := h x (by simp)
    obtain ⟨ys, h3, h4⟩ := ih fun x hx => h x (by simp [hx])
    exact ⟨y :: ys, by simp [expandList, h1, h3], by simp [shownList, h2, h4]⟩

omit hw hdec in
theorem expandFields_ok {α : Type} (g : Value → Res Value) (vs : List α) (nm : α → Str) (val : α → Value) (r : α → RVal)
    (h : ∀ x ∈ vs, ∃ y, g (val x) = .ok y ∧ shown y = r x) :
    ∃ ys, expandFields g (vs.map fun x => (nm x, val x)) = .ok ys ∧ shownFields ys = vs.map fun x => (nm x, r x) := by
  induction vs with
  | nil => exact ⟨[], rfl, rfl⟩
  | cons x vs ih =>
    obtain ⟨y, h1, h2⟩ := h x (by simp)
    obtain ⟨ys, h3, h4⟩ := ih fun x hx => h x (by simp [hx])
    exact ⟨(nm x, y) :: ys, by simp [expandFields, h1, h3], by simp [shownFields, h2, h4]⟩

omit hw hdec in
theorem expandEntries_ok {α : Type} (g : Value → Res Value) (vs : List α) (key val : α → Value) (r r' : α → RVal)
    (h : ∀ x ∈ vs, ∃ y, g (key x) = .ok y ∧ shown y = r x) (h' : ∀ x ∈ vs, ∃ y, g (val x) = .ok y ∧ shown y = r' x) :
    ∃ ys, expandEntries g (vs.map fun x => (key x, val x)) = .ok ys ∧ shownEntries ys = vs.map fun x => (r x, r' x) := by
  induction vs with
  | nil => exact ⟨[], rfl, rfl⟩
  | cons x vs ih =>
    obtain ⟨y, h1, h2⟩ := h x (by simp)
    obtain ⟨z, h5, h6⟩ := h' x (by simp)
    obtain ⟨ys, h3, h4⟩ := ih (fun x hx => h x (by simp [hx])) fun x hx => h' x (by simp [hx])
    exact ⟨(y, z) :: ys, by simp [expandEntries, h1, h3, h5], by simp [shownEntries, h2, h4, h6]⟩

omit hw hdec in
/-- A sequence whose elements are shown is shown. -/
theorem shows_seq {d s n : Nat} {t : Str} {et : TypeDef} {esz p : Nat} {vs : List RVal}
    (h : ∀ i v, vs[i]? = some v → Behind typedef db m lossy floatStr d s n (p + i * esz) et v) :
    Shows typedef db m lossy floatStr d s (n + 1) (.array t (elements et esz p vs.length)) (.seq vs) := by
  refine ⟨trivial, fun k hk => ?_⟩
  obtain ⟨k, rfl⟩ : ∃ j, k = j + 1 := ⟨k - 1, by omega⟩
  have he : elements et esz p vs.length = vs.zipIdx.map fun x => Value.pointer (p + x.2 * esz) et := by
    apply List.ext_getElem
    · simp [elements]
    · intro i h1 h2; simp [elements]
  obtain ⟨ys, h1, h2⟩ := expandList_ok (Eval.expand (target typedef db m lossy floatStr d) s k) vs.zipIdx
    (fun x => Value.pointer (p + x.2 * esz) et) (·.1) (by
      rintro ⟨v, i⟩ hx
      exact (h i v (List.mem_zipIdx_iff_getElem?.1 hx)).expand k (by omega))
  refine ⟨.array t ys, by rw [he]; simp only [Eval.expand, h1, Res.bind_ok], ?_⟩
  simp only [shown, h2, List.zipIdx_map_fst]

omit hw hdec in
theorem shows_fields {d s n a : Nat} {t : Str} {T : Nat → TypeDef} {vs : List (Str × Nat × Nat × RVal)}
    (h : ∀ x ∈ vs, Behind typedef db m lossy floatStr d s n (a + x.2.1) (T x.2.2.1) x.2.2.2) :
    Shows typedef db m lossy floatStr d s (n + 1) (.struct t (vs.map fun x => (x.1, .pointer (a + x.2.1) (T x.2.2.1))))
      (.record t (vs.map fun x => (x.1, x.2.2.2))) := by
  refine ⟨trivial, fun k hk => ?_⟩
  obtain ⟨k, rfl⟩ : ∃ j, k = j + 1 := ⟨k - 1, by omega⟩
  obtain ⟨ys, h1, h2⟩ := expandFields_ok (Eval.expand (target typedef db m lossy floatStr d) s k) vs (·.1)
    (fun x => Value.pointer (a + x.2.1) (T x.2.2.1)) (·.2.2.2) (fun x hx => (h x hx).expand k (by omega))
  exact ⟨.struct t ys, by simp only [Eval.expand, h1, Res.bind_ok], by simp only [shown, h2]⟩

omit hw hdec in
theorem shows_tuple {d s n a : Nat} {t : Str} {T : Nat → TypeDef} {vs : List (Str × Nat × Nat × RVal)}
    (h : ∀ x ∈ vs, Behind typedef db m lossy floatStr d s n (a + x.2.1) (T x.2.2.1) x.2.2.2) :
    Shows typedef db m lossy floatStr d s (n + 1) (.tuple t (vs.map fun x => .pointer (a + x.2.1) (T x.2.2.1)))
      (.tuple t (vs.map fun x => x.2.2.2)) := by
  refine ⟨trivial, fun k hk => ?_⟩
  obtain ⟨k, rfl⟩ : ∃ j, k = j + 1 := ⟨k - 1, by omega⟩
  obtain ⟨ys, h1, h2⟩ := expandList_ok (Eval.expand (target typedef db m lossy floatStr d) s k) vs
    (fun x => Value.pointer (a + x.2.1) (T x.2.2.1)) (·.2.2.2) (fun x hx => (h x hx).expand k (by omega))
  exact ⟨.tuple t ys, by simp only [Eval.expand, h1, Res.bind_ok], by simp only [shown, h2]⟩

omit hw hdec in
theorem shows_entries {d s n : Nat} {t : Str} {kt vt : TypeDef} {addrs : List (Nat × Nat)} {vs : List (RVal × RVal)}
    (hl : vs.length = addrs.length)
    (h : ∀ (j : Nat) (b : Nat × Nat) (kv : RVal × RVal), addrs[j]? = some b → vs[j]? = some kv →
      Behind typedef db m lossy floatStr d s n b.1 kt kv.1 ∧ Behind typedef db m lossy floatStr d s n b.2 vt kv.2) :
    Shows typedef db m lossy floatStr d s (n + 1) (.map t (addrs.map fun b => (.pointer b.1 kt, .pointer b.2 vt))) (.map vs) := by
  refine ⟨trivial, fun k hk => ?_⟩
  obtain ⟨k, rfl⟩ : ∃ j, k = j + 1 := ⟨k - 1, by omega⟩
  have hz : ∀ x ∈ addrs.zip vs, Behind typedef db m lossy floatStr d s n x.1.1 kt x.2.1 ∧
      Behind typedef db m lossy floatStr d s n x.1.2 vt x.2.2 := by
    intro x hx
    obtain ⟨j, hj⟩ := List.mem_iff_getElem?.1 hx
    rw [List.getElem?_zip_eq_some] at hj
    exact h j x.1 x.2 hj.1 hj.2
  obtain ⟨ys, h1, h2⟩ := expandEntries_ok (Eval.expand (target typedef db m lossy floatStr d) s k) (addrs.zip vs)
    (fun x => Value.pointer x.1.1 kt) (fun x => Value.pointer x.1.2 vt) (fun x => x.2.1) (fun x => x.2.2)
    (fun x hx => (hz x hx).1.expand k (by omega)) (fun x hx => (hz x hx).2.expand k (by omega))
  have e1 : (addrs.zip vs).map (fun x => (Value.pointer x.1.1 kt, Value.pointer x.1.2 vt)) =
      addrs.map fun b => (.pointer b.1 kt, .pointer b.2 vt) := by
    have : (addrs.zip vs).map (·.1) = addrs := List.map_fst_zip (by omega)
    rw [show (addrs.zip vs).map (fun x => (Value.pointer x.1.1 kt, Value.pointer x.1.2 vt)) =
      ((addrs.zip vs).map (·.1)).map fun b => (.pointer b.1 kt, .pointer b.2 vt) by rw [List.map_map]; rfl, this]
  have e2 : (addrs.zip vs).map (fun x => (x.2.1, x.2.2)) = vs := List.map_snd_zip (by omega)
  exact ⟨.map t ys, by rw [← e1]; simp only [Eval.expand, h1, Res.bind_ok], by simp only [shown, h2, e2]⟩

end
end Rudy.Shown
