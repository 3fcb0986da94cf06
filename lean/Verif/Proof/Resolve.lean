import Verif.Model.Resolve
import Verif.Props.Address
/- Helper lemmas for Verif.Props.Resolve. -/
namespace Rudy.Resolve
open Rudy Rudy.Address
open Rudy.Remap (Path)

/-! ### Specification vocabulary -/

/-- `r` is a line-table row for a line at or after `target` of `file` in one of the units, the file
being identified by the 1-based position of its first entry in the unit's file table. -/
def Candidate (units : List (Option LineProgram)) (file : Path) (target : Nat) (r : Row) : Prop :=
  ∃ lp k, some lp ∈ units ∧ lp.files[k]? = some (some file) ∧
    (∀ j, j < k → lp.files[j]? ≠ some (some file)) ∧
    .row r ∈ lp.rows ∧ r.endSeq = false ∧ r.fileIndex = k + 1 ∧
    ∃ l, r.line = some l ∧ target ≤ l

/-- `f` is a known function whose relative range contains the address. -/
def InFunction (info : List FnInfo) (f : FnInfo) (address : Nat) : Prop :=
  f ∈ info ∧ f.relStart ≤ address ∧ address < f.relEnd

/-! ### Flattening the two loops -/

def flatRows (idx : Nat) : List RowItem → List (Nat × Row)
  | [] => []
  | .bad :: rest => flatRows idx rest
  | .row r :: rest => (idx, r) :: flatRows idx rest

def flatUnits (file : Path) : List (Option LineProgram) → List (Nat × Row)
  | [] => []
  | none :: rest => flatUnits file rest
  | some lp :: rest =>
    (match targetFileIdx lp.files file with
     | none => []
     | some idx => flatRows idx lp.rows) ++ flatUnits file rest

def flatLoop (tree : AddressTree) (target : Nat) : List (Nat × Row) → Best → Res Scan
  | [], b => .ok (.go b)
  | (idx, r) :: rest, b =>
    match rowStep tree idx target b r with
    | .ok (.go b') => flatLoop tree target rest b'
    | other => other

theorem rowLoop_flat (tree : AddressTree) (idx target : Nat) (rows : List RowItem) (b : Best) :
    rowLoop tree idx target rows b = flatLoop tree target (flatRows idx rows) b := by
  induction rows generalizing b with
  | nil => rfl
  | cons x xs ih =>
    cases x with
    | bad => simp [rowLoop, flatRows, ih]
    | row r =>
      simp only [rowLoop, flatRows, flatLoop]
      cases rowStep tree idx target b r with
      | ok s => cases s <;> simp [ih]
      | err => rfl
      | panic => rfl

theorem flatLoop_append (tree : AddressTree) (target : Nat) (l₁ l₂ : List (Nat × Row)) (b : Best) :
    flatLoop tree target (l₁ ++ l₂) b =
      match flatLoop tree target l₁ b with
      | .ok (.go b') => flatLoop tree target l₂ b'
      | other => other := by
  induction l₁ generalizing b with
  | nil => rfl
  | cons x xs ih =>
    obtain ⟨idx, r⟩ := x
    simp only [List.cons_append, flatLoop]
    cases rowStep tree idx target b r with
    | ok s => cases s <;> simp [ih]
    | err => rfl
    | panic => rfl

theorem targetFileIdx_spec (files : List (Option Path)) (file : Path) (idx : Nat) :
    targetFileIdx files file = some idx ↔
      ∃ k, idx = k + 1 ∧ files[k]? = some (some file) ∧
        ∀ j, j < k → files[j]? ≠ some (some file) := by
  unfold targetFileIdx
  rw [Option.map_eq_some_iff]
  constructor
  · rintro ⟨k, hk, rfl⟩
    rw [List.findIdx?_eq_some_iff_getElem] at hk
    obtain ⟨h, h1, h2⟩ := hk
    refine ⟨k, rfl, ?_, ?_⟩
    · rw [List.getElem?_eq_getElem h]; simpa using h1
    · intro j hj hc
      have := h2 j hj
      rw [List.getElem?_eq_getElem (by omega)] at hc
      simp at this hc
      exact this hc
  · rintro ⟨k, rfl, h1, h2⟩
    refine ⟨k, ?_, rfl⟩
    obtain ⟨h, h1'⟩ := List.getElem?_eq_some_iff.1 h1
    rw [List.findIdx?_eq_some_iff_getElem]
    refine ⟨h, by simpa using h1', ?_⟩
    intro j hj
    have := h2 j hj
    rw [List.getElem?_eq_getElem (by omega)] at this
    simpa using this

theorem targetFileIdx_none (files : List (Option Path)) (file : Path)
    (h : files.contains (some file) = false) : targetFileIdx files file = none := by
  unfold targetFileIdx
  rw [Option.map_eq_none_iff, List.findIdx?_eq_none_iff]
  intro x hx
  simp only [decide_eq_false_iff_not]
  rintro rfl
  rw [List.contains_eq_mem] at h
  simp [hx] at h

theorem unitLoop_flat (tree : AddressTree) (file : Path) (target : Nat)
    (units : List (Option LineProgram)) (b : Best) :
    unitLoop tree file target units b = flatLoop tree target (flatUnits file units) b := by
  induction units generalizing b with
  | nil => rfl
  | cons u us ih =>
    cases u with
    | none => simp [unitLoop, flatUnits, ih]
    | some lp =>
      simp only [unitLoop, flatUnits, flatLoop_append]
      by_cases hc : lp.files.contains (some file) = true
      · simp only [hc, if_true]
        cases ht : targetFileIdx lp.files file with
        | none => simp [flatLoop, ih]
        | some idx =>
          simp only [rowLoop_flat]
          cases flatLoop tree target (flatRows idx lp.rows) b with
          | ok s => cases s <;> simp [ih]
          | err => rfl
          | panic => rfl
      · have ht := targetFileIdx_none lp.files file (by simpa using hc)
        have hc' : lp.files.contains (some file) = false := by simpa using hc
        simp only [hc', ht, Bool.false_eq_true, if_false, flatLoop]
        exact ih b

/-- Row usable for the target (relative to its unit's file index). -/
def Usable (target : Nat) (x : Nat × Row) : Prop :=
  x.2.endSeq = false ∧ x.2.fileIndex = x.1 ∧ ∃ l, x.2.line = some l ∧ target ≤ l

theorem mem_flatRows (idx : Nat) (rows : List RowItem) (x : Nat × Row) :
    x ∈ flatRows idx rows ↔ x.1 = idx ∧ .row x.2 ∈ rows := by
  induction rows with
  | nil => simp [flatRows]
  | cons y ys ih =>
    cases y with
    | bad => simp [flatRows, ih]
    | row r =>
      simp only [flatRows, List.mem_cons, ih]
      constructor
      · rintro (rfl | ⟨h1, h2⟩)
        · exact ⟨rfl, Or.inl rfl⟩
        · exact ⟨h1, Or.inr h2⟩
      · rintro ⟨h1, h2 | h2⟩
        · left; cases h2; cases x; simp_all
        · right; exact ⟨h1, h2⟩

theorem mem_flatUnits (file : Path) (units : List (Option LineProgram)) (x : Nat × Row) :
    x ∈ flatUnits file units ↔
      ∃ lp, some lp ∈ units ∧ targetFileIdx lp.files file = some x.1 ∧ .row x.2 ∈ lp.rows := by
  induction units with
  | nil => simp [flatUnits]
  | cons u us ih =>
    cases u with
    | none => simp [flatUnits, ih]
    | some lp =>
      simp only [flatUnits, List.mem_append, ih]
      constructor
      · rintro (h | ⟨lp', h1, h2⟩)
        · cases ht : targetFileIdx lp.files file with
          | none => rw [ht] at h; simp at h
          | some idx =>
            rw [ht] at h
            obtain ⟨h1, h2⟩ := (mem_flatRows _ _ _).1 h
            exact ⟨lp, by simp, by rw [ht, h1], h2⟩
        · exact ⟨lp', List.mem_cons_of_mem _ h1, h2⟩
      · rintro ⟨lp', h1, h2, h3⟩
        rcases List.mem_cons.1 h1 with h1 | h1
        · cases h1
          left; rw [h2]
          exact (mem_flatRows _ _ _).2 ⟨rfl, h3⟩
        · right; exact ⟨lp', h1, h2, h3⟩

theorem candidate_iff (units : List (Option LineProgram)) (file : Path) (target : Nat) (r : Row) :
    Candidate units file target r ↔ ∃ idx, (idx, r) ∈ flatUnits file units ∧ Usable target (idx, r) := by
  constructor
  · rintro ⟨lp, k, h1, h2, h3, h4, h5, h6, h7⟩
    refine ⟨k + 1, (mem_flatUnits _ _ _).2 ⟨lp, h1, ?_, h4⟩, h5, h6, h7⟩
    exact (targetFileIdx_spec _ _ _).2 ⟨k, rfl, h2, h3⟩
  · rintro ⟨idx, h1, h2, h3, h4⟩
    obtain ⟨lp, g1, g2, g3⟩ := (mem_flatUnits _ _ _).1 h1
    obtain ⟨k, rfl, e1, e2⟩ := (targetFileIdx_spec _ _ _).1 g2
    exact ⟨lp, k, g1, e1, e2, g3, h2, h3, h4⟩

/-! ### Loop invariant -/

/-- `a` is the absolute address of a usable row at distance `d` in a known function. -/
def Sound (info : List FnInfo) (target : Nat) (l : List (Nat × Row)) (a d : Nat) : Prop :=
  ∃ x ∈ l, ∃ f, Usable target x ∧ InFunction info f x.2.address ∧ x.2.line = some (target + d) ∧
    a + f.relStart = f.absStart + x.2.address

theorem Sound.mono {info target a d} {l l' : List (Nat × Row)} (h : Sound info target l a d)
    (hs : ∀ x ∈ l, x ∈ l') : Sound info target l' a d := by
  obtain ⟨x, hx, r⟩ := h
  exact ⟨x, hs x hx, r⟩

structure Inv (info : List FnInfo) (target : Nat) (l : List (Nat × Row)) (b : Best) : Prop where
  sound : ∀ a, b.addr = some a → Sound info target l a b.dist
  min : ∀ x ∈ l, Usable target x → ∀ f, InFunction info f x.2.address →
    b.addr ≠ none ∧ ∀ ln, x.2.line = some ln → target + b.dist ≤ ln

theorem query_head (info : List FnInfo) (t : AddressTree) (hb : Built info t) (a : Nat) :
    (t.queryAddress a false = [] → ∀ f, ¬ InFunction info f a) ∧
    (∀ f rest, t.queryAddress a false = f :: rest → InFunction info f a) := by
  have hp := C02_query_relative_exact info t hb a
  constructor
  · intro h f ⟨h1, h2, h3⟩
    rw [h] at hp
    have := hp.mem_iff (a := f)
    simp [List.mem_filter] at this
    have := this h1 h2
    omega
  · intro f rest h
    have := (hp.mem_iff (a := f)).1 (by rw [h]; simp)
    rw [List.mem_filter] at this
    simp at this
    exact ⟨this.1, this.2.1, this.2.2⟩

/-- One step: extends the invariant by the row, or stops with distance 0. -/
theorem rowStep_inv (info : List FnInfo) (t : AddressTree) (hb : Built info t) (target idx : Nat)
    (l : List (Nat × Row)) (b : Best) (r : Row) (hi : Inv info target l b) :
    (∀ b', rowStep t idx target b r = .ok (.go b') → Inv info target (l ++ [(idx, r)]) b') ∧
    (∀ a, rowStep t idx target b r = .ok (.done a) → Sound info target (l ++ [(idx, r)]) a 0) := by
  have keep : (∀ f, Usable target (idx, r) → InFunction info f r.address →
      b.addr ≠ none ∧ ∀ ln, r.line = some ln → target + b.dist ≤ ln) →
      Inv info target (l ++ [(idx, r)]) b := by
    intro h
    refine ⟨fun a ha => (hi.sound a ha).mono (fun x hx => List.mem_append_left _ hx), ?_⟩
    intro x hx hu f hf
    rcases List.mem_append.1 hx with hx | hx
    · exact hi.min x hx hu f hf
    · simp at hx; subst hx; exact h f hu hf
  unfold rowStep
  by_cases h1 : r.endSeq = true
  · simp only [h1, if_true]
    refine ⟨?_, by intro a h; cases h⟩
    intro b' h; cases h
    apply keep
    intro f hu; exact absurd hu.1 (by simp [h1])
  simp only [h1, Bool.false_eq_true, if_false]
  by_cases h2 : r.fileIndex = idx
  rotate_left
  · simp only [h2, if_false]
    refine ⟨?_, by intro a h; cases h⟩
    intro b' h; cases h
    apply keep
    intro f hu; exact absurd hu.2.1 h2
  simp only [h2, if_true]
  cases hl : r.line with
  | none =>
    refine ⟨?_, by intro a h; cases h⟩
    intro b' h; cases h
    apply keep
    intro f hu
    obtain ⟨ln, hln, _⟩ := hu.2.2
    simp [hl] at hln
  | some line =>
    simp only
    by_cases h3 : line < target
    · simp only [h3, if_true]
      refine ⟨?_, by intro a h; cases h⟩
      intro b' h; cases h
      apply keep
      intro f hu
      obtain ⟨ln, hln, hge⟩ := hu.2.2
      simp [hl] at hln; omega
    simp only [h3, if_false]
    by_cases h4 : (b.addr.isNone || decide (line - target < b.dist)) = true
    rotate_left
    · simp only [h4, Bool.false_eq_true, if_false]
      refine ⟨?_, by intro a h; cases h⟩
      intro b' h; cases h
      apply keep
      intro f hu hf
      simp at h4
      refine ⟨by intro hn; simp [hn] at h4, ?_⟩
      intro ln hln
      simp [hl] at hln; omega
    simp only [h4, if_true]
    obtain ⟨q1, q2⟩ := query_head info t hb r.address
    cases hq : t.queryAddress r.address false with
    | nil =>
      refine ⟨?_, by intro a h; cases h⟩
      intro b' h; cases h
      apply keep
      intro f hu hf
      exact absurd hf (q1 hq f)
    | cons f rest =>
      have hf := q2 f rest hq
      have hu : Usable target (idx, r) := ⟨by simpa using h1, h2, line, hl, by omega⟩
      simp only [Res.bind_eq, addU, subU]
      by_cases o1 : f.absStart + r.address < u64Max1
      rotate_left
      · simp [o1]
      simp only [o1, if_true, Res.bind_ok]
      by_cases o2 : f.relStart ≤ f.absStart + r.address
      rotate_left
      · simp [o2]
      simp only [o2, if_true, Res.bind_ok]
      have snd : Sound info target (l ++ [(idx, r)]) (f.absStart + r.address - f.relStart)
          (line - target) := by
        refine ⟨(idx, r), by simp, f, hu, hf, ?_, by show _ = f.absStart + r.address; omega⟩
        simp only [hl]; congr 1; omega
      by_cases h5 : line - target = 0
      · rw [if_pos h5]
        rw [h5] at snd
        constructor
        · intro b' h; cases h
        · intro a h; cases h; exact snd
      · rw [if_neg h5]
        constructor
        rotate_left
        · intro a h; cases h
        intro b' h; cases h
        refine ⟨?_, ?_⟩
        · intro a ha; cases ha; exact snd
        · intro x hx hux g hg
          refine ⟨by simp, ?_⟩
          intro ln hln
          rcases List.mem_append.1 hx with hx | hx
          · obtain ⟨m1, m2⟩ := hi.min x hx hux g hg
            have := m2 ln hln
            have hd : line - target < b.dist := by
              cases hba : b.addr with
              | none => exact absurd hba m1
              | some y => simpa [hba] using h4
            simp only; omega
          · simp at hx; subst hx
            simp [hl] at hln
            simp only; omega

theorem flatLoop_inv (info : List FnInfo) (t : AddressTree) (hb : Built info t) (target : Nat) :
    ∀ (l done : List (Nat × Row)) (b : Best), Inv info target done b →
      (∀ b', flatLoop t target l b = .ok (.go b') → Inv info target (done ++ l) b') ∧
      (∀ a, flatLoop t target l b = .ok (.done a) → Sound info target (done ++ l) a 0) := by
  intro l
  induction l with
  | nil =>
    intro done b hi
    simp only [flatLoop]
    refine ⟨?_, by intro a h; cases h⟩
    intro b' h; cases h; simpa using hi
  | cons x xs ih =>
    intro done b hi
    obtain ⟨idx, r⟩ := x
    obtain ⟨s1, s2⟩ := rowStep_inv info t hb target idx done b r hi
    simp only [flatLoop]
    cases hr : rowStep t idx target b r with
    | ok s =>
      cases s with
      | go b1 =>
        have := ih (done ++ [(idx, r)]) b1 (s1 b1 hr)
        simpa using this
      | done a =>
        simp only
        refine ⟨by intro b' h; simp at h, ?_⟩
        intro a' h
        simp at h; subst h
        refine (s2 a hr).mono ?_
        intro y hy
        rcases List.mem_append.1 hy with hy | hy
        · exact List.mem_append_left _ hy
        · simp at hy; subst hy; simp
    | err => simp
    | panic => simp

theorem rowStep_noPanic (info : List FnInfo) (t : AddressTree) (hb : Built info t)
    (hbd : ∀ f ∈ info, f.absStart + f.relEnd ≤ u64Max1) (target idx : Nat) (b : Best) (r : Row) :
    ∃ s, rowStep t idx target b r = .ok s := by
  unfold rowStep
  split
  · exact ⟨_, rfl⟩
  split
  · split
    · exact ⟨_, rfl⟩
    · split
      · exact ⟨_, rfl⟩
      · simp only
        split
        · obtain ⟨_, q2⟩ := query_head info t hb r.address
          cases hq : t.queryAddress r.address false with
          | nil => exact ⟨_, rfl⟩
          | cons f rest =>
            obtain ⟨f1, f2, f3⟩ := q2 f rest hq
            have := hbd f f1
            simp only [Res.bind_eq, addU, subU]
            rw [if_pos (by omega)]
            simp only [Res.bind_ok]
            rw [if_pos (by omega)]
            simp only [Res.bind_ok]
            split <;> exact ⟨_, rfl⟩
        · exact ⟨_, rfl⟩
  · exact ⟨_, rfl⟩

theorem flatLoop_noPanic (info : List FnInfo) (t : AddressTree) (hb : Built info t)
    (hbd : ∀ f ∈ info, f.absStart + f.relEnd ≤ u64Max1) (target : Nat) (l : List (Nat × Row)) :
    ∀ b, ∃ s, flatLoop t target l b = .ok s := by
  induction l with
  | nil => intro b; exact ⟨_, rfl⟩
  | cons x xs ih =>
    intro b
    obtain ⟨idx, r⟩ := x
    obtain ⟨s, hs⟩ := rowStep_noPanic info t hb hbd target idx b r
    simp only [flatLoop, hs]
    cases s with
    | go b' => exact ih b'
    | done a => exact ⟨_, rfl⟩

end Rudy.Resolve
