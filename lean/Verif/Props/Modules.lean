import Verif.Proof.Modules
/-
C39: the module of a debug-info offset.
-/
namespace Rudy.Modules
open Rudy.Walker Rudy.Dwarf Rudy.Entries

/-! ### Vocabulary -/

/-- A unit of a debug file: its tree of entries and the number of padding bytes (null entries) after
it. -/
abbrev UnitOf := Tree Die × Nat

/-- The bytes of a unit as the reader sees them. -/
def encUnit (u : UnitOf) : List (Tok Die) := enc u.1 ++ List.replicate u.2 .null

/-- One past the last offset of the unit. -/
def endOf (t : Tree Die) : Nat := t.die.off + t.die.unitLength

/-- A debug file: every unit is rooted in a compilation unit entry, Rust units are well formed, and
units follow each other without overlap. -/
structure FileOk (us : List UnitOf) : Prop where
  roots : ∀ u ∈ us, u.1.die.tag = .compileUnit
  rust : ∀ u ∈ us, u.1.die.isRustCu = true → WellFormed u.1
  layout : us.Pairwise fun a b => endOf a.1 ≤ b.1.die.off

/-- `m`, somewhere below `t`, is a module: the unit itself or a namespace directly in a module; `path` is its path. -/
inductive IsModule (t : Tree Die) : Tree Die → List Str → Prop where
  | root : IsModule t t []
  | sub {m k : Tree Die} {path : List Str} (h : IsModule t m path) (hk : k ∈ m.kids) (ht : k.die.tag = .namespace) :
      IsModule t k (path ++ [nameOf k.die])

/-- Something comes after the entry `d` in the unit `t` that is not directly in the module `m`: it is in a submodule of `m`, or after `m`. -/
def Followed (t m : Tree Die) (d : Die) : Prop := ∃ y ∈ t.entries, d.off < y.off ∧ ∀ k ∈ m.kids, k.die.tag ≠ .namespace → y ∉ k.entries

/-- The namespaces of the file that are modules, with their paths, in document order. -/
def fileNamespaces (us : List UnitOf) : List (Die × List Str) :=
  us.flatMap fun u => if u.1.die.isRustCu then namespacesOfList [] u.1.kids else []

/-! ### Proofs -/

theorem dfsLoop_nulls (n : Nat) (d : Int) : (dfsLoop (α := Die) (List.replicate n .null) d).2 = none := by
  induction n generalizing d with
  | zero => rfl
  | succ n ih => simp only [List.replicate_succ, dfsLoop]; exact ih _

/-- The entry a range names for the offset `x` of a unit: that of the module of `x`, unless everything after `x` is in the same module; then it may be the unit. -/
def NamesModule (t : Tree Die) (r : ModuleRange) (x : Nat) : Prop :=
  r.die = (look x (unitPlaces t) ([], t.die)).2 ∨
    (r.die = t.die ∧ ∀ y, x ≤ y → look y (unitPlaces t) ([], t.die) = look x (unitPlaces t) ([], t.die))

/-- What one unit adds. -/
theorem unit_good (b : Builder) (u : UnitOf) (hr : u.1.die.isRustCu = true) (hw : WellFormed u.1) :
    ∃ b' R, walkUnit (fun d => decide (d.tag = .compileUnit)) cuVisitor visitor b (encUnit u) = (b', .ok) ∧
      b'.ranges = b.ranges ++ R ∧ Tiles u.1.die.off (endOf u.1) R ∧
      (∀ ρ ∈ R, ∀ x, ρ.start ≤ x → x < ρ.stop → ρ.path = look x (unitModules u.1) [] ∧ NamesModule u.1 ρ x) ∧
      b'.modules = (namespacesOfList [] u.1.kids).foldl (fun m e => m.push e.2 e.1) b.modules := by
  obtain ⟨t, n⟩ := u
  simp only at hr hw ⊢
  rw [encUnit, C42_walk_unit_follows_tree _ _ _ _ _ _ (by simp [hw.root]), dfsLoop_nulls]
  simp only [Option.map_none]
  have hord := hw.order
  have hin := hw.inside
  have hnm := hw.named
  rw [entries_die] at hord hin hnm
  rw [List.pairwise_cons] at hord
  have hfit : Fits ([], t.die) (entriesList t.kids)
      { b with stack := [([], t.die, t.die.off)], lastSeen := t.die.off } none :=
    ⟨by simp, rfl, ⟨_, rfl, rfl⟩, fun d hd => hnm d (by simp [hd]), hord.2, fun d hd => Nat.le_of_lt (hord.1 d hd),
      by simp⟩
  obtain ⟨R, ex, g1, g2, g3, g4, -, -, g7, g8, g9, g10, g11⟩ := visitForest_good t.kids ([], t.die) _ none hfit
  rcases hv : visitForest visitor
      { b with stack := [([], t.die, t.die.off)], lastSeen := t.die.off } none t.kids with ⟨b2, e2⟩
  rw [hv] at g1 g2 g3 g4 g7 g9 g10
  simp only at g1 g2 g3 g4 g7 g9 g10
  subst g1
  have hlt : b2.lastSeen < endOf t :=
    g7 _ (hin _ (by simp)) (fun d hd => hin d (by simp [hd])) (by simp)
  have hvr : visitRoot cuVisitor visitor b none t = (cuVisitor.leave b2 t.die none, .ok) := by
    cases t with
    | node d f s ks =>
      simp only [visitRoot, Tree.die, Tree.kids] at *
      have : cuVisitor.enter b d = ({ b with stack := [([], d, d.off)], lastSeen := d.off }, .walk) := by
        simp [cuVisitor, hr]
      rw [this]; simp only; rw [hv]
  rw [hvr]
  have hle := tiles_le _ _ _ g3
  have hun : ∀ x, t.die.off ≤ x → look x (unitPlaces t) ([], t.die) = look x (placesOfList ([], t.die) t.kids) ([], t.die) := by
    intro x hx; simp [unitPlaces, look, hx]
  have hmod : ∀ x, look x (unitModules t) [] = (look x (unitPlaces t) ([], t.die)).1 := by
    intro x
    rw [← look_map (fun p : List Str × Die => p.1)]
    simp only [unitPlaces, List.map_cons, placesOfList_modules, unitModules]
  refine ⟨_, R ++ [{ path := pathOf b2.stack, die := t.die, start := b2.lastSeen, stop := endOf t }], rfl,
    by simp [cuVisitor, g2, endOf], tiles_append _ _ _ _ _ g3 ?_, ?_, by simp [cuVisitor, g10]⟩
  · exact ⟨rfl, hlt, rfl⟩
  intro ρ hρ x h1 h2
  simp only [List.mem_append, List.mem_singleton] at hρ
  rcases hρ with hρ | rfl
  · have := tiles_mem _ _ _ g3 ρ hρ
    have h8 := g8 ρ hρ x h1 h2
    rw [NamesModule, hmod, hun x (by omega), ← h8]
    exact ⟨rfl, Or.inl rfl⟩
  · simp only at h1 h2
    obtain ⟨h9, l, hl, hd⟩ := g9 x h1 (by simp)
    rw [NamesModule, hmod, hun x (by omega)]
    refine ⟨h9.symm, Or.inr ⟨rfl, fun y hy => ?_⟩⟩
    obtain ⟨h9', l', hl', hd'⟩ := g9 y (by omega) (by simp)
    rw [hl] at hl'
    cases hl'
    rw [hun y (by omega)]
    exact Prod.ext (h9'.trans h9.symm) (hd'.symm.trans hd)

theorem unit_skip (b : Builder) (u : UnitOf) (hc : u.1.die.tag = .compileUnit)
    (hr : u.1.die.isRustCu = false) :
    walkUnit (fun d => decide (d.tag = .compileUnit)) cuVisitor visitor b (encUnit u) = (b, .ok) := by
  obtain ⟨t, n⟩ := u
  simp only at hr hc ⊢
  rw [encUnit, C42_walk_unit_follows_tree _ _ _ _ _ _ (by simp [hc])]
  cases t with
  | node d f s ks =>
    simp only [Tree.die] at hr
    simp [visitRoot, cuVisitor, hr]

/-- What the whole file gives. -/
theorem file_good (us : List UnitOf) (h : FileOk us) (b : Builder) :
    ∃ b' R, walkFile (fun d => decide (d.tag = .compileUnit)) cuVisitor visitor b (us.map encUnit) = (b', .ok) ∧
      b'.ranges = b.ranges ++ R ∧
      (∀ r ∈ R, r.start < r.stop ∧ ∃ u ∈ us, u.1.die.isRustCu = true ∧ u.1.die.off ≤ r.start ∧
        r.stop ≤ endOf u.1 ∧ ∀ x, r.start ≤ x → x < r.stop → r.path = look x (unitModules u.1) [] ∧ NamesModule u.1 r x) ∧
      (∀ u ∈ us, u.1.die.isRustCu = true → ∀ x, u.1.die.off ≤ x → x < endOf u.1 →
        ∃ r ∈ R, r.start ≤ x ∧ x < r.stop) ∧
      (R.Pairwise fun r s => r.stop ≤ s.start) ∧
      b'.modules = (fileNamespaces us).foldl (fun m e => m.push e.2 e.1) b.modules := by
  induction us generalizing b with
  | nil => exact ⟨b, [], rfl, by simp, by simp, by simp, by simp, rfl⟩
  | cons u us ih =>
    have hl := h.layout
    rw [List.pairwise_cons] at hl
    have h' : FileOk us :=
      ⟨fun v hv => h.roots v (by simp [hv]), fun v hv => h.rust v (by simp [hv]), hl.2⟩
    simp only [List.map_cons, walkFile]
    cases hr : u.1.die.isRustCu with
    | false =>
      rw [unit_skip b u (h.roots u (by simp)) hr]
      obtain ⟨b', R, e1, e2, e3, e4, e5, e6⟩ := ih h' b
      refine ⟨b', R, e1, e2, ?_, ?_, e5, ?_⟩
      · intro r hm
        obtain ⟨h1, v, hv, h2⟩ := e3 r hm
        exact ⟨h1, v, by simp [hv], h2⟩
      · intro v hv hrv x h1 h2
        simp only [List.mem_cons] at hv
        rcases hv with rfl | hv
        · rw [hr] at hrv; cases hrv
        · exact e4 v hv hrv x h1 h2
      · rw [e6]; simp [fileNamespaces, hr]
    | true =>
      obtain ⟨b1, R1, k1, k2, k3, k4, k5⟩ := unit_good b u hr (h.rust u (by simp) hr)
      rw [k1]
      obtain ⟨b', R, e1, e2, e3, e4, e5, e6⟩ := ih h' b1
      refine ⟨b', R1 ++ R, e1, by rw [e2, k2]; simp, ?_, ?_, ?_, ?_⟩
      · intro r hm
        simp only [List.mem_append] at hm
        rcases hm with hm | hm
        · have := tiles_mem _ _ _ k3 r hm
          exact ⟨this.2.1, u, by simp, hr, this.1, this.2.2, k4 r hm⟩
        · obtain ⟨h1, v, hv, h2⟩ := e3 r hm
          exact ⟨h1, v, by simp [hv], h2⟩
      · intro v hv hrv x h1 h2
        simp only [List.mem_cons] at hv
        rcases hv with rfl | hv
        · obtain ⟨r, hm, hh⟩ := tiles_cover _ _ _ k3 x h1 h2
          exact ⟨r, by simp [hm], hh⟩
        · obtain ⟨r, hm, hh⟩ := e4 v hv hrv x h1 h2
          exact ⟨r, by simp [hm], hh⟩
      · rw [List.pairwise_append]
        refine ⟨tiles_sorted _ _ _ k3, e5, ?_⟩
        intro a ha c hc
        have := tiles_mem _ _ _ k3 a ha
        obtain ⟨-, v, hv, -, hlo, -⟩ := e3 c hc
        have := hl.1 v hv
        omega
      · rw [e6, k5]; simp [fileNamespaces, hr, List.foldl_append]

theorem moduleIndex_ok (us : List UnitOf) (h : FileOk us) :
    ∃ R m, moduleIndex (us.map encUnit) = .ok { byOffset := R, byName := m } ∧
      (∀ r ∈ R, r.start < r.stop ∧ ∃ u ∈ us, u.1.die.isRustCu = true ∧ u.1.die.off ≤ r.start ∧
        r.stop ≤ endOf u.1 ∧ ∀ x, r.start ≤ x → x < r.stop → r.path = look x (unitModules u.1) [] ∧ NamesModule u.1 r x) ∧
      (∀ u ∈ us, u.1.die.isRustCu = true → ∀ x, u.1.die.off ≤ x → x < endOf u.1 →
        ∃ r ∈ R, r.start ≤ x ∧ x < r.stop) ∧
      (R.Pairwise fun r s => r.stop ≤ s.start) ∧
      m = (fileNamespaces us).foldl (fun m e => m.push e.2 e.1) .empty := by
  obtain ⟨b', R, e1, e2, e3, e4, e5, e6⟩ := file_good us h {}
  refine ⟨R, b'.modules, ?_, e3, e4, e5, e6⟩
  simp only [moduleIndex, e1]
  simp only [List.nil_append] at e2
  have hs : R.mergeSort (fun a b => decide (a.start ≤ b.start)) = R := by
    apply List.mergeSort_of_pairwise
    refine e5.imp_of_mem ?_
    intro a c ha hc hac
    have := (e3 a ha).1
    simp; omega
  rw [e2, hs]

theorem find_range (ix : ModuleIndex) (hs : ix.byOffset.Pairwise fun r s => r.stop ≤ s.start)
    (hne : ∀ r ∈ ix.byOffset, r.start < r.stop) (x : Nat) (r : ModuleRange) (hr : r ∈ ix.byOffset)
    (h1 : r.start ≤ x) (h2 : x < r.stop) : ix.findByOffset x = some r := by
  obtain ⟨A, B, hAB⟩ := List.append_of_mem hr
  have htake : ix.byOffset.take (ix.byOffset.takeWhile fun r => decide (r.start ≤ x)).length =
      ix.byOffset.takeWhile fun r => decide (r.start ≤ x) := by
    rw [← List.prefix_iff_eq_take.1 (List.takeWhile_prefix _)]
  rw [hAB, List.pairwise_append, List.pairwise_cons] at hs
  have hA : ∀ a ∈ A, a.stop ≤ r.start := fun a ha => hs.2.2 a ha r (by simp)
  have hB : ∀ c ∈ B, r.stop ≤ c.start := hs.2.1.1
  have hmem : r ∈ ix.byOffset.takeWhile fun r => decide (r.start ≤ x) := by
    rw [hAB, List.takeWhile_append_of_pos]
    · simp [h1]
    · intro a ha
      have := hA a ha
      have := hne a (by rw [hAB]; simp [ha])
      simp; omega
  simp only [ModuleIndex.findByOffset]
  rw [htake]
  cases hf : (ix.byOffset.takeWhile fun r => decide (r.start ≤ x)).reverse.find?
      fun r => decide (r.start ≤ x) && decide (x < r.stop) with
  | none =>
    rw [List.find?_eq_none] at hf
    have := hf r (by simpa using hmem)
    simp [h1, h2] at this
  | some q =>
    have hp := List.find?_some hf
    have hq : q ∈ ix.byOffset :=
      (List.takeWhile_sublist _).subset (List.mem_reverse.1 (List.mem_of_find?_eq_some hf))
    simp only [Bool.and_eq_true, decide_eq_true_eq] at hp
    rw [hAB] at hq
    simp only [List.mem_append, List.mem_cons] at hq
    rcases hq with hq | rfl | hq
    · have := hA q hq; omega
    · rfl
    · have := hB q hq; omega

theorem find_none (ix : ModuleIndex) (x : Nat)
    (h : ∀ r ∈ ix.byOffset, ¬ (r.start ≤ x ∧ x < r.stop)) : ix.findByOffset x = none := by
  simp only [ModuleIndex.findByOffset, List.find?_eq_none]
  intro r hr
  have := h r (List.mem_of_mem_take (List.mem_reverse.1 hr))
  simp; omega

/-! ### Properties -/

/-- C39: on any well-formed file the module index exists, and every entry of every Rust unit is found
to be in its own module: the names of the namespaces around it, outermost first (a namespace counting
as inside itself). -/
theorem C39_entry_in_its_module (us : List UnitOf) (h : FileOk us) :
    ∃ ix, moduleIndex (us.map encUnit) = .ok ix ∧
      ∀ u ∈ us, u.1.die.isRustCu = true → ∀ e ∈ unitModules u.1, ix.containing e.1 = some e.2 := by
  obtain ⟨R, m, h1, h2, h3, h4, -⟩ := moduleIndex_ok us h
  refine ⟨_, h1, ?_⟩
  intro u hu hr e he
  have hw := h.rust u hu hr
  have hfst : (unitModules u.1).map (·.1) = u.1.entries := by
    rw [entries_die, unitModules, List.map_cons, modulesOfList_fst]
  have hmem : e.1 ∈ u.1.entries := by rw [← hfst]; exact List.mem_map_of_mem he
  have hlo : u.1.die.off ≤ e.1.off := by
    have := hw.order
    rw [entries_die] at this hmem
    rw [List.pairwise_cons] at this
    simp only [List.mem_cons] at hmem
    rcases hmem with h' | h'
    · rw [h']; exact Nat.le_refl _
    · exact Nat.le_of_lt (this.1 _ h')
  obtain ⟨r, hrR, ha, hb⟩ := h3 u hu hr e.1.off hlo (hw.inside _ hmem)
  have hf := find_range { byOffset := R, byName := m } h4 (fun r hr => (h2 r hr).1) e.1.off r hrR ha hb
  simp only [ModuleIndex.containing, hf, Option.map_some]
  obtain ⟨hlt, v, hv, hrv, hva, hvb, hp⟩ := h2 r hrR
  have huv : unitModules v.1 = unitModules u.1 := by
    have hin := hw.inside _ hmem
    obtain ⟨A, B, hAB⟩ := List.append_of_mem hu
    have hl := h.layout
    rw [hAB, List.pairwise_append, List.pairwise_cons] at hl
    rw [hAB] at hv
    simp only [List.mem_append, List.mem_cons] at hv
    rcases hv with hv | rfl | hv
    · have := hl.2.2 v hv u (by simp); omega
    · rfl
    · have := hl.2.1.1 v hv; simp only [endOf] at *; omega
  rw [(hp _ ha hb).1, huv]
  congr 1
  exact look_mem _ _ _ (by rw [hfst]; exact hw.order) e he (Nat.le_refl _) (fun f _ hf => hf)

/-- C39: every offset inside a Rust unit, not only those where an entry starts, is found to be in the
module of the last entry that starts at or before it. -/
theorem C39_offset_in_module_of_last_entry (us : List UnitOf) (h : FileOk us) :
    ∃ ix, moduleIndex (us.map encUnit) = .ok ix ∧
      ∀ u ∈ us, u.1.die.isRustCu = true → ∀ x, u.1.die.off ≤ x → x < endOf u.1 →
        ∀ e ∈ unitModules u.1, e.1.off ≤ x → (∀ f ∈ unitModules u.1, f.1.off ≤ x → f.1.off ≤ e.1.off) →
          ∃ r, ix.findByOffset x = some r ∧ r.path = e.2 := by
  obtain ⟨R, m, h1, h2, h3, h4, -⟩ := moduleIndex_ok us h
  refine ⟨_, h1, ?_⟩
  intro u hu hr x hx1 hx2 e he hex hlast
  have hw := h.rust u hu hr
  have hfst : (unitModules u.1).map (·.1) = u.1.entries := by
    rw [entries_die, unitModules, List.map_cons, modulesOfList_fst]
  obtain ⟨r, hrR, ha, hb⟩ := h3 u hu hr x hx1 hx2
  refine ⟨r, find_range { byOffset := R, byName := m } h4 (fun r hr => (h2 r hr).1) x r hrR ha hb, ?_⟩
  obtain ⟨hlt, v, hv, hrv, hva, hvb, hp⟩ := h2 r hrR
  have huv : unitModules v.1 = unitModules u.1 := by
    obtain ⟨A, B, hAB⟩ := List.append_of_mem hu
    have hl := h.layout
    rw [hAB, List.pairwise_append, List.pairwise_cons] at hl
    rw [hAB] at hv
    simp only [List.mem_append, List.mem_cons] at hv
    rcases hv with hv | rfl | hv
    · have := hl.2.2 v hv u (by simp); omega
    · rfl
    · have := hl.2.1.1 v hv; simp only [endOf] at *; omega
  rw [(hp _ ha hb).1, huv]
  exact look_mem _ _ _ (by rw [hfst]; exact hw.order) e he hex hlast

/-- C39: an offset outside all Rust units has no module. -/
theorem C39_offset_outside_units (us : List UnitOf) (h : FileOk us) :
    ∃ ix, moduleIndex (us.map encUnit) = .ok ix ∧
      ∀ x, (∀ u ∈ us, u.1.die.isRustCu = true → x < u.1.die.off ∨ endOf u.1 ≤ x) →
        ix.findByOffset x = none := by
  obtain ⟨R, m, h1, h2, -, -, -⟩ := moduleIndex_ok us h
  refine ⟨_, h1, ?_⟩
  intro x hx
  apply find_none
  intro r hr
  obtain ⟨-, u, hu, hru, h5, h6, -⟩ := h2 r hr
  have := hx u hu hru
  omega

theorem subtrees_trans (t m k : Tree Die) (hm : m ∈ subtrees t) (hk : k ∈ m.kids) : k ∈ subtrees t := by
  have key : (∀ t : Tree Die, m ∈ subtrees t → k ∈ subtrees t) := by
    intro t
    induction t using Tree.rec (motive_2 := fun ts => m ∈ subtreesList ts → k ∈ subtreesList ts) with
    | node d f s ks ih =>
      intro h
      simp only [subtrees, List.mem_cons] at h ⊢
      rcases h with rfl | h
      · right
        have : ∀ ks : List (Tree Die), k ∈ ks → k ∈ subtreesList ks := by
          intro ks
          induction ks with
          | nil => simp
          | cons a ks ih =>
            intro h
            simp only [List.mem_cons] at h
            simp only [subtreesList, List.mem_append]
            rcases h with rfl | h
            · exact Or.inl (subtrees_self _)
            · exact Or.inr (ih h)
        exact this ks hk
      · exact Or.inr (ih h)
    | nil => rename_i h; simp [subtreesList] at h
    | cons t ts h1 h2 =>
      rename_i h
      simp only [subtreesList, List.mem_append] at h ⊢
      exact h.imp h1 h2
  exact key t hm

theorem IsModule.subtree {t m : Tree Die} {path : List Str} (h : IsModule t m path) : m ∈ subtrees t := by
  induction h with
  | root => exact subtrees_self _
  | sub h hk ht ih => exact subtrees_trans _ _ _ ih hk

theorem mem_placesList (p : List Str × Die) (ks : List (Tree Die)) (k : Tree Die) (hk : k ∈ ks) (e : Die × (List Str × Die))
    (he : e ∈ placesOf p k) : e ∈ placesOfList p ks := by
  induction ks with
  | nil => simp at hk
  | cons a ks ih =>
    simp only [List.mem_cons] at hk
    simp only [placesOfList, List.mem_append]
    rcases hk with rfl | hk
    · exact Or.inl he
    · exact Or.inr (ih hk)

theorem IsModule.places {t m : Tree Die} {path : List Str} (h : IsModule t m path) (e : Die × (List Str × Die))
    (he : e ∈ placesOfList (path, m.die) m.kids) : e ∈ unitPlaces t := by
  induction h generalizing e with
  | root => exact List.mem_cons_of_mem _ he
  | sub h hk ht ih =>
    rename_i m k path
    apply ih
    apply mem_placesList _ _ _ hk
    cases k with
    | node d f s ks =>
      simp only [Tree.die, Tree.kids] at he ht
      simp only [placesOf, ht, if_true, List.mem_cons]
      exact Or.inr he

theorem mem_placesOfKid {p : List Str × Die} {ks : List (Tree Die)} {e : Die × (List Str × Die)} (h : e ∈ placesOfList p ks) : ∃ k ∈ ks, e ∈ placesOf p k := by
  induction ks with
  | nil => simp [placesOfList] at h
  | cons a ks ih =>
    simp only [placesOfList, List.mem_append] at h
    rcases h with h | h
    · exact ⟨a, List.mem_cons_self .., h⟩
    · obtain ⟨k, hk, h⟩ := ih h
      exact ⟨k, List.mem_cons_of_mem _ hk, h⟩

/-- The entry is that of the module or directly in it. -/
def Within (m : Tree Die) (y : Die) : Prop := y = m.die ∨ ∃ k ∈ m.kids, k.die.tag ≠ .namespace ∧ y ∈ k.entries

theorem places_within {t : Tree Die} : ∀ (n : Nat) (m : Tree Die), sizeOf m ≤ n → ∀ path, IsModule t m path → ∀ e ∈ placesOfList (path, m.die) m.kids,
    ∃ m' path', IsModule t m' path' ∧ e.2 = (path', m'.die) ∧ Within m' e.1 := by
  intro n
  induction n with
  | zero => intro m hm; cases m; simp at hm
  | succ n ih =>
    intro m hm path hmod e he
    obtain ⟨k, hk, he⟩ := mem_placesOfKid he
    have hsz : sizeOf k ≤ n := by
      have h1 := List.sizeOf_lt_of_mem hk
      have h2 : sizeOf m.kids < sizeOf m := by cases m; simp only [Tree.kids, Tree.node.sizeOf_spec]; omega
      omega
    obtain ⟨d, f, s, ks⟩ := k
    simp only [placesOf] at he
    by_cases ht : d.tag = .namespace
    · rw [if_pos ht] at he
      have hsub : IsModule t (.node d f s ks) (path ++ [nameOf d]) := IsModule.sub hmod hk ht
      rcases List.mem_cons.1 he with rfl | he
      · exact ⟨_, _, hsub, rfl, Or.inl rfl⟩
      · exact ih _ hsz _ hsub e he
    · rw [if_neg ht] at he
      refine ⟨m, path, hmod, ?_, Or.inr ⟨_, hk, ht, ?_⟩⟩
      · rcases List.mem_cons.1 he with rfl | he
        · rfl
        · obtain ⟨q, -, rfl⟩ := List.mem_map.1 he
          rfl
      · rw [entries_die]
        rcases List.mem_cons.1 he with rfl | he
        · exact List.mem_cons_self ..
        · obtain ⟨q, hq, rfl⟩ := List.mem_map.1 he
          exact List.mem_cons_of_mem _ hq

mutual
theorem subtrees_sublist (t m : Tree Die) (h : m ∈ subtrees t) : m.entries.Sublist t.entries := by
  match t with
  | .node d f s ks =>
    simp only [subtrees, List.mem_cons] at h
    rcases h with rfl | h
    · exact List.Sublist.refl _
    · simp only [Tree.entries]
      exact List.Sublist.cons _ (subtreesList_sublist ks m h)
theorem subtreesList_sublist (ts : List (Tree Die)) (m : Tree Die) (h : m ∈ subtreesList ts) : m.entries.Sublist (entriesList ts) := by
  match ts with
  | [] => simp [subtreesList] at h
  | t :: ts =>
    simp only [subtreesList, List.mem_append] at h
    simp only [entriesList]
    rcases h with h | h
    · exact (subtrees_sublist t m h).trans (List.sublist_append_left ..)
    · exact (subtreesList_sublist ts m h).trans (List.sublist_append_right ..)
end

theorem subtrees_below {t m : Tree Die} (hw : WellFormed t) (h : m ∈ subtrees t) : ∀ d ∈ entriesList m.kids, m.die.off < d.off := by
  have := hw.order.sublist (subtrees_sublist t m h)
  rw [entries_die, List.pairwise_cons] at this
  exact this.1

theorem entriesList_kid {ks : List (Tree Die)} {k : Tree Die} (hk : k ∈ ks) : ∀ d ∈ k.entries, d ∈ entriesList ks := by
  induction ks with
  | nil => simp at hk
  | cons a ks ih =>
    intro d hd
    simp only [entriesList, List.mem_append]
    rcases List.mem_cons.1 hk with rfl | hk
    · exact Or.inl hd
    · exact Or.inr (ih hk d hd)

/-- Entries with the same offset are the same. -/
theorem subtrees_inj {t a b : Tree Die} (hw : WellFormed t) (ha : a ∈ subtrees t) (hb : b ∈ subtrees t) (h : a.die = b.die) : a = b := by
  have hp : ((subtrees t).map Tree.die).Pairwise fun a b => a.off < b.off := by rw [subtrees_die]; exact hw.order
  rw [List.pairwise_map] at hp
  have hp := List.pairwise_iff_getElem.1 hp
  obtain ⟨i, hi, rfl⟩ := List.getElem_of_mem ha
  obtain ⟨j, hj, rfl⟩ := List.getElem_of_mem hb
  rcases Nat.lt_trichotomy i j with h' | h' | h'
  · have := hp i j hi hj h'; rw [h] at this; omega
  · subst h'; rfl
  · have := hp j i hj hi h'; rw [h] at this; omega

/-- What a range names for an entry of a module that is followed by something else (or of the unit). -/
theorem names_module {t m k : Tree Die} {path : List Str} (hw : WellFormed t) (hm : IsModule t m path)
    (hk : k ∈ m.kids) (ht : k.die.tag ≠ .namespace) (d : Die) (hf : m = t ∨ Followed t m d) (hd : d ∈ k.entries) (r : ModuleRange)
    (hr : NamesModule t r d.off) : d ∈ t.entries ∧ look d.off (unitModules t) [] = path ∧ r.die = m.die := by
  have hmem : (d, (path, m.die)) ∈ unitPlaces t := by
    apply hm.places
    apply mem_placesList _ _ _ hk
    cases k with
    | node d' f s ks =>
      simp only [Tree.die] at ht
      simp only [placesOf, ht, if_false]
      have : (Tree.node d' f s ks).entries.map (fun e => (e, (path, m.die))) =
          (d', (path, m.die)) :: (entriesList ks).map fun e => (e, (path, m.die)) := by simp [Tree.entries]
      rw [← this]
      exact List.mem_map_of_mem (f := fun e => (e, (path, m.die))) hd
  have hfst : (unitPlaces t).map (·.1) = t.entries := by
    rw [entries_die, unitPlaces, List.map_cons, placesOfList_fst]
  have hlook : look d.off (unitPlaces t) ([], t.die) = (path, m.die) :=
    look_mem _ _ _ (by rw [hfst]; exact hw.order) _ hmem (Nat.le_refl _) (fun f _ hf => hf)
  refine ⟨by rw [← hfst]; exact List.mem_map_of_mem hmem, ?_, ?_⟩
  · have : look d.off (unitModules t) [] = (look d.off (unitPlaces t) ([], t.die)).1 := by
      rw [← look_map (fun p : List Str × Die => p.1)]
      simp only [unitPlaces, List.map_cons, placesOfList_modules, unitModules]
    rw [this, hlook]
  · rw [NamesModule, hlook] at hr
    rcases hr with hr | ⟨hr, hall⟩
    · exact hr
    · rcases hf with rfl | ⟨y, hy, hlt, hno⟩
      · exact hr
      · exfalso
        have hall := hall y.off (Nat.le_of_lt hlt)
        rw [← hfst] at hy
        obtain ⟨⟨y', pl⟩, hy', rfl⟩ := List.mem_map.1 hy
        have hly : look y'.off (unitPlaces t) ([], t.die) = pl :=
          look_mem _ _ _ (by rw [hfst]; exact hw.order) _ hy' (Nat.le_refl _) (fun f _ hf => hf)
        rw [hly] at hall
        subst hall
        have hin : Within m y' := by
          rcases List.mem_cons.1 hy' with h | h
          · have hmt : m = t := subtrees_inj hw hm.subtree (subtrees_self t) (congrArg (fun e => e.2.2) h)
            exact Or.inl ((congrArg Prod.fst h).trans (by rw [hmt]))
          · obtain ⟨m', path', h1, h2, h3⟩ := places_within _ t (Nat.le_refl _) [] IsModule.root _ h
            have hmm : m' = m := subtrees_inj hw h1.subtree hm.subtree (congrArg Prod.snd h2).symm
            subst hmm
            exact h3
        rcases hin with rfl | ⟨k', hk', ht', hy''⟩
        · have := subtrees_below hw hm.subtree d (entriesList_kid hk d hd)
          simp only at hlt
          omega
        · exact hno k' hk' ht' hy''

/-- C39: what is found for anything in a module, outside its submodules, is the entry of that module, provided something comes
after it in the unit that is in another module (and always for what is in no namespace). -/
theorem C39_module_entry_partial (us : List UnitOf) (h : FileOk us) :
    ∃ ix, moduleIndex (us.map encUnit) = .ok ix ∧
      ∀ u ∈ us, u.1.die.isRustCu = true → ∀ m path, IsModule u.1 m path →
        ∀ k ∈ m.kids, k.die.tag ≠ .namespace → ∀ d ∈ k.entries, (m = u.1 ∨ Followed u.1 m d) →
          ∃ r, ix.findByOffset d.off = some r ∧ r.path = path ∧ r.die = m.die := by
  obtain ⟨R, mm, h1, h2, h3, h4, -⟩ := moduleIndex_ok us h
  refine ⟨_, h1, ?_⟩
  intro u hu hr m path hm k hk ht d hd hf
  have hw := h.rust u hu hr
  have hmem : d ∈ u.1.entries := (names_module hw hm hk ht d hf hd ⟨[], (look d.off (unitPlaces u.1) ([], u.1.die)).2, 0, 0⟩ (Or.inl rfl)).1
  have hlo : u.1.die.off ≤ d.off := by
    have := hw.order
    rw [entries_die] at this hmem
    rw [List.pairwise_cons] at this
    simp only [List.mem_cons] at hmem
    rcases hmem with h' | h'
    · rw [h']; exact Nat.le_refl _
    · exact Nat.le_of_lt (this.1 _ h')
  obtain ⟨r, hrR, ha, hb⟩ := h3 u hu hr d.off hlo (hw.inside _ hmem)
  refine ⟨r, find_range { byOffset := R, byName := mm } h4 (fun r hr => (h2 r hr).1) d.off r hrR ha hb, ?_⟩
  obtain ⟨hlt, v, hv, hrv, hva, hvb, hp⟩ := h2 r hrR
  have huv : v.1 = u.1 := by
    have hin := hw.inside _ hmem
    obtain ⟨A, B, hAB⟩ := List.append_of_mem hu
    have hl := h.layout
    rw [hAB, List.pairwise_append, List.pairwise_cons] at hl
    rw [hAB] at hv
    simp only [List.mem_append, List.mem_cons] at hv
    rcases hv with hv | rfl | hv
    · have := hl.2.2 v hv u (by simp); omega
    · rfl
    · have := hl.2.1.1 v hv; simp only [endOf] at *; omega
  obtain ⟨p1, p2⟩ := hp _ ha hb
  rw [huv] at p1 p2
  obtain ⟨-, a, b⟩ := names_module hw hm hk ht d hf hd r p2
  exact ⟨p1.trans a, b⟩

/-! ### Looking a module up by path -/

/-- The entries listed for a module path. -/
def Module.at (p : List Str) (m : Module) : List Die := ((m.find p).map Module.entries).getD []

theorem find_empty (s : Str) (p : List Str) : Module.find (s :: p) .empty = none := rfl

theorem find_putWith (f : Module → Module) (s s' : Str) (ms : List (Str × Module)) :
    (putWith f s ms).find? (·.1 == s') =
      if s' = s then some (s, f (((ms.find? (·.1 == s)).map (·.2)).getD .empty))
      else ms.find? (·.1 == s') := by
  induction ms with
  | nil =>
    by_cases h : s' = s
    · subst h; simp [putWith]
    · have : ¬ s = s' := fun e => h e.symm
      simp [putWith, h, this]
  | cons k ms ih =>
    obtain ⟨k, m⟩ := k
    simp only [putWith]
    by_cases hk : k = s
    · subst hk
      by_cases h : s' = k
      · subst h; simp
      · have : ¬ k = s' := fun e => h e.symm
        simp [h, this]
    · rw [if_neg hk]
      by_cases h : s' = s
      · subst h
        simp only [List.find?_cons]
        have : (k == s') = false := by simp [hk]
        simp only [this]
        rw [ih]; simp
      · simp only [List.find?_cons]
        by_cases hks : k = s'
        · subst hks; simp [h]
        · have : (k == s') = false := by simp [hks]
          simp only [this]
          rw [ih, if_neg h, if_neg h]

theorem push_at (q p : List Str) (d : Die) (m : Module) :
    (m.push q d).at p = m.at p ++ (if q = p then [d] else []) ∧
      (((m.push q d).find p).isSome = true ↔ (m.find p).isSome = true ∨ p <+: q) := by
  induction q generalizing p m with
  | nil =>
    cases p with
    | nil => simp [Module.push, Module.at, Module.find, Module.entries]
    | cons s p => simp [Module.push, Module.at, Module.find, Module.modules]
  | cons s q ih =>
    cases p with
    | nil => simp [Module.push, Module.at, Module.find, Module.entries]
    | cons s' p =>
      simp only [Module.push, Module.at, Module.find, Module.modules, find_putWith]
      by_cases h : s' = s
      · subst h
        simp only [if_true]
        have := ih p (((m.modules.find? (·.1 == s')).map (·.2)).getD .empty)
        simp only [Module.modules, Module.at] at this
        cases hf : m.modules.find? (·.1 == s') with
        | none =>
          cases m with
          | mk ms es =>
            simp only [Module.modules] at *
            simp only [hf, Option.map_none, Option.getD_none] at this ⊢
            cases p with
            | nil =>
              simp only [Module.find, Option.map_some, Option.getD_some] at this ⊢
              refine ⟨?_, by simp⟩
              rw [this.1]; simp [Module.empty, Module.entries]
            | cons a p =>
              rw [find_empty] at this
              refine ⟨?_, ?_⟩
              · rw [this.1]; simp
              · rw [this.2]; simp
        | some km =>
          obtain ⟨k, sub⟩ := km
          cases m with
          | mk ms es =>
            simp only [Module.modules] at *
            simp only [hf, Option.map_some, Option.getD_some] at this ⊢
            refine ⟨?_, ?_⟩
            · rw [this.1]; simp
            · rw [this.2]; simp
      · have h' : ¬ s = s' := fun e => h e.symm
        cases m with
        | mk ms es =>
        simp [h, h']

theorem pushes_at (N : List (Die × List Str)) (p : List Str) (m : Module) :
    (N.foldl (fun m e => m.push e.2 e.1) m).at p = m.at p ++ (N.filter fun e => decide (e.2 = p)).map (·.1) ∧
      (((N.foldl (fun m e => m.push e.2 e.1) m).find p).isSome = true ↔
        (m.find p).isSome = true ∨ ∃ e ∈ N, p <+: e.2) := by
  induction N generalizing m with
  | nil => simp
  | cons e N ih =>
    simp only [List.foldl_cons]
    have h1 := ih (m.push e.2 e.1)
    have h2 := push_at e.2 p e.1 m
    refine ⟨?_, ?_⟩
    · rw [h1.1, h2.1, List.append_assoc]
      congr 1
      by_cases h : e.2 = p <;> simp [h]
    · rw [h1.2, h2.2]
      simp [or_assoc]

mutual
theorem namespacesOf_closed (pre : List Str) (t : Tree Die) (e : Die × List Str)
    (he : e ∈ namespacesOf pre t) (p : List Str) (hp : pre <+: p) (hne : p ≠ pre) (hpe : p <+: e.2) :
    ∃ f ∈ namespacesOf pre t, f.2 = p := by
  match t with
  | .node d fl s ks =>
    simp only [namespacesOf] at he ⊢
    by_cases ht : d.tag = .namespace
    · rw [if_pos ht] at he ⊢
      by_cases hq : p = pre ++ [nameOf d]
      · exact ⟨_, List.mem_cons_self .., hq.symm⟩
      · simp only [List.mem_cons] at he
        have key : ∀ e' : Die × List Str, pre ++ [nameOf d] <+: e'.2 → p <+: e'.2 → pre ++ [nameOf d] <+: p := by
          intro e' h1 h2
          apply List.prefix_of_prefix_length_le h1 h2
          obtain ⟨r, rfl⟩ := hp
          cases r with
          | nil => simp at hne
          | cons a r => simp
        rcases he with rfl | he
        · have := key _ (List.prefix_refl _) hpe
          exact absurd (List.IsPrefix.eq_of_length_le this hpe.length_le).symm hq
        · have := key _ (namespacesOfList_prefix _ _ _ he) hpe
          obtain ⟨f, hf, hfp⟩ := namespacesOfList_closed (pre ++ [nameOf d]) ks e he p this hq hpe
          exact ⟨f, by simp [hf], hfp⟩
    · rw [if_neg ht] at he; simp at he
theorem namespacesOfList_closed (pre : List Str) (ts : List (Tree Die)) (e : Die × List Str)
    (he : e ∈ namespacesOfList pre ts) (p : List Str) (hp : pre <+: p) (hne : p ≠ pre) (hpe : p <+: e.2) :
    ∃ f ∈ namespacesOfList pre ts, f.2 = p := by
  match ts with
  | [] => simp [namespacesOfList] at he
  | t :: ts =>
    simp only [namespacesOfList, List.mem_append] at he ⊢
    rcases he with he | he
    · obtain ⟨f, hf, e⟩ := namespacesOf_closed pre t e he p hp hne hpe
      exact ⟨f, Or.inl hf, e⟩
    · obtain ⟨f, hf, e⟩ := namespacesOfList_closed pre ts e he p hp hne hpe
      exact ⟨f, Or.inr hf, e⟩
theorem namespacesOf_prefix (pre : List Str) (t : Tree Die) (e : Die × List Str)
    (he : e ∈ namespacesOf pre t) : pre <+: e.2 := by
  match t with
  | .node d fl s ks =>
    simp only [namespacesOf] at he
    by_cases ht : d.tag = .namespace
    · rw [if_pos ht] at he
      simp only [List.mem_cons] at he
      rcases he with rfl | he
      · exact List.prefix_append _ _
      · exact (List.prefix_append _ _).trans (namespacesOfList_prefix _ _ _ he)
    · rw [if_neg ht] at he; simp at he
theorem namespacesOfList_prefix (pre : List Str) (ts : List (Tree Die)) (e : Die × List Str)
    (he : e ∈ namespacesOfList pre ts) : pre <+: e.2 := by
  match ts with
  | [] => simp [namespacesOfList] at he
  | t :: ts =>
    simp only [namespacesOfList, List.mem_append] at he
    rcases he with he | he
    · exact namespacesOf_prefix pre t e he
    · exact namespacesOfList_prefix pre ts e he
end

/-- C39: looking a (non-empty) module path up lists the namespace entries with exactly that path, of
all Rust units, in document order; there is no result exactly when the file has no such namespace. -/
theorem C39_find_by_path (us : List UnitOf) (h : FileOk us) :
    ∃ ix, moduleIndex (us.map encUnit) = .ok ix ∧
      ∀ p, p ≠ [] →
        (ix.findByPath p).map Module.entries =
          (let ds := ((fileNamespaces us).filter fun e => decide (e.2 = p)).map (·.1)
           if ds = [] then none else some ds) := by
  obtain ⟨R, m, h1, -, -, -, h5⟩ := moduleIndex_ok us h
  refine ⟨_, h1, ?_⟩
  intro p hp
  simp only [ModuleIndex.findByPath]
  have hat := pushes_at (fileNamespaces us) p .empty
  rw [← h5] at hat
  have he : Module.empty.at p = [] := by cases p with
    | nil => exact absurd rfl hp
    | cons s p => rfl
  have hf : (Module.empty.find p).isSome = false := by cases p with
    | nil => exact absurd rfl hp
    | cons s p => rfl
  rw [he, hf] at hat
  simp only [List.nil_append, Bool.false_eq_true, false_or] at hat
  cases hr : m.find p with
  | none =>
    have : ¬ ∃ e ∈ fileNamespaces us, p <+: e.2 := by rw [← hat.2, hr]; simp
    have hnil : ((fileNamespaces us).filter fun e => decide (e.2 = p)) = [] := by
      rw [List.filter_eq_nil_iff]
      intro e he' hep
      simp only [decide_eq_true_eq] at hep
      exact this ⟨e, he', by rw [hep]; exact List.prefix_refl _⟩
    simp [hnil]
  | some r =>
    have : ∃ e ∈ fileNamespaces us, p <+: e.2 := by rw [← hat.2, hr]; simp
    obtain ⟨e, he', hpe⟩ := this
    have hex : ∃ f ∈ fileNamespaces us, f.2 = p := by
      simp only [fileNamespaces, List.mem_flatMap] at he' ⊢
      obtain ⟨u, hu, hm⟩ := he'
      by_cases hru : u.1.die.isRustCu = true
      · rw [if_pos hru] at hm
        obtain ⟨f, hf1, hf2⟩ := namespacesOfList_closed [] _ e hm p (List.nil_prefix) hp hpe
        exact ⟨f, ⟨u, hu, by rw [if_pos hru]; exact hf1⟩, hf2⟩
      · rw [if_neg hru] at hm; simp at hm
    have hne : ((fileNamespaces us).filter fun e => decide (e.2 = p)).map (·.1) ≠ [] := by
      obtain ⟨f, hf1, hf2⟩ := hex
      have : f ∈ (fileNamespaces us).filter fun e => decide (e.2 = p) := by simp [hf1, hf2]
      intro hn
      rw [List.map_eq_nil_iff] at hn
      rw [hn] at this; simp at this
    simp only [Option.map_some, if_neg hne, Option.some.injEq]
    rw [← hat.1]
    simp [Module.at, hr]

/-- C39 fails for a namespace without a readable name: the whole index panics, whatever else the
file contains before or after. -/
theorem C39_unnamed_namespace_panics (cu ns : Die) (f f' : Bool) (s s' : Bool) (ks ks' : List (Tree Die))
    (n : Nat) (us : List UnitOf) (hc : cu.tag = .compileUnit) (hr : cu.isRustCu = true)
    (ht : ns.tag = .namespace) (hn : ∀ nm, ns.attr .name ≠ some (.str nm)) :
    moduleIndex (((.node cu f s (.node ns f' s' ks :: ks') , n) :: us).map encUnit) = .panic := by
  have hp : ∀ b, (visitor.enter b ns) = (b, .panic) := by
    intro b
    simp only [visitor, ht, if_true]
    cases ha : ns.attr .name with
    | none => simp [Die.stringAttrOpt, ha]
    | some v => cases v <;> simp_all [Die.stringAttrOpt]
  have hw : ∃ b, walkUnit (fun d => decide (d.tag = .compileUnit)) cuVisitor visitor {}
      (encUnit (.node cu f s (.node ns f' s' ks :: ks'), n)) = (b, .panic) := by
    rw [encUnit, C42_walk_unit_follows_tree _ _ _ _ _ _ (by simp [Tree.die, hc])]
    have he : cuVisitor.enter {} cu =
        ({ stack := [([], cu, cu.off)], lastSeen := cu.off }, .walk) := by simp [cuVisitor, hr]
    simp only [visitRoot, he, visitForest, visitTree, hp]
    exact ⟨_, rfl⟩
  obtain ⟨b, hb⟩ := hw
  simp only [moduleIndex, List.map_cons, walkFile, hb]

/-! ### A concrete file -/

/-- Two units: `a { b {} f }` and C code, then `a { c }`. -/
def demoFile : List UnitOf :=
  let ns (off : Nat) (nm : Str) (ks : List (Tree Die)) : Tree Die :=
    .node { off := off, tag := .namespace, attrs := [(.name, .str nm)] } true false ks
  let leaf (off : Nat) : Tree Die := .node { off := off, tag := .subprogram } false false []
  let unit (off len : Nat) (rust : Bool) (ks : List (Tree Die)) : UnitOf :=
    (.node { off := off, tag := .compileUnit, attrs := [(.language, .lang rust)], unitLength := len } true false ks, 1)
  [unit 10 50 true [ns 20 (chars! "a") [ns 30 (chars! "b") [leaf 35], leaf 40], leaf 50],
   unit 70 20 false [ns 80 (chars! "x") []],
   unit 100 30 true [ns 110 (chars! "a") [leaf 120]]]

/-- The hypotheses of the C39 theorems hold of the concrete file. -/
theorem demoFile_ok : FileOk demoFile := by
  refine ⟨by decide, ?_, by decide⟩
  have w : ∀ t : Tree Die, t.die.tag = .compileUnit → (t.entries.Pairwise fun a b => a.off < b.off) →
      (∀ d ∈ t.entries, d.off < t.die.off + t.die.unitLength) →
      (∀ d ∈ t.entries, d.tag = .namespace → nameOf d ≠ []) → WellFormed t := by
    intro t h1 h2 h3 h4
    refine ⟨h1, h2, h3, ?_⟩
    intro d hd ht
    have := h4 d hd ht
    simp only [nameOf] at this
    split at this
    · exact ⟨_, by assumption⟩
    · exact absurd rfl this
  intro u hu _
  simp only [demoFile, List.mem_cons, List.not_mem_nil, or_false] at hu
  rcases hu with rfl | rfl | rfl <;> exact w _ rfl (by decide) (by decide) (by decide)

/-- What the theorems say about it: `f` at 40 is in `a`, the function at 35 in `a::b`, the one at 50 in
the root module, 120 in `a`; `a` is listed from both Rust units; 85 (C code) has no module. -/
example : ∃ ix, moduleIndex (demoFile.map encUnit) = .ok ix ∧
    ix.containing { off := 40, tag := .subprogram } = some [chars! "a"] ∧
    ix.containing { off := 35, tag := .subprogram } = some [chars! "a", chars! "b"] ∧
    ix.containing { off := 50, tag := .subprogram } = some [] := by
  obtain ⟨ix, h1, h2⟩ := C39_entry_in_its_module demoFile demoFile_ok
  refine ⟨ix, h1, ?_, ?_, ?_⟩
  · exact h2 _ (List.mem_cons_self ..) rfl ({ off := 40, tag := .subprogram }, [chars! "a"]) (by decide)
  · exact h2 _ (List.mem_cons_self ..) rfl ({ off := 35, tag := .subprogram }, [chars! "a", chars! "b"]) (by decide)
  · exact h2 _ (List.mem_cons_self ..) rfl ({ off := 50, tag := .subprogram }, []) (by decide)

/-- The entry of the module of the function at 40 is `a` at 20, as the theorem says. -/
example : ∃ ix r, moduleIndex (demoFile.map encUnit) = .ok ix ∧ ix.findByOffset 40 = some r ∧ r.die.off = 20 := by
  obtain ⟨ix, h1, h2⟩ := C39_module_entry_partial demoFile demoFile_ok
  obtain ⟨u, hu⟩ : ∃ u, demoFile[0]? = some u := ⟨_, rfl⟩
  have hm : u ∈ demoFile := List.mem_of_getElem? hu
  cases hu
  obtain ⟨r, hr, -, hd⟩ := h2 _ hm rfl _ _ (.sub .root (List.mem_cons_self ..) rfl)
    _ (List.mem_cons_of_mem _ (List.mem_cons_self ..)) (by decide) { off := 40, tag := .subprogram } (by decide) (Or.inr ⟨{ off := 50, tag := .subprogram }, by decide, by decide, by decide⟩)
  exact ⟨ix, r, h1, hr, by rw [hd]; rfl⟩

/-- C39 fails for the entry of the last module of a unit: for the function at 120, directly in `a` at 110, the path found is `a` but
the entry found is that of the unit, at 100 (nothing in the unit comes after `a`, so it is not closed before the unit is). -/
theorem C39_last_module_entry_fails : ∃ ix r, moduleIndex (demoFile.map encUnit) = .ok ix ∧ ix.findByOffset 120 = some r ∧
    r.path = [chars! "a"] ∧ r.die.off = 100 := by
  obtain ⟨b, hb⟩ : ∃ b, walkFile (fun d => decide (d.tag = .compileUnit)) cuVisitor visitor {} (demoFile.map encUnit) = (b, .ok) := ⟨_, rfl⟩
  have hr : b.ranges = (walkFile (fun d => decide (d.tag = .compileUnit)) cuVisitor visitor {} (demoFile.map encUnit)).1.ranges := by rw [hb]
  have hs : b.ranges.mergeSort (fun a b => decide (a.start ≤ b.start)) = b.ranges := by
    apply List.mergeSort_of_pairwise
    rw [hr]
    with_unfolding_all decide
  refine ⟨{ byOffset := b.ranges, byName := b.modules },
    { path := [chars! "a"], die := (demoFile.map fun u => u.1.die)[2], start := 110, stop := 130 }, ?_, ?_, rfl, rfl⟩
  · simp only [moduleIndex, hb, hs]
  · simp only [ModuleIndex.findByOffset]
    rw [hr]
    with_unfolding_all rfl

example : ∃ ix, moduleIndex (demoFile.map encUnit) = .ok ix ∧
    ((ix.findByPath [chars! "a"]).map Module.entries).map (·.map Die.off) = some [20, 110] ∧
    (ix.findByPath [chars! "x"]).map Module.entries = none := by
  obtain ⟨ix, h1, h2⟩ := C39_find_by_path demoFile demoFile_ok
  refine ⟨ix, h1, ?_, ?_⟩
  · rw [h2 _ (by decide)]; decide
  · rw [h2 _ (by decide)]; decide

end Rudy.Modules
