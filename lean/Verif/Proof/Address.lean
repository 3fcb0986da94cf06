import Verif.Model.Address
/- Helper lemmas for Verif.Props.Address. -/
namespace Rudy.Address

/-- All infos of a tree in order. -/
def Tree.items : Tree → List FnInfo
  | .nil => []
  | .node i _ _ _ l r => l.items ++ i :: r.items

/-- Search-tree and max-end invariant. -/
def Tree.WF (absolute : Bool) : Tree → Prop
  | .nil => True
  | .node i s e m l r =>
    (s, e) = i.range absolute ∧
    (∀ x ∈ (Tree.node i s e m l r).items, (x.range absolute).2 ≤ m) ∧
    (∀ x ∈ r.items, s ≤ (x.range absolute).1) ∧
    l.WF absolute ∧ r.WF absolute

theorem joinMax_ge (t : Tree) (m : Nat) : m ≤ t.joinMax m := by
  cases t <;> simp [Tree.joinMax]; omega

theorem joinMax_mono (t : Tree) (absolute : Bool) (h : t.WF absolute) (m : Nat) :
    ∀ x ∈ t.items, (x.range absolute).2 ≤ t.joinMax m := by
  intro x hx
  cases t with
  | nil => simp [Tree.items] at hx
  | node i s e cm l r =>
    have := h.2.1 x hx
    simp [Tree.joinMax]; omega

theorem split_at {α} (l : List α) (k : Nat) (x : α) (h : l[k]? = some x) :
    l = l.take k ++ x :: l.drop (k + 1) := by
  have ⟨h1, h2⟩ := List.getElem?_eq_some_iff.1 h
  subst h2
  simp

theorem build_items (absolute : Bool) (l : List FnInfo) : (build absolute l).items = l := by
  fun_induction build absolute l with
  | case1 l h =>
    have := List.getElem?_eq_none_iff.1 h
    have : l = [] := by
      cases l with
      | nil => rfl
      | cons a t => simp at this; omega
    simp [Tree.items, this]
  | case2 l m h ihl ihr =>
    simp only [Tree.mk, Tree.items, ihl, ihr]
    exact (split_at l _ m h).symm

theorem build_wf (absolute : Bool) (l : List FnInfo)
    (hs : SortedBy (fun f => (f.range absolute).1) l) : (build absolute l).WF absolute := by
  fun_induction build absolute l with
  | case1 l h => simp [Tree.WF]
  | case2 l m h ihl ihr =>
    have hsp := split_at l _ m h
    have hs' := hs
    rw [hsp] at hs'
    unfold SortedBy at hs'
    rw [List.pairwise_append, List.pairwise_cons] at hs'
    obtain ⟨p1, ⟨p2, p3⟩, p4⟩ := hs'
    have wl := ihl p1
    have wr := ihr p3
    refine ⟨rfl, ?_, ?_, wl, wr⟩
    · intro x hx
      simp only [Tree.items, List.mem_append, List.mem_cons] at hx
      have g1 := joinMax_ge (build absolute (l.take (l.length / 2))) (m.range absolute).2
      have g2 := joinMax_ge (build absolute (l.drop (l.length / 2 + 1)))
        ((build absolute (l.take (l.length / 2))).joinMax (m.range absolute).2)
      rcases hx with hx | hx | hx
      · exact Nat.le_trans (joinMax_mono _ absolute wl (m.range absolute).2 x hx) g2
      · subst hx; exact Nat.le_trans g1 g2
      · exact joinMax_mono _ absolute wr _ x hx
    · intro x hx
      rw [build_items] at hx
      exact p2 x hx

theorem reaches_false (t : Tree) (absolute : Bool) (h : t.WF absolute) (a : Nat)
    (hr : t.reaches a = false) : ∀ x ∈ t.items, (x.range absolute).2 < a := by
  cases t with
  | nil => simp [Tree.items]
  | node i s e m l r =>
    intro x hx
    have := h.2.1 x hx
    simp [Tree.reaches] at hr
    omega

/-- Specification helper: containment in the chosen range. -/
abbrev inRange (absolute : Bool) (a : Nat) (f : FnInfo) : Bool :=
  decide ((f.range absolute).1 ≤ a ∧ a < (f.range absolute).2)

abbrev overlapping (absolute : Bool) (qs qe : Nat) (f : FnInfo) : Bool :=
  decide ((f.range absolute).1 < qe ∧ qs < (f.range absolute).2)

theorem filter_nil_of {α} (p : α → Bool) (l : List α) (h : ∀ x ∈ l, p x = false) :
    l.filter p = [] := by
  rw [List.filter_eq_nil_iff]; intro x hx; simp [h x hx]

theorem perm_swap3 {α} (res a b c : List α) :
    (res ++ b ++ a ++ c).Perm (res ++ (a ++ (b ++ c))) := by
  simp only [List.append_assoc]
  apply List.Perm.append_left
  rw [← List.append_assoc, ← List.append_assoc]
  exact List.Perm.append_right _ List.perm_append_comm

theorem queryRec_perm (absolute : Bool) (a : Nat) (t : Tree) (h : t.WF absolute)
    (res : List FnInfo) :
    (queryRec a t res).Perm (res ++ t.items.filter (inRange absolute a)) := by
  induction t generalizing res with
  | nil => simp [queryRec, Tree.items]
  | node i s e m l r ihl ihr =>
    obtain ⟨hr, hm, hb, wl, wr⟩ := h
    have hs : s = (i.range absolute).1 := congrArg Prod.fst hr
    have he : e = (i.range absolute).2 := congrArg Prod.snd hr
    have e1 : (if a ≥ s ∧ a < e then res ++ [i] else res)
        = res ++ [i].filter (inRange absolute a) := by
      by_cases hc : a ≥ s ∧ a < e
      · rw [if_pos hc]; subst hs he
        have : inRange absolute a i = true := by simpa [inRange] using hc
        simp [this]
      · rw [if_neg hc]; subst hs he
        have : inRange absolute a i = false := by simpa [inRange] using hc
        simp [this]
    have e2 : ∀ res', (if l.reaches a then queryRec a l res' else res').Perm
        (res' ++ l.items.filter (inRange absolute a)) := by
      intro res'
      by_cases hc : l.reaches a = true
      · rw [if_pos hc]; exact ihl wl res'
      · rw [if_neg hc, filter_nil_of]; simp
        intro x hx
        have := reaches_false l absolute wl a (by simpa using hc) x hx
        simp [inRange]; omega
    have e3 : ∀ res', (if r.reaches a ∧ a ≥ s then
          if a ≥ s ∨ r.reaches a then
            if r.reaches a then queryRec a r res' else res'
          else res'
        else res').Perm (res' ++ r.items.filter (inRange absolute a)) := by
      intro res'
      by_cases hc : r.reaches a = true ∧ a ≥ s
      · rw [if_pos hc, if_pos (Or.inl hc.2), if_pos hc.1]; exact ihr wr res'
      · rw [if_neg hc, filter_nil_of]; simp
        intro x hx
        have hbx := hb x hx
        by_cases hr' : r.reaches a = true
        · have : ¬ a ≥ s := fun h => hc ⟨hr', h⟩
          simp [inRange]; omega
        · have := reaches_false r absolute wr a (by simpa using hr') x hx
          simp [inRange]; omega
    simp only [queryRec]
    rw [e1]
    refine (e3 _).trans ?_
    refine (List.Perm.append_right _ (e2 _)).trans ?_
    have : Tree.items (.node i s e m l r) = l.items ++ ([i] ++ r.items) := by
      simp [Tree.items]
    rw [this, List.filter_append, List.filter_append]
    exact perm_swap3 _ _ _ _

theorem queryIntervalRec_perm (absolute : Bool) (qs qe : Nat) (t : Tree) (h : t.WF absolute)
    (res : List FnInfo) :
    (queryIntervalRec qs qe t res).Perm (res ++ t.items.filter (overlapping absolute qs qe)) := by
  induction t generalizing res with
  | nil => simp [queryIntervalRec, Tree.items]
  | node i s e m l r ihl ihr =>
    obtain ⟨hr, hm, hb, wl, wr⟩ := h
    have hs : s = (i.range absolute).1 := congrArg Prod.fst hr
    have he : e = (i.range absolute).2 := congrArg Prod.snd hr
    have e1 : (if s < qe ∧ qs < e then res ++ [i] else res)
        = res ++ [i].filter (overlapping absolute qs qe) := by
      by_cases hc : s < qe ∧ qs < e
      · rw [if_pos hc]; subst hs he
        have : overlapping absolute qs qe i = true := by simpa [overlapping] using hc
        simp [this]
      · rw [if_neg hc]; subst hs he
        have : overlapping absolute qs qe i = false := by simpa [overlapping] using hc
        simp [this]
    have e2 : ∀ res', (if l.reaches qs then queryIntervalRec qs qe l res' else res').Perm
        (res' ++ l.items.filter (overlapping absolute qs qe)) := by
      intro res'
      by_cases hc : l.reaches qs = true
      · rw [if_pos hc]; exact ihl wl res'
      · rw [if_neg hc, filter_nil_of]; simp
        intro x hx
        have := reaches_false l absolute wl qs (by simpa using hc) x hx
        simp [overlapping]; omega
    have e3 : ∀ res', (if s ≤ qe ∧ r.reaches qs then queryIntervalRec qs qe r res' else res').Perm
        (res' ++ r.items.filter (overlapping absolute qs qe)) := by
      intro res'
      by_cases hc : s ≤ qe ∧ r.reaches qs = true
      · rw [if_pos hc]; exact ihr wr res'
      · rw [if_neg hc, filter_nil_of]; simp
        intro x hx
        have hbx := hb x hx
        by_cases hr' : r.reaches qs = true
        · have : ¬ s ≤ qe := fun h => hc ⟨h, hr'⟩
          simp [overlapping]; omega
        · have := reaches_false r absolute wr qs (by simpa using hr') x hx
          simp [overlapping]; omega
    simp only [queryIntervalRec]
    rw [e1]
    refine (e3 _).trans ?_
    refine (List.Perm.append_right _ (e2 _)).trans ?_
    have : Tree.items (.node i s e m l r) = l.items ++ ([i] ++ r.items) := by
      simp [Tree.items]
    rw [this, List.filter_append, List.filter_append]
    exact perm_swap3 _ _ _ _

theorem built_new (info : List FnInfo) : Built info (new info) := by
  refine ⟨_, _, List.mergeSort_perm _ _, ?_, List.mergeSort_perm _ _, ?_, rfl⟩
  · have := List.pairwise_mergeSort (le := fun a b : FnInfo => decide (a.absStart ≤ b.absStart))
      (by intro a b c; simp; omega) (by intro a b; simp; omega) info
    exact this.imp (by simp)
  · have := List.pairwise_mergeSort (le := fun a b : FnInfo => decide (a.relStart ≤ b.relStart))
      (by intro a b c; simp; omega) (by intro a b; simp; omega)
      (info.mergeSort (fun a b => decide (a.absStart ≤ b.absStart)))
    exact this.imp (by simp)

/-- The tree of a single function, in evaluated form. -/
theorem new_single (f : FnInfo) :
    new [f] = ⟨.node f f.absStart f.absEnd f.absEnd .nil .nil,
      .node f f.relStart f.relEnd f.relEnd .nil .nil⟩ := by
  have hb : ∀ b, build b [f] = Tree.mk f b .nil .nil := by
    intro b
    rw [build]
    have hn : build b [] = .nil := by rw [build]; rfl
    simp [hn]
    rfl
  simp [new, hb, Tree.mk, FnInfo.range, Tree.joinMax]

end Rudy.Address
