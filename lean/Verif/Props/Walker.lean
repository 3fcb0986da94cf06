import Verif.Proof.Walker
/-
C42: walking debug information entries.
-/
namespace Rudy.Walker

variable {σ α : Type}

/-- C42: walking a unit runs the visitor exactly as the recursive specification does, for every tree
of entries, every placement of sibling attributes and empty child lists, every visitor (whose
decisions may depend on everything seen so far), and whatever follows the tree in the unit. The tail
of a callback sees the entry that follows its subtree in document order. -/
theorem C42_walk_unit_follows_tree (isCu : α → Bool) (cu v : Visitor σ α) (s : σ) (t : Tree α)
    (trailing : List (Tok α)) (hcu : isCu t.die = true) :
    walkUnit isCu cu v s (enc t ++ trailing) =
      visitRoot cu v s ((dfsLoop trailing 0).2.map (·.2)) t := by
  have hnext : next (start s (enc t ++ trailing)) =
      .ok ({ start s (enc t ++ trailing) with cursor := onto t trailing }, some t.die) := by
    simp only [next, start, Cursor.nextDfs]
    rw [enc_eq]; simp [dfsLoop, onto]
  unfold walkUnit
  rw [hnext]
  simp only [hcu, if_true]
  have hk : countList t.kids < (enc t ++ trailing).length + 1 := by
    have := count_le t
    have : countList t.kids < count t := by cases t; simp [count, Tree.kids]
    simp; omega
  have := visitDie_spec cu v t _ hk { start s (enc t ++ trailing) with cursor := onto t trailing }
    trailing (pos_onto _ t trailing rfl rfl 0 rfl)
  simp only [start] at this ⊢
  exact Prod.ext this.2.1 this.1

/-- C42: the same for a walk that starts at one entry of a unit; only that entry and entries below
it are visited, whatever follows. -/
theorem C42_walk_entry_follows_tree (v : Visitor σ α) (s : σ) (t : Tree α) (trailing : List (Tok α)) :
    walkDie v s (enc t ++ trailing) = visitTree v s ((dfsLoop trailing 0).2.map (·.2)) t := by
  have hnext : next (start s (enc t ++ trailing)) =
      .ok ({ start s (enc t ++ trailing) with cursor := onto t trailing }, some t.die) := by
    simp only [next, start, Cursor.nextDfs]
    rw [enc_eq]; simp [dfsLoop, onto]
  unfold walkDie
  rw [hnext]
  simp only
  have hk : countList t.kids < (enc t ++ trailing).length + 1 := by
    have := count_le t
    have : countList t.kids < count t := by cases t; simp [count, Tree.kids]
    simp; omega
  have := visitDie_spec v v t _ hk { start s (enc t ++ trailing) with cursor := onto t trailing }
    trailing (pos_onto _ t trailing rfl rfl 0 rfl)
  simp only [start, ← visitTree_eq] at this ⊢
  exact Prod.ext this.2.1 this.1

/-! ### Which entries are visited -/

/-- A visitor that records the entries it is called on and descends as `down` tells it. -/
def recorder (down : α → Bool) : Visitor (List α) α :=
  { enter := fun seen d => (seen ++ [d], if down d then .walk else .skip)
    leave := fun seen _ _ => seen }

mutual
/-- All entries of a tree in document order. -/
def Tree.entries : Tree α → List α
  | .node d _ _ ks => d :: entriesList ks
/-- All entries of a list of trees in document order. -/
def entriesList : List (Tree α) → List α
  | [] => []
  | t :: ts => t.entries ++ entriesList ts
end

mutual
/-- The entries to visit: an entry, and if the visitor descends into it, those below it. -/
def reach (down : α → Bool) : Tree α → List α
  | .node d _ _ ks => d :: if down d then reachList down ks else []
/-- The entries to visit in a list of trees. -/
def reachList (down : α → Bool) : List (Tree α) → List α
  | [] => []
  | t :: ts => reach down t ++ reachList down ts
end

/-- `u` is a subtree all of whose proper ancestors the visitor descends into. -/
inductive Reached (down : α → Bool) (root : Tree α) : Tree α → Prop
  | root : Reached down root root
  | child {p c : Tree α} : Reached down root p → down p.die = true → c ∈ p.kids → Reached down root c

mutual
theorem visitTree_recorder (down : α → Bool) (t : Tree α) (seen : List α) (after : Option α) :
    visitTree (recorder down) seen after t = (seen ++ reach down t, .ok) := by
  match t with
  | .node d f s ks =>
    cases h : down d with
    | false => simp [visitTree, recorder, reach, h]
    | true =>
      have := visitForest_recorder down ks (seen ++ [d]) after
      simp only [visitTree]
      have e : (recorder down).enter seen d = (seen ++ [d], .walk) := by simp [recorder, h]
      rw [e]; simp only; rw [this]
      simp [recorder, reach, h]
theorem visitForest_recorder (down : α → Bool) (ts : List (Tree α)) (seen : List α)
    (after : Option α) :
    visitForest (recorder down) seen after ts = (seen ++ reachList down ts, .ok) := by
  match ts with
  | [] => simp [visitForest, reachList]
  | t :: ts =>
    simp only [visitForest]
    rw [visitTree_recorder down t]; simp only
    rw [visitForest_recorder down ts]
    simp [reachList]
end

/-- C42: the entries visited, in order, are exactly: the root, and below each visited entry that is
descended into, its children, depth first. -/
theorem C42_visited_in_order (isCu : α → Bool) (down : α → Bool) (t : Tree α)
    (trailing : List (Tok α)) (hcu : isCu t.die = true) :
    walkUnit isCu (recorder down) (recorder down) [] (enc t ++ trailing) = (reach down t, .ok) := by
  rw [C42_walk_unit_follows_tree _ _ _ _ _ _ hcu, ← visitTree_eq, visitTree_recorder]; rfl

mutual
theorem reach_sublist (down : α → Bool) (t : Tree α) : (reach down t).Sublist t.entries := by
  match t with
  | .node d f s ks =>
    simp only [reach, Tree.entries]
    cases down d with
    | true => exact (reachList_sublist down ks).cons_cons d
    | false => simp
theorem reachList_sublist (down : α → Bool) (ts : List (Tree α)) :
    (reachList down ts).Sublist (entriesList ts) := by
  match ts with
  | [] => simp [reachList, entriesList]
  | t :: ts => exact (reach_sublist down t).append (reachList_sublist down ts)
end

theorem reachList_mem (down : α → Bool) (ts : List (Tree α)) (d : α) :
    d ∈ reachList down ts ↔ ∃ t ∈ ts, d ∈ reach down t := by
  induction ts with
  | nil => simp [reachList]
  | cons t ts ih => simp [reachList, ih]

theorem reached_trans (down : α → Bool) (a b c : Tree α) (h : Reached down a b) (h' : Reached down b c) :
    Reached down a c := by
  induction h' with
  | root => exact h
  | child _ hd hc ih => exact .child ih hd hc

mutual
theorem reach_reached (down : α → Bool) (t : Tree α) (d : α) (h : d ∈ reach down t) :
    ∃ u, Reached down t u ∧ u.die = d := by
  match t with
  | .node a f s ks =>
    simp only [reach, List.mem_cons] at h
    rcases h with rfl | h
    · exact ⟨_, .root, rfl⟩
    · by_cases ha : down a = true
      · rw [if_pos ha] at h
        obtain ⟨k, hk, u, hu, e⟩ := reachList_reached down ks d h
        exact ⟨u, reached_trans down _ k _ (.child .root ha hk) hu, e⟩
      · rw [if_neg ha] at h; simp at h
theorem reachList_reached (down : α → Bool) (ts : List (Tree α)) (d : α)
    (h : d ∈ reachList down ts) : ∃ t ∈ ts, ∃ u, Reached down t u ∧ u.die = d := by
  match ts with
  | [] => simp [reachList] at h
  | t :: ts =>
    simp only [reachList, List.mem_append] at h
    rcases h with h | h
    · exact ⟨t, by simp, reach_reached down t d h⟩
    · obtain ⟨t', h1, h2⟩ := reachList_reached down ts d h
      exact ⟨t', by simp [h1], h2⟩
end

theorem reached_reach (down : α → Bool) (t u : Tree α) (h : Reached down t u) :
    ∀ d ∈ reach down u, d ∈ reach down t := by
  induction h with
  | root => exact fun _ h => h
  | @child p c _ hd hc ih =>
    intro d hm
    apply ih
    cases p with
    | node a f s ks =>
      simp only [Tree.die, Tree.kids] at hd hc
      simp only [reach, hd, if_true, List.mem_cons]
      right
      exact (reachList_mem down ks d).2 ⟨c, hc, hm⟩

/-- C42: an entry is visited if and only if the visitor descends into all entries above it; no entry
is visited twice, and the order is document order. -/
theorem C42_visited_exactly_once (isCu : α → Bool) (down : α → Bool) (t : Tree α)
    (trailing : List (Tok α)) (hcu : isCu t.die = true) (hd : t.entries.Nodup) :
    ∃ seen, walkUnit isCu (recorder down) (recorder down) [] (enc t ++ trailing) = (seen, .ok) ∧
      seen.Nodup ∧ seen.Sublist t.entries ∧
      ∀ d, d ∈ seen ↔ ∃ u, Reached down t u ∧ u.die = d := by
  refine ⟨_, C42_visited_in_order isCu down t trailing hcu, hd.sublist (reach_sublist down t),
    reach_sublist down t, fun d => ⟨reach_reached down t d, ?_⟩⟩
  rintro ⟨u, h, rfl⟩
  apply reached_reach down t u h
  cases u; simp [reach, Tree.die]

/-! ### Arbitrary, possibly damaged units -/

/-- C42: on any unit, damaged or not, with any visitor, the walk comes to an end. -/
theorem C42_walk_terminates (isCu : α → Bool) (cu v : Visitor σ α) (s : σ) (toks : List (Tok α)) :
    (walkUnit isCu cu v s toks).2 ≠ .unfinished ∧ (walkDie v s toks).2 ≠ .unfinished := by
  have hn : ∀ w o, next (start s toks) = .ok (w, o) → w.remaining < toks.length + 1 := by
    intro w o h
    simp only [next, start, Cursor.nextDfs] at h
    have hl := dfsLoop_length toks 0
    rcases hd : dfsLoop toks 0 with ⟨c, p⟩
    rw [hd] at h hl
    cases p with
    | none => simp only at h; cases h; simp [Walker.remaining] at *; omega
    | some p =>
      obtain ⟨δ, a⟩ := p
      simp only at h
      split at h
      · cases h; simp [Walker.remaining] at *; omega
      · cases h
  constructor
  · unfold walkUnit
    rcases h : next (start s toks) with ⟨w, o⟩ | _ | _
    · cases o with
      | none => simp
      | some d =>
        simp only
        split
        · exact (visitDieWith_sound cu _ _ (siblings_sound v _) w d (hn _ _ h)).1
        · simp
    · simp
    · simp
  · unfold walkDie
    rcases h : next (start s toks) with ⟨w, o⟩ | _ | _
    · cases o with
      | none => simp
      | some d => exact (visitDieWith_sound v _ _ (siblings_sound v _) w d (hn _ _ h)).1
    · simp
    · simp

/-- A visitor that never panics. -/
def Calm (v : Visitor σ α) : Prop := ∀ s d, (v.enter s d).2 ≠ .panic

theorem visitDieWith_calm (v : Visitor σ α) (hv : Calm v) (loop : Walker σ α → Walker σ α × End)
    (hl : ∀ w, (loop w).2 ≠ .panic) (w : Walker σ α) (d : α) :
    (visitDieWith v loop w d).2 ≠ .panic := by
  unfold visitDieWith
  have := hv w.visitor d
  rcases he : v.enter w.visitor d with ⟨s, a⟩
  rw [he] at this
  cases a with
  | skip => simp
  | fail => simp
  | panic => exact absurd rfl this
  | walk =>
    simp only
    have hc : (walkChildrenWith loop { w with visitor := s }).2 ≠ .panic := by
      unfold walkChildrenWith
      rcases hasChildren ({ w with visitor := s } : Walker σ α) with ⟨w1, b⟩
      cases b with
      | false => simp
      | true =>
        simp only
        have := hl { w1 with currentDepth := w1.currentDepth + 1 }
        rcases hlp : loop { w1 with currentDepth := w1.currentDepth + 1 } with ⟨w2, e⟩
        rw [hlp] at this
        cases e <;> simp_all
    rcases hcc : walkChildrenWith loop { w with visitor := s } with ⟨w2, e⟩
    rw [hcc] at hc
    cases e <;> simp_all

theorem siblings_calm (v : Visitor σ α) (hv : Calm v) (n : Nat) (w : Walker σ α) :
    (siblings v n w).2 ≠ .panic := by
  induction n generalizing w with
  | zero => simp [siblings]
  | succ n ih =>
    unfold siblings
    rcases nextSibling (w.remaining + 1) w with ⟨w1, o⟩
    cases o with
    | none => simp
    | some d =>
      simp only
      have := visitDieWith_calm v hv _ ih w1 d
      rcases hvv : visitDieWith v (siblings v n) w1 d with ⟨w2, e⟩
      rw [hvv] at this
      cases e with
      | ok => exact ih w2
      | err => simp
      | panic => exact absurd rfl this
      | unfinished => simp

/-- C42: walking any unit, damaged or not, never panics unless a visitor's callback does, or the unit
does not start with an entry. -/
theorem C42_walk_no_panic (isCu : α → Bool) (cu v : Visitor σ α) (s : σ)
    (toks : List (Tok α)) (hc : Calm cu) (hv : Calm v) (hstart : ∀ ts, toks ≠ .null :: ts) :
    (walkUnit isCu cu v s toks).2 ≠ .panic := by
  unfold walkUnit
  have hnext : next (start s toks) ≠ .panic := by
    simp only [next, start, Cursor.nextDfs]
    cases toks with
    | nil => simp [dfsLoop]
    | cons t ts =>
      cases t with
      | entry => simp [dfsLoop]
      | null => exact absurd rfl (hstart ts)
      | bad => simp [dfsLoop]
  have hnext2 : next (start s toks) ≠ .err := by
    simp only [next, start, Cursor.nextDfs]
    rcases dfsLoop toks 0 with ⟨c, o⟩
    cases o with
    | none => simp
    | some p => simp only; split <;> simp
  rcases h : next (start s toks) with ⟨w, o⟩ | _ | _
  · cases o with
    | none => simp
    | some d =>
      simp only
      split
      · exact visitDieWith_calm cu hc _ (siblings_calm v hv _) w d
      · simp
  · exact absurd h hnext2
  · exact absurd h hnext

/-- C42, negative: a unit that starts with a null entry trips the depth assertion, whatever the
visitor does. -/
theorem C42_leading_null_panics (isCu : α → Bool) (cu v : Visitor σ α) (s : σ) (a : α) (k : Bool)
    (sib : Option Nat) (ts : List (Tok α)) :
    (walkUnit isCu cu v s (.null :: .entry a k sib :: ts)).2 = .panic := by
  simp [walkUnit, next, start, Cursor.nextDfs, dfsLoop]

/-! ### Files of several units -/

/-- C42: a file walk runs the units in order, each as specified, and stops at the first one that does
not end well. -/
theorem C42_walk_file_in_order (isCu : α → Bool) (cu v : Visitor σ α) (s s' : σ) (t : Tree α)
    (us : List (List (Tok α))) (hcu : isCu t.die = true) (h : visitRoot cu v s none t = (s', .ok)) :
    walkFile isCu cu v s (enc t :: us) = walkFile isCu cu v s' us := by
  have := C42_walk_unit_follows_tree isCu cu v s t [] hcu
  simp only [List.append_nil, dfsLoop, Option.map_none] at this
  simp only [walkFile]; rw [this, h]

/-- C42: a unit whose first entry is not a compilation unit is refused: no callback runs, and the file
walk ends there, however many units follow. -/
theorem C42_root_not_a_unit_refused (isCu : α → Bool) (cu v : Visitor σ α) (s : σ) (a : α) (k : Bool)
    (sib : Option Nat) (ts : List (Tok α)) (us : List (List (Tok α))) (h : isCu a = false) :
    walkUnit isCu cu v s (.entry a k sib :: ts) = (s, .err) ∧
    walkFile isCu cu v s ((.entry a k sib :: ts) :: us) = (s, .err) := by
  have : walkUnit isCu cu v s (.entry a k sib :: ts) = (s, .err) := by
    simp [walkUnit, next, start, Cursor.nextDfs, dfsLoop, h]
  exact ⟨this, by simp [walkFile, this]⟩

/-- C42: a unit that ends in an error or a panic ends the file walk; the following units are not looked
at. -/
theorem C42_failed_unit_ends_file (isCu : α → Bool) (cu v : Visitor σ α) (s s' : σ) (e : End) (t : Tree α)
    (us : List (List (Tok α))) (hcu : isCu t.die = true) (h : visitRoot cu v s none t = (s', e))
    (he : e ≠ .ok) : walkFile isCu cu v s (enc t :: us) = (s', e) := by
  have := C42_walk_unit_follows_tree isCu cu v s t [] hcu
  simp only [List.append_nil, dfsLoop, Option.map_none] at this
  simp only [walkFile]; rw [this, h]
  cases e <;> simp_all

/-! ### Concrete cases -/

/-- A unit `0 { 1 { 2, 3 {} }, 4 { 5 }, 6 }` with sibling attributes on 1 and 4 and an empty child list
on 3. -/
def demoTree : Tree Nat :=
  .node 0 true false
    [.node 1 true true [.node 2 false false [], .node 3 true false []],
     .node 4 true true [.node 5 false false []],
     .node 6 false false []]

/-- Descending everywhere visits everything; not descending into 1 and 4 continues with the next
sibling. -/
example :
    walkUnit (· == 0) (recorder fun _ => true) (recorder fun _ => true) [] (enc demoTree) =
      ([0, 1, 2, 3, 4, 5, 6], .ok) ∧
    walkUnit (· == 0) (recorder fun d => d != 1 && d != 4) (recorder fun d => d != 1 && d != 4) []
      (enc demoTree) = ([0, 1, 4, 6], .ok) := by
  constructor <;> rfl

example : demoTree.entries.Nodup ∧ (enc demoTree).length = 11 := by
  constructor
  · decide
  · rfl

/-- A damaged unit: the walk visits what precedes the damage. -/
example :
    walkUnit (· == 0) (recorder fun _ => true) (recorder fun _ => true) []
      [.entry 0 true none, .entry 1 true none, .entry 2 false none, .bad, .entry 3 false none] =
      ([0, 1, 2], .ok) := by rfl

/-- A unit rooted in something else, and one whose callback fails, end the file walk. -/
example :
    walkFile (· == 0) (recorder fun _ => true) (recorder fun _ => true) [] [[.entry 7 false none], enc demoTree] =
      ([], .err) ∧
    (walkFile (· == 0) (recorder fun _ => true)
      { enter := fun seen d => (seen ++ [d], if d = 3 then .fail else .walk), leave := fun s _ _ => s } []
      [enc demoTree, enc demoTree]) = ([0, 1, 2, 3], .err) := by
  constructor <;> rfl

end Rudy.Walker
