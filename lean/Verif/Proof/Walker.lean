import Verif.Model.Walker
/-
Facts about the cursor and the walker, and the tree vocabulary the walk properties are stated in.
-/
namespace Rudy.Walker

variable {σ α : Type}

/-! ### Vocabulary: trees of entries and their encoding in a unit -/

/-- A debugging information entry with its children. `flag` says that the entry announces a child
list even if it is empty, `sib` that it carries a `DW_AT_sibling` attribute. -/
inductive Tree (α : Type) where
  | node (d : α) (flag sib : Bool) (kids : List (Tree α))

/-- The entry of a tree node. -/
def Tree.die : Tree α → α
  | .node d _ _ _ => d

/-- The children of a tree node. -/
def Tree.kids : Tree α → List (Tree α)
  | .node _ _ _ ks => ks

/-- Does the entry announce a child list? -/
def Tree.opens : Tree α → Bool
  | .node _ flag _ ks => flag || !ks.isEmpty

mutual
/-- The items of a tree in a unit: the entry; if it announces children, those and a closing null. -/
def enc : Tree α → List (Tok α)
  | .node d flag sib ks =>
    if flag || !ks.isEmpty then
      .entry d true (if sib then some ((encList ks).length + 1) else none) :: (encList ks ++ [.null])
    else [.entry d false none]
/-- The items of a list of siblings. -/
def encList : List (Tree α) → List (Tok α)
  | [] => []
  | t :: ts => enc t ++ encList ts
end

/-- First entry of a list of trees, or the given one if there is none. -/
def firstOr (after : Option α) : List (Tree α) → Option α
  | [] => after
  | t :: _ => some t.die

mutual
/-- Specification of a visit: the callback on the entry, the children in order if it asks for them,
the callback's tail with the entry that follows the subtree in document order (`after`). -/
def visitTree (v : Visitor σ α) (s : σ) (after : Option α) : Tree α → σ × End
  | .node d _ _ ks =>
    match v.enter s d with
    | (s, .skip) => (s, .ok)
    | (s, .fail) => (s, .err)
    | (s, .panic) => (s, .panic)
    | (s, .walk) =>
      match visitForest v s after ks with
      | (s, .ok) => (v.leave s d after, .ok)
      | r => r
/-- Siblings are visited in order until one fails. -/
def visitForest (v : Visitor σ α) (s : σ) (after : Option α) : List (Tree α) → σ × End
  | [] => (s, .ok)
  | t :: ts =>
    match visitTree v s (firstOr after ts) t with
    | (s, .ok) => visitForest v s after ts
    | r => r
end

/-- A visit whose root entry is handled by a callback of its own (`visit_cu`). -/
def visitRoot (u v : Visitor σ α) (s : σ) (after : Option α) : Tree α → σ × End
  | .node d _ _ ks =>
    match u.enter s d with
    | (s, .skip) => (s, .ok)
    | (s, .fail) => (s, .err)
    | (s, .panic) => (s, .panic)
    | (s, .walk) =>
      match visitForest v s after ks with
      | (s, .ok) => (u.leave s d after, .ok)
      | r => r

theorem visitTree_eq (v : Visitor σ α) (s : σ) (after : Option α) (t : Tree α) :
    visitTree v s after t = visitRoot v v s after t := by
  cases t; simp only [visitTree, visitRoot]

mutual
/-- Number of entries of a tree. -/
def count : Tree α → Nat
  | .node _ _ _ ks => countList ks + 1
/-- Number of entries of a list of trees. -/
def countList : List (Tree α) → Nat
  | [] => 0
  | t :: ts => count t + countList ts
end

/-- What follows an entry's own item in its encoding. -/
def tailToks (t : Tree α) : List (Tok α) := if t.opens then encList t.kids ++ [.null] else []

/-- The sibling attribute as it is encoded. -/
def sibOf : Tree α → Option Nat
  | .node _ _ sib ks => if sib then some ((encList ks).length + 1) else none

theorem enc_eq (t : Tree α) :
    enc t = .entry t.die t.opens (if t.opens then sibOf t else none) :: tailToks t := by
  cases t with
  | node d flag sib ks =>
    by_cases h : (flag || !ks.isEmpty) = true
    · simp [enc, tailToks, Tree.opens, Tree.kids, Tree.die, sibOf, h]
    · simp only [Bool.not_eq_true] at h
      simp [enc, tailToks, Tree.opens, Tree.die, h]

mutual
theorem count_le (t : Tree α) : count t ≤ (enc t).length := by
  match t with
  | .node d flag sib ks =>
    have := countList_le ks
    by_cases h : (flag || !ks.isEmpty) = true
    · simp [enc, count, h]; omega
    · have h1 : ks = [] := by
        cases ks with
        | nil => rfl
        | cons => simp at h
      subst h1; simp [enc, count, countList]
      split <;> simp
theorem countList_le (ts : List (Tree α)) : countList ts ≤ (encList ts).length := by
  match ts with
  | [] => simp [countList, encList]
  | t :: ts =>
    have := count_le t
    have := countList_le ts
    simp [countList, encList]; omega
end

/-! ### The cursor -/

/-- The cursor at the end of its input. -/
def Cursor.fin : Cursor α := { rest := [], cur := none, delta := 0 }

theorem dfsLoop_none (ts : List (Tok α)) (d : Int) (h : (dfsLoop ts d).2 = none) :
    dfsLoop ts d = (Cursor.fin, none) := by
  induction ts generalizing d with
  | nil => rfl
  | cons t ts ih =>
    cases t with
    | entry => simp [dfsLoop] at h
    | null => exact ih _ h
    | bad => rfl

theorem dfsLoop_shift (ts : List (Tok α)) (x d : Int) :
    dfsLoop ts (x + d) = ((dfsLoop ts d).1, (dfsLoop ts d).2.map fun p => (x + p.1, p.2)) := by
  induction ts generalizing d with
  | nil => rfl
  | cons t ts ih =>
    cases t with
    | entry => simp [dfsLoop]
    | null => simp only [dfsLoop]; rw [← ih (d - 1)]; congr 1; omega
    | bad => rfl

theorem dfsLoop_le (ts : List (Tok α)) (d : Int) (p : Int × α) (h : (dfsLoop ts d).2 = some p) :
    p.1 ≤ d := by
  induction ts generalizing d with
  | nil => simp [dfsLoop] at h
  | cons t ts ih =>
    cases t with
    | entry => simp [dfsLoop] at h; subst h; simp
    | null => have := ih _ h; omega
    | bad => simp [dfsLoop] at h

theorem dfsLoop_length (ts : List (Tok α)) (d : Int) :
    (dfsLoop ts d).1.rest.length + (if (dfsLoop ts d).2.isSome then 1 else 0) ≤ ts.length := by
  induction ts generalizing d with
  | nil => simp [dfsLoop]
  | cons t ts ih =>
    cases t with
    | entry => simp [dfsLoop]
    | null => exact Nat.le_succ_of_le (ih (d - 1))
    | bad => simp [dfsLoop]

theorem nextEntry_length (c : Cursor α) : c.nextEntry.1.rest.length ≤ c.rest.length := by
  unfold Cursor.nextEntry
  cases h : c.rest with
  | nil => simp
  | cons t ts => cases t <;> simp

/-- What `siblingLoop` computes, by recursion over the input: `skip` items are still to be jumped
over, `depth` child lists are open. -/
def run : List (Tok α) → Nat → Nat → Cursor α × Bool
  | [], _, _ => (Cursor.fin, false)
  | _ :: ts, k + 1, d => run ts k d
  | .bad :: _, 0, _ => (Cursor.fin, false)
  | .null :: ts, 0, 0 => ({ rest := ts, cur := none, delta := -1 }, false)
  | .null :: ts, 0, d + 1 => run ts 0 d
  | .entry a k s :: ts, 0, 0 =>
    ({ rest := ts, cur := some (a, k, s), delta := if k then 1 else 0 }, true)
  | .entry _ k s :: ts, 0, d + 1 =>
    match k, s with
    | true, some j => run ts j (d + 1)
    | true, none => run ts 0 (d + 2)
    | false, _ => run ts 0 (d + 1)

/-- Items the entry under the cursor jumps over. -/
def skipOf : Option (α × Bool × Option Nat) → Nat
  | some (_, true, some k) => k
  | _ => 0

/-- Child lists the entry under the cursor opens. -/
def openOf : Option (α × Bool × Option Nat) → Nat
  | some (_, true, none) => 1
  | _ => 0

theorem run_drop (ts : List (Tok α)) (k d : Nat) : run ts k d = run (ts.drop k) 0 d := by
  induction ts generalizing k with
  | nil => simp [run]
  | cons t ts ih =>
    cases k with
    | zero => simp
    | succ k => simp [run]; exact ih k

theorem run_append (xs r : List (Tok α)) (d : Nat) : run (xs ++ r) xs.length d = run r 0 d := by
  rw [run_drop]; simp

theorem siblingLoop_eq (n : Nat) (c : Cursor α) (d : Nat) (h : c.rest.length < n) :
    siblingLoop n c d = run c.rest (skipOf c.cur) (d + openOf c.cur) := by
  induction n generalizing c d with
  | zero => omega
  | succ n ih =>
    obtain ⟨rest, cur, delta⟩ := c
    have key : ∀ (rest' : List (Tok α)) (cur' : Option (α × Bool × Option Nat)) (d' : Nat) (δ : Int),
        rest'.length ≤ n →
        (match (Cursor.mk rest' cur' δ).nextEntry with
          | (c, .got) =>
            if d' = 0 then (c, c.cur.isSome)
            else siblingLoop n c (if c.cur.isNone then d' - 1 else d')
          | (c, _) => (c, false)) = run rest' 0 d' := by
      intro rest' cur' d' δ hl
      cases rest' with
      | nil => simp [Cursor.nextEntry, run, Cursor.fin]
      | cons t ts =>
        simp only [List.length_cons] at hl
        cases t with
        | bad => simp [Cursor.nextEntry, run, Cursor.fin]
        | null =>
          cases d' with
          | zero => simp [Cursor.nextEntry, run]
          | succ d' =>
            simp only [Cursor.nextEntry, run, Nat.succ_ne_zero, if_false, Option.isNone_none, if_true]
            rw [ih _ _ (by simp; omega)]
            simp [skipOf, openOf]
        | entry a k s =>
          cases d' with
          | zero => simp [Cursor.nextEntry, run]
          | succ d' =>
            have e : (match (Cursor.mk (Tok.entry a k s :: ts) cur' δ).nextEntry with
                | (c, .got) =>
                  if d' + 1 = 0 then (c, c.cur.isSome)
                  else siblingLoop n c (if c.cur.isNone then d' + 1 - 1 else d' + 1)
                | (c, _) => (c, false)) =
                siblingLoop n { rest := ts, cur := some (a, k, s), delta := if k then 1 else 0 } (d' + 1) := by
              simp [Cursor.nextEntry]
            rw [e, ih _ _ (by simp; omega)]
            cases k <;> cases s <;> simp [skipOf, openOf, run]
    simp only at h
    match cur with
    | none => exact key rest none d delta (by omega)
    | some (a, false, s) => exact key rest (some (a, false, s)) d delta (by omega)
    | some (a, true, none) =>
      exact key rest (some (a, true, none)) (d + 1) delta (by omega)
    | some (a, true, some k) =>
      have := key (rest.drop k) none d delta (by simp; omega)
      simp only [skipOf, openOf, Nat.add_zero]
      rw [run_drop]
      exact this

theorem nextSibling_eq (c : Cursor α) :
    c.nextSibling =
      match c.cur with
      | none => (c, false)
      | some x => run c.rest (skipOf (some x)) (openOf (some x)) := by
  unfold Cursor.nextSibling
  cases h : c.cur with
  | none => simp
  | some x => simp only [Option.isNone_some]; rw [if_neg (by simp), siblingLoop_eq _ _ _ (by omega), h]; simp

theorem run_length (ts : List (Tok α)) (k d : Nat) :
    (run ts k d).1.rest.length ≤ ts.length ∧
      ((run ts k d).2 = true → (run ts k d).1.rest.length < ts.length) := by
  induction ts generalizing k d with
  | nil => simp [run, Cursor.fin]
  | cons t ts ih =>
    cases k with
    | succ k => have := ih k d; simp only [run, List.length_cons]; omega
    | zero =>
      cases t with
      | bad => simp [run, Cursor.fin]
      | null =>
        cases d with
        | zero => simp [run]
        | succ d => have := ih 0 d; simp only [run, List.length_cons]; omega
      | entry a k s =>
        cases d with
        | zero => simp [run]
        | succ d =>
          cases k with
          | false => have := ih 0 (d + 1); simp only [run, List.length_cons]; omega
          | true =>
            cases s with
            | none => have := ih 0 (d + 2); simp only [run, List.length_cons]; omega
            | some j => have := ih j (d + 1); simp only [run, List.length_cons]; omega

theorem cnextSibling_length (c : Cursor α) :
    c.nextSibling.1.rest.length ≤ c.rest.length ∧
      (c.nextSibling.2 = true → c.nextSibling.1.rest.length < c.rest.length) := by
  rw [nextSibling_eq]
  cases c.cur with
  | none => simp
  | some x => exact run_length _ _ _

theorem drainLoop_length (n : Nat) (c : Cursor α) : (drainLoop n c).rest.length ≤ c.rest.length := by
  induction n generalizing c with
  | zero => simp [drainLoop]
  | succ n ih =>
    have := cnextSibling_length c
    simp only [drainLoop]
    rcases h : c.nextSibling with ⟨c', b⟩
    rw [h] at this
    cases b with
    | false => simpa using this.1
    | true => have := ih c'; simp only at *; omega

/-- The bound in `drain` is irrelevant once it exceeds the input. -/
theorem drainLoop_bound (n m : Nat) (c : Cursor α) (hn : c.rest.length < n) (hm : c.rest.length < m) :
    drainLoop n c = drainLoop m c := by
  induction n generalizing c m with
  | zero => omega
  | succ n ih =>
    cases m with
    | zero => omega
    | succ m =>
      have := (cnextSibling_length c).2
      simp only [drainLoop]
      rcases h : c.nextSibling with ⟨c', b⟩
      rw [h] at this
      cases b with
      | false => rfl
      | true => simp only at *; exact ih m c' (by have := this trivial; omega) (by have := this trivial; omega)

/-! ### Skipping encoded subtrees -/

mutual
theorem run_enc (t : Tree α) (r : List (Tok α)) (d : Nat) :
    run (enc t ++ r) 0 (d + 1) = run r 0 (d + 1) := by
  match t with
  | .node a flag sib ks =>
    by_cases h : (flag || !ks.isEmpty) = true
    · simp only [enc, h, if_true, List.cons_append, List.append_assoc]
      cases sib with
      | false =>
        simp only [Bool.false_eq_true, if_false, run]
        rw [run_encList ks _ (d + 1)]
        simp [run]
      | true =>
        simp only [if_true, run]
        have := run_append (encList ks ++ [Tok.null]) r (d + 1)
        simpa using this
    · rw [enc, if_neg h]; simp [run]
theorem run_encList (ts : List (Tree α)) (r : List (Tok α)) (d : Nat) :
    run (encList ts ++ r) 0 (d + 1) = run r 0 (d + 1) := by
  match ts with
  | [] => simp [encList]
  | t :: ts => simp only [encList, List.append_assoc]; rw [run_enc t, run_encList ts]
end

/-- The cursor standing on the root of `t`. -/
def onto (t : Tree α) (rest : List (Tok α)) : Cursor α :=
  { rest := tailToks t ++ rest, cur := some (t.die, t.opens, if t.opens then sibOf t else none),
    delta := if t.opens then 1 else 0 }

theorem onto_skip (t : Tree α) (rest : List (Tok α)) :
    (onto t rest).nextSibling = run rest 0 0 := by
  rw [nextSibling_eq]
  cases t with
  | node a flag sib ks =>
    by_cases h : (flag || !ks.isEmpty) = true
    · simp only [onto, tailToks, Tree.opens, Tree.kids, Tree.die, sibOf, h, if_true]
      cases sib with
      | false =>
        simp only [Bool.false_eq_true, if_false, skipOf, openOf, List.append_assoc]
        rw [run_encList ks _ 0]; simp [run]
      | true =>
        simp only [if_true, skipOf, openOf]
        have := run_append (encList ks ++ [Tok.null]) rest 0
        simpa using this
    · simp only [Bool.not_eq_true] at h
      simp [onto, tailToks, Tree.opens, Tree.die, h, skipOf, openOf]

theorem drain_onto (t : Tree α) (ts : List (Tree α)) (more : List (Tok α)) :
    (onto t (encList ts ++ .null :: more)).drain = { rest := more, cur := none, delta := -1 } := by
  unfold Cursor.drain
  induction ts generalizing t with
  | nil => simp only [drainLoop]; rw [onto_skip]; simp [encList, run]
  | cons t' ts ih =>
    have e : run (encList (t' :: ts) ++ Tok.null :: more) 0 0 =
        (onto t' (encList ts ++ .null :: more), true) := by
      simp only [encList]; rw [enc_eq]; simp [run, onto]
    simp only [drainLoop]; rw [onto_skip, e]
    simp only
    rw [← ih t']
    apply drainLoop_bound
    · have h1 := run_length (encList (t' :: ts) ++ Tok.null :: more) 0 0
      rw [e] at h1
      have := h1.2 rfl
      simp only [onto, List.length_append] at *
      omega
    · omega

/-! ### Position of a walker in the input -/

/-- The walker's next entry is the first entry of `toks` read at depth `d`, whether or not it has
been peeked. -/
def Pos (w : Walker σ α) (toks : List (Tok α)) (d : Int) : Prop :=
  match w.next with
  | none => dfsLoop w.cursor.rest (w.depth + w.cursor.delta) = dfsLoop toks d
  | some p => dfsLoop toks d = (w.cursor, some p) ∧ w.depth = p.1

theorem pos_null (w : Walker σ α) (toks : List (Tok α)) (d : Int) :
    Pos w (.null :: toks) (d + 1) ↔ Pos w toks d := by
  unfold Pos
  have : dfsLoop (.null :: toks) (d + 1) = dfsLoop toks d := by simp [dfsLoop]
  rw [this]

/-- `peek` reads without consuming. -/
theorem peek_pos (w : Walker σ α) (toks : List (Tok α)) (d : Int) (h : Pos w toks d) :
    (peek w).2 = (dfsLoop toks d).2 ∧ Pos (peek w).1 toks d ∧ (peek w).1.visitor = w.visitor ∧
      (peek w).1.currentDepth = w.currentDepth ∧
      ((peek w).2.isSome → (peek w).1.next = (peek w).2) := by
  unfold Pos at h
  unfold peek
  cases hn : w.next with
  | some p => rw [hn] at h; simp only at h; simp [Pos, hn, h.1, h.2]
  | none =>
    rw [hn] at h; simp only at h
    unfold Cursor.nextDfs
    rw [dfsLoop_shift] at h
    rcases e : dfsLoop w.cursor.rest w.cursor.delta with ⟨c, o⟩
    rw [e] at h
    cases o with
    | none =>
      simp only [Option.map_none] at h
      have e2 := dfsLoop_none w.cursor.rest w.cursor.delta (by rw [e])
      rw [e2] at e; cases e
      simp only
      refine ⟨by rw [← h], ?_, by first | rfl | simp, by first | rfl | simp, by simp⟩
      simp [Pos, hn, ← h]; rfl
    | some p =>
      obtain ⟨δ, a⟩ := p
      simp only [Option.map_some] at h
      simp only
      refine ⟨by rw [← h], ?_, by first | rfl | simp, by first | rfl | simp, by simp⟩
      simp [Pos, ← h]

/-- A walker that stands on the root of `t` with nothing peeked. -/
theorem pos_onto (w : Walker σ α) (t : Tree α) (rest : List (Tok α)) (hn : w.next = none)
    (hc : w.cursor = onto t rest) (cd : Int) (hd : w.depth = cd) :
    Pos w (tailToks t ++ rest) (cd + if t.opens then 1 else 0) := by
  unfold Pos; rw [hn]; simp only; rw [hc, hd]; simp only [onto]

theorem dfsLoop_encList_cons (t : Tree α) (ts : List (Tree α)) (tail : List (Tok α)) (d : Int) :
    dfsLoop (encList (t :: ts) ++ tail) d = (onto t (encList ts ++ tail), some (d, t.die)) := by
  simp only [encList]; rw [enc_eq]; simp [dfsLoop, onto]

/-- The next sibling at the current depth, when the walker is level with its siblings. -/
theorem nextSibling_level (n : Nat) (w : Walker σ α) (ts : List (Tree α)) (tail : List (Tok α))
    (cd : Int) (hcd : w.currentDepth = cd) (h : Pos w (encList ts ++ tail) cd)
    (htail : ∀ p, (dfsLoop tail cd).2 = some p → p.1 < cd) :
    (nextSibling (n + 1) w).1.visitor = w.visitor ∧ (nextSibling (n + 1) w).1.currentDepth = cd ∧
    match (generalizing := false) ts with
    | [] => (nextSibling (n + 1) w).2 = none ∧ Pos (nextSibling (n + 1) w).1 tail cd
    | t :: ts => (nextSibling (n + 1) w).2 = some t.die ∧
        Pos (nextSibling (n + 1) w).1 (tailToks t ++ (encList ts ++ tail))
          (cd + if t.opens then 1 else 0) := by
  obtain ⟨h1, h2, h3, h4, h5⟩ := peek_pos w _ _ h
  rcases hp : peek w with ⟨w', o⟩
  rw [hp] at h1 h2 h3 h4 h5
  simp only at h1 h2 h3 h4 h5
  rw [hcd] at h4
  unfold nextSibling
  rw [hp]
  cases ts with
  | nil =>
    simp only [encList, List.nil_append] at *
    cases o with
    | none => exact ⟨h3, h4, rfl, h2⟩
    | some p =>
      obtain ⟨d, a⟩ := p
      have := htail (d, a) h1.symm
      simp only at this ⊢
      rw [if_neg (by omega), if_neg (by omega)]
      exact ⟨h3, h4, rfl, h2⟩
  | cons t ts =>
    rw [dfsLoop_encList_cons] at h1
    simp only at h1; subst h1
    simp only
    rw [if_pos h4.symm]
    refine ⟨h3, h4, rfl, ?_⟩
    have h6 := h5 rfl
    unfold Pos at h2; rw [h6, dfsLoop_encList_cons] at h2
    simp only [Prod.mk.injEq] at h2
    exact pos_onto { w' with next := none } t _ rfl h2.1.1.symm _ h2.2

/-- Unvisited children are skipped before the next sibling is looked up. -/
theorem nextSibling_skip (n : Nat) (w : Walker σ α) (t : Tree α) (ks : List (Tree α))
    (toks : List (Tok α)) (h : Pos w (encList (t :: ks) ++ .null :: toks) (w.currentDepth + 1)) :
    ∃ w', nextSibling (n + 1) w = nextSibling n w' ∧ Pos w' toks w.currentDepth ∧
      w'.visitor = w.visitor ∧ w'.currentDepth = w.currentDepth := by
  obtain ⟨h1, h2, h3, h4, h5⟩ := peek_pos w _ _ h
  rcases hp : peek w with ⟨w', o⟩
  rw [hp] at h1 h2 h3 h4 h5
  simp only at h1 h2 h3 h4 h5
  rw [dfsLoop_encList_cons] at h1
  simp only at h1; subst h1
  have h6 := h5 rfl
  unfold Pos at h2; rw [h6, dfsLoop_encList_cons] at h2
  simp only [Prod.mk.injEq] at h2
  refine ⟨{ w' with next := none, cursor := w'.cursor.drain }, ?_, ?_, h3, h4⟩
  · conv => lhs; unfold nextSibling
    rw [hp]; simp only
    rw [if_neg (by omega), if_pos (by omega)]
  · unfold Pos; simp only
    rw [← h2.1.1, drain_onto, h2.2]
    simp only
    congr 1; omega

/-- Level with the siblings `toks`, possibly with unvisited children of the previous one ahead. -/
def Ready (w : Walker σ α) (toks : List (Tok α)) : Prop :=
  Pos w toks w.currentDepth ∨ ∃ ks, Pos w (encList ks ++ .null :: toks) (w.currentDepth + 1)

theorem remaining_of_pos (w : Walker σ α) (toks : List (Tok α)) (d : Int) (h : Pos w toks d)
    (p : Int × α) (hp : (dfsLoop toks d).2 = some p) : 1 ≤ w.remaining := by
  unfold Pos at h
  unfold Walker.remaining
  cases hn : w.next with
  | some => simp
  | none =>
    rw [hn] at h; simp only at h
    rw [← h] at hp
    have := dfsLoop_length w.cursor.rest (w.depth + w.cursor.delta)
    rw [hp] at this
    simp at this ⊢; omega

theorem nextSibling_ready (w : Walker σ α) (ts : List (Tree α)) (tail : List (Tok α))
    (h : Ready w (encList ts ++ tail))
    (htail : ∀ p, (dfsLoop tail w.currentDepth).2 = some p → p.1 < w.currentDepth) :
    let r := nextSibling (w.remaining + 1) w
    r.1.visitor = w.visitor ∧ r.1.currentDepth = w.currentDepth ∧
    match (generalizing := false) ts with
    | [] => r.2 = none ∧ Pos r.1 tail w.currentDepth
    | t :: ts => r.2 = some t.die ∧
        Pos r.1 (tailToks t ++ (encList ts ++ tail)) (w.currentDepth + if t.opens then 1 else 0) := by
  intro r
  have level : ∀ (n : Nat) (w' : Walker σ α), Pos w' (encList ts ++ tail) w.currentDepth →
      w'.visitor = w.visitor → w'.currentDepth = w.currentDepth → r = nextSibling (n + 1) w' →
      r.1.visitor = w.visitor ∧ r.1.currentDepth = w.currentDepth ∧
      match (generalizing := false) ts with
      | [] => r.2 = none ∧ Pos r.1 tail w.currentDepth
      | t :: ts => r.2 = some t.die ∧
          Pos r.1 (tailToks t ++ (encList ts ++ tail)) (w.currentDepth + if t.opens then 1 else 0) := by
    intro n w' hp hv hd hr
    have := nextSibling_level n w' ts tail _ hd hp htail
    rw [hv, ← hr] at this
    exact this
  rcases h with h | ⟨ks, h⟩
  · exact level w.remaining w h rfl rfl rfl
  · cases ks with
    | nil =>
      simp only [encList, List.nil_append] at h
      rw [pos_null] at h
      exact level w.remaining w h rfl rfl rfl
    | cons t' ks =>
      have hr := remaining_of_pos w _ _ h (w.currentDepth + 1, t'.die)
        (by rw [dfsLoop_encList_cons])
      obtain ⟨w', e1, e2, e3, e4⟩ := nextSibling_skip w.remaining w t' ks _ h
      have : w.remaining = (w.remaining - 1) + 1 := by omega
      rw [this] at e1
      refine level (w.remaining - 1) w' e2 e3 e4 ?_
      rw [← e1, ← this]

/-- After the entry of `t`: its children ahead, or level with what follows. -/
theorem after_root (w : Walker σ α) (t : Tree α) (toks : List (Tok α))
    (h : Pos w (tailToks t ++ toks) (w.currentDepth + if t.opens then 1 else 0)) : Ready w toks := by
  unfold tailToks at h
  by_cases ho : t.opens = true
  · rw [if_pos ho, if_pos ho] at h
    right; exact ⟨t.kids, by simpa using h⟩
  · rw [if_neg ho, if_neg ho] at h
    left; simpa using h

mutual
/-- Visiting one entry of a unit with the walker does what the specification says. -/
theorem visitDie_spec (u v : Visitor σ α) (t : Tree α) (n : Nat) (hn : countList t.kids < n)
    (w : Walker σ α) (toks : List (Tok α))
    (h : Pos w (tailToks t ++ toks) (w.currentDepth + if t.opens then 1 else 0)) :
    let r := visitDieWith u (siblings v n) w t.die
    let q := visitRoot u v w.visitor ((dfsLoop toks w.currentDepth).2.map (·.2)) t
    r.2 = q.2 ∧ r.1.visitor = q.1 ∧
      (q.2 = .ok → Ready r.1 toks ∧ r.1.currentDepth = w.currentDepth) := by
  match t with
  | .node d flag sib ks =>
    intro r q
    have hr0 := after_root w _ toks h
    simp only [Tree.kids] at hn
    rcases he : u.enter w.visitor d with ⟨s, a⟩
    have hr : r = visitDieWith u (siblings v n) w d := rfl
    have hq : q = visitRoot u v w.visitor ((dfsLoop toks w.currentDepth).2.map (·.2)) (.node d flag sib ks) := rfl
    unfold visitDieWith at hr
    rw [he] at hr
    unfold visitRoot at hq
    simp only at hq
    rw [he] at hq
    cases a with
    | skip => simp only at hr hq; rw [hr, hq]; exact ⟨rfl, rfl, fun _ => ⟨hr0, rfl⟩⟩
    | fail => simp only at hr hq; rw [hr, hq]; exact ⟨rfl, rfl, fun h => by simp at h⟩
    | panic => simp only at hr hq; rw [hr, hq]; exact ⟨rfl, rfl, fun h => by simp at h⟩
    | walk =>
      simp only at hr hq
      -- the children
      have hw1 : Pos ({ w with visitor := s } : Walker σ α)
          (tailToks (Tree.node d flag sib ks) ++ toks)
          (w.currentDepth + if (Tree.node d flag sib ks).opens then 1 else 0) := h
      obtain ⟨p1, p2, p3, p4, p5⟩ := peek_pos _ _ _ hw1
      rcases hp : peek ({ w with visitor := s } : Walker σ α) with ⟨w1, o⟩
      rw [hp] at p1 p2 p3 p4 p5
      simp only at p1 p2 p3 p4 p5
      have leaveOk : ∀ w2 : Walker σ α, Pos w2 toks w.currentDepth → w2.currentDepth = w.currentDepth →
          (peek w2).2.map (·.2) = (dfsLoop toks w.currentDepth).2.map (·.2) ∧
          (peek w2).1.visitor = w2.visitor ∧
          Pos (peek w2).1 toks w.currentDepth ∧ (peek w2).1.currentDepth = w.currentDepth := by
        intro w2 h2 h3
        obtain ⟨q1, q2, q3, q4, _⟩ := peek_pos _ _ _ h2
        exact ⟨by rw [q1], q3, q2, by rw [q4, h3]⟩
      have posVis : ∀ (w2 : Walker σ α) (x : σ), Pos w2 toks w.currentDepth →
          Pos ({ w2 with visitor := x } : Walker σ α) toks w.currentDepth := fun _ _ h => h
      cases ks with
      | nil =>
        -- no child entry: `has_children` is false
        have hfalse : (hasChildren ({ w with visitor := s } : Walker σ α)) = (w1, false) := by
          unfold hasChildren; rw [hp]
          cases o with
          | none => rfl
          | some pr =>
            obtain ⟨e, a⟩ := pr
            simp only [Prod.mk.injEq, decide_eq_false_iff_not, true_and]
            rw [p4]
            have hle : e ≤ w.currentDepth := by
              by_cases ho : (Tree.node d flag sib ([] : List (Tree α))).opens = true
              · simp only [tailToks, ho, if_true, Tree.kids, encList, List.nil_append,
                  List.cons_append] at p1
                have := dfsLoop_le toks w.currentDepth (e, a) (by rw [p1]; simp [dfsLoop])
                exact this
              · simp only [tailToks, ho, Bool.false_eq_true, if_false, List.nil_append] at p1
                have := dfsLoop_le toks _ (e, a) (p1.symm)
                simp at this; omega
            omega
        have hpos1 : Pos w1 toks w.currentDepth := by
          by_cases ho : (Tree.node d flag sib ([] : List (Tree α))).opens = true
          · simp only [tailToks, ho, if_true, Tree.kids, encList, List.nil_append,
              List.cons_append] at p2
            rwa [pos_null] at p2
          · simp only [tailToks, ho, Bool.false_eq_true, if_false, List.nil_append] at p2
            simpa using p2
        simp only [walkChildrenWith, hfalse] at hr
        obtain ⟨l1, l2, l3, l4⟩ := leaveOk w1 hpos1 p4
        simp only [visitForest] at hq
        rw [hr, hq]
        refine ⟨rfl, ?_, fun _ => ⟨Or.inl ?_, l4⟩⟩
        · simp only; rw [l1, l2, p3]
        · have h0 := posVis (peek w1).1 (u.leave (peek w1).1.visitor d ((peek w1).2.map (·.2))) l3
          simp only
          rw [l4]
          exact h0
      | cons k ks' =>
        have ho : (Tree.node d flag sib (k :: ks')).opens = true := by simp [Tree.opens]
        simp only [tailToks, ho, if_true, Tree.kids] at p1 p2
        rw [List.append_assoc] at p1 p2
        rw [dfsLoop_encList_cons] at p1
        simp only at p1; subst p1
        have htrue : (hasChildren ({ w with visitor := s } : Walker σ α)) = (w1, true) := by
          unfold hasChildren; rw [hp]; simp [p4]
        simp only [walkChildrenWith, htrue] at hr
        have ih := siblings_spec v (k :: ks') n hn { w1 with currentDepth := w1.currentDepth + 1 }
          ([Tok.null] ++ toks)
          (Or.inl (by simp only; rw [p4]; exact p2))
          (by
            intro p hp
            simp only at hp ⊢
            simp only [List.cons_append, List.nil_append, dfsLoop] at hp
            have := dfsLoop_le _ _ _ hp
            omega)
        simp only [List.cons_append, List.nil_append] at ih
        have hafter : dfsLoop (Tok.null :: toks) (w1.currentDepth + 1) = dfsLoop toks w.currentDepth := by
          simp [dfsLoop, p4]
        rw [hafter, p3] at ih
        rcases hs : siblings v n { w1 with currentDepth := w1.currentDepth + 1 } with ⟨w2, e⟩
        have hs' := hs
        rw [p3] at hs'
        rw [hs'] at ih
        rw [hs] at hr
        rcases hf : visitForest v s ((dfsLoop toks w.currentDepth).2.map (·.2)) (k :: ks') with ⟨s', e'⟩
        rw [hf] at ih hq
        simp only at ih
        obtain ⟨i1, i2, i3⟩ := ih
        subst i1
        cases e with
        | err => rw [hr, hq]; exact ⟨rfl, i2, fun h => by simp at h⟩
        | panic => rw [hr, hq]; exact ⟨rfl, i2, fun h => by simp at h⟩
        | unfinished => rw [hr, hq]; exact ⟨rfl, i2, fun h => by simp at h⟩
        | ok =>
          obtain ⟨i4, i5⟩ := i3 rfl
          simp only at hr hq i5
          have hpos2 : Pos ({ w2 with currentDepth := w2.currentDepth - 1 } : Walker σ α) toks w.currentDepth := by
            have : Pos w2 toks w.currentDepth := by
              rw [p4] at i4; rwa [pos_null] at i4
            exact this
          obtain ⟨l1, l2, l3, l4⟩ := leaveOk _ hpos2 (by simp only; rw [i5, p4]; omega)
          rw [hr, hq]
          refine ⟨rfl, ?_, fun _ => ⟨Or.inl ?_, l4⟩⟩
          · simp only; rw [l1, l2]; simp only; rw [i2]
          · have h0 := posVis _ (u.leave (peek { w2 with currentDepth := w2.currentDepth - 1 }).1.visitor d ((peek { w2 with currentDepth := w2.currentDepth - 1 }).2.map (·.2))) l3
            simp only
            rw [l4]
            exact h0
/-- The sibling loop visits the siblings in order. -/
theorem siblings_spec (v : Visitor σ α) (ts : List (Tree α)) (n : Nat) (hn : countList ts < n)
    (w : Walker σ α) (tail : List (Tok α)) (h : Ready w (encList ts ++ tail))
    (htail : ∀ p, (dfsLoop tail w.currentDepth).2 = some p → p.1 < w.currentDepth) :
    let r := siblings v n w
    let q := visitForest v w.visitor ((dfsLoop tail w.currentDepth).2.map (·.2)) ts
    r.2 = q.2 ∧ r.1.visitor = q.1 ∧
      (q.2 = .ok → Pos r.1 tail w.currentDepth ∧ r.1.currentDepth = w.currentDepth) := by
  cases n with
  | zero => omega
  | succ n =>
    have ns := nextSibling_ready w ts tail h htail
    simp only at ns
    obtain ⟨n1, n2, n3⟩ := ns
    rcases hs : nextSibling (w.remaining + 1) w with ⟨w1, o⟩
    rw [hs] at n1 n2 n3
    simp only at n1 n2 n3
    unfold siblings
    rw [hs]
    match ts with
    | [] =>
      simp only at n3
      obtain ⟨rfl, n4⟩ := n3
      simp only [visitForest]
      exact ⟨trivial, n1, fun _ => ⟨n4, n2⟩⟩
    | t :: ts =>
      simp only at n3
      obtain ⟨rfl, n4⟩ := n3
      simp only [countList] at hn
      have hk : countList t.kids < count t := by cases t; simp [count, Tree.kids]
      have ih := visitDie_spec v v t n (by omega) w1 (encList ts ++ tail) (by rw [n2]; exact n4)
      simp only [← visitTree_eq] at ih
      have hafter : ((dfsLoop (encList ts ++ tail) w1.currentDepth).2.map (·.2)) =
          firstOr ((dfsLoop tail w.currentDepth).2.map (·.2)) ts := by
        rw [n2]
        cases ts with
        | nil => simp [encList, firstOr]
        | cons t' ts' => rw [dfsLoop_encList_cons]; simp [firstOr]
      rw [hafter, n1] at ih
      rcases hv : visitDieWith v (siblings v n) w1 t.die with ⟨w2, e⟩
      rw [hv] at ih
      simp only [visitForest]
      rcases hq : visitTree v w.visitor (firstOr ((dfsLoop tail w.currentDepth).2.map (·.2)) ts) t with ⟨s', e'⟩
      rw [hq] at ih
      simp only at ih
      obtain ⟨i1, i2, i3⟩ := ih
      subst i1
      rw [hv, hq]
      cases e with
      | err => exact ⟨rfl, i2, fun h => by simp at h⟩
      | panic => exact ⟨rfl, i2, fun h => by simp at h⟩
      | unfinished => exact ⟨rfl, i2, fun h => by simp at h⟩
      | ok =>
        obtain ⟨i4, i5⟩ := i3 rfl
        rw [n2] at i5
        have := siblings_spec v ts n (by omega) w2 tail i4 (by rw [i5]; exact htail)
        simp only at this
        rw [i5, i2] at this
        exact this
end

/-! ### Arbitrary input: the walk ends -/

theorem peek_remaining (w : Walker σ α) :
    (peek w).1.remaining ≤ w.remaining ∧
      ((peek w).2.isSome = true → (peek w).1.next.isSome = true) := by
  unfold peek
  cases hn : w.next with
  | some p => simp [hn]
  | none =>
    have := dfsLoop_length w.cursor.rest w.cursor.delta
    unfold Cursor.nextDfs
    rcases h : dfsLoop w.cursor.rest w.cursor.delta with ⟨c, o⟩
    rw [h] at this
    cases o with
    | none => simp [Walker.remaining, hn] at *; exact this
    | some p => simp [Walker.remaining, hn] at *; exact this

theorem drain_length (c : Cursor α) : c.drain.rest.length ≤ c.rest.length := drainLoop_length _ _

theorem nextSibling_remaining (n : Nat) (w : Walker σ α) :
    (nextSibling n w).1.remaining ≤ w.remaining ∧
      ((nextSibling n w).2.isSome = true → (nextSibling n w).1.remaining < w.remaining) := by
  induction n generalizing w with
  | zero => simp [nextSibling]
  | succ n ih =>
    have hp := peek_remaining w
    unfold nextSibling
    rcases h : peek w with ⟨w1, o⟩
    rw [h] at hp
    cases o with
    | none => simpa using hp.1
    | some p =>
      obtain ⟨d, a⟩ := p
      have h1 := hp.2 rfl
      have h2 : w1.remaining = w1.cursor.rest.length + 1 := by simp at h1; simp [Walker.remaining, h1]
      simp only at hp ⊢
      split
      · simp only [h2] at hp
        simp only [Walker.remaining, Option.isSome_none] at *
        simp
        omega
      · split
        · have i := ih { w1 with next := none, cursor := w1.cursor.drain }
          have h3 : Walker.remaining { w1 with next := none, cursor := w1.cursor.drain } ≤ w1.cursor.rest.length := by
            simp [Walker.remaining]; exact drain_length _
          constructor
          · omega
          · intro hh; have := i.2 hh; omega
        · simpa using hp.1

/-- The bound of `next_sibling` is irrelevant once it exceeds the input. -/
theorem nextSibling_bound (n m : Nat) (w : Walker σ α) (hn : w.remaining < n) (hm : w.remaining < m) :
    nextSibling n w = nextSibling m w := by
  induction n generalizing w m with
  | zero => omega
  | succ n ih =>
    cases m with
    | zero => omega
    | succ m =>
      have hp := peek_remaining w
      unfold nextSibling
      rcases h : peek w with ⟨w1, o⟩
      rw [h] at hp
      cases o with
      | none => rfl
      | some p =>
        obtain ⟨d, a⟩ := p
        have h1 := hp.2 rfl
        have h2 : w1.remaining = w1.cursor.rest.length + 1 := by simp at h1; simp [Walker.remaining, h1]
        simp only at hp ⊢
        split
        · rfl
        · split
          · have h3 : Walker.remaining { w1 with next := none, cursor := w1.cursor.drain } ≤ w1.cursor.rest.length := by
              simp [Walker.remaining]; exact drain_length _
            exact ih m _ (by omega) (by omega)
          · rfl

/-- A loop that neither runs out of its bound nor gives input back. -/
def Sound (loop : Walker σ α → Walker σ α × End) (N : Nat) : Prop :=
  ∀ w : Walker σ α, w.remaining < N → (loop w).2 ≠ .unfinished ∧ (loop w).1.remaining ≤ w.remaining

theorem visitDieWith_sound (v : Visitor σ α) (loop : Walker σ α → Walker σ α × End) (N : Nat)
    (hl : Sound loop N) (w : Walker σ α) (d : α) (hw : w.remaining < N) :
    (visitDieWith v loop w d).2 ≠ .unfinished ∧ (visitDieWith v loop w d).1.remaining ≤ w.remaining := by
  unfold visitDieWith
  rcases he : v.enter w.visitor d with ⟨s, a⟩
  cases a with
  | skip => simp [Walker.remaining]
  | fail => simp [Walker.remaining]
  | panic => simp [Walker.remaining]
  | walk =>
    simp only
    have hp := (peek_remaining ({ w with visitor := s } : Walker σ α)).1
    have hwr : Walker.remaining ({ w with visitor := s } : Walker σ α) = w.remaining := rfl
    have hc : (walkChildrenWith loop { w with visitor := s }).2 ≠ .unfinished ∧
        (walkChildrenWith loop { w with visitor := s }).1.remaining ≤ w.remaining := by
      unfold walkChildrenWith hasChildren
      rcases hpk : peek ({ w with visitor := s } : Walker σ α) with ⟨w1, o⟩
      rw [hpk] at hp
      simp only at hp
      have hyes : ∀ b : Bool,
          (match (w1, b) with
            | (w, false) => (w, End.ok)
            | (w, true) =>
              match loop { w with currentDepth := w.currentDepth + 1 } with
              | (w, .ok) => ({ w with currentDepth := w.currentDepth - 1 }, .ok)
              | r => r).2 ≠ .unfinished ∧
          (match (w1, b) with
            | (w, false) => (w, End.ok)
            | (w, true) =>
              match loop { w with currentDepth := w.currentDepth + 1 } with
              | (w, .ok) => ({ w with currentDepth := w.currentDepth - 1 }, .ok)
              | r => r).1.remaining ≤ w.remaining := by
        intro b
        cases b with
        | false => exact ⟨by simp, by simp only; omega⟩
        | true =>
          have hs := hl { w1 with currentDepth := w1.currentDepth + 1 } (by
            show Walker.remaining w1 < N; omega)
          have e1 : Walker.remaining ({ w1 with currentDepth := w1.currentDepth + 1 } : Walker σ α) = w1.remaining := rfl
          simp only
          rcases hlp : loop { w1 with currentDepth := w1.currentDepth + 1 } with ⟨w2, e⟩
          rw [hlp] at hs
          have e2 : Walker.remaining ({ w2 with currentDepth := w2.currentDepth - 1 } : Walker σ α) = w2.remaining := rfl
          cases e with
          | ok => exact ⟨by simp, by simp only at *; omega⟩
          | err => exact ⟨by simp, by simp only at *; omega⟩
          | panic => exact ⟨by simp, by simp only at *; omega⟩
          | unfinished => exact absurd rfl hs.1
      cases o with
      | none => exact hyes false
      | some p => exact hyes _
    rcases hcc : walkChildrenWith loop { w with visitor := s } with ⟨w2, e⟩
    rw [hcc] at hc
    cases e with
    | ok =>
      simp only at hc ⊢
      have := (peek_remaining w2).1
      rcases hpk2 : peek w2 with ⟨w3, p⟩
      rw [hpk2] at this
      have e3 : Walker.remaining ({ w3 with visitor := v.leave w3.visitor d (p.map (·.2)) } : Walker σ α) = w3.remaining := rfl
      exact ⟨by simp, by simp only at *; omega⟩
    | err => exact ⟨by simp, hc.2⟩
    | panic => exact ⟨by simp, hc.2⟩
    | unfinished => exact absurd rfl hc.1

theorem siblings_sound (v : Visitor σ α) (n : Nat) : Sound (siblings v n) n := by
  induction n with
  | zero => intro w h; omega
  | succ n ih =>
    intro w hw
    have hns := nextSibling_remaining (w.remaining + 1) w
    unfold siblings
    rcases hs : nextSibling (w.remaining + 1) w with ⟨w1, o⟩
    rw [hs] at hns
    cases o with
    | none => exact ⟨by simp, hns.1⟩
    | some d =>
      simp only at hns ⊢
      have h1 := hns.2 rfl
      have hv := visitDieWith_sound v (siblings v n) n ih w1 d (by omega)
      rcases hvv : visitDieWith v (siblings v n) w1 d with ⟨w2, e⟩
      rw [hvv] at hv
      simp only at hv
      cases e with
      | ok =>
        have := ih w2 (by omega)
        exact ⟨this.1, by simp only at *; omega⟩
      | err => exact ⟨by simp, by simp only at *; omega⟩
      | panic => exact ⟨by simp, by simp only at *; omega⟩
      | unfinished => exact absurd rfl hv.1

end Rudy.Walker
