import Verif.Model.Entries
import Verif.Props.Modules
/-
Reading entries back from the encoding of the trees of a file.
-/
namespace Rudy.Entries
open Rudy.Walker Rudy.Dwarf Rudy.Parse Rudy.Modules

/-! ### Vocabulary -/

/-- The trees of a file: its units and everything below them. -/
def nodes (us : List UnitOf) : List (Tree Die) := us.flatMap fun u => subtrees u.1

/-- No two entries of the file are at the same offset. -/
def Offsets (us : List UnitOf) : Prop := ((nodes us).map fun t => t.die.off).Nodup

/-! ### Proofs -/

/-- The part of the loop after the jump. -/
def look (n : Nat) (rest : List (Tok Die)) (depth : Int) : Res (Cursor Die × Bool) :=
  match rest with
  | [] => .ok ({ rest := [], cur := none }, false)
  | .bad :: _ => .err
  | .null :: ts => if depth = 1 then .ok ({ rest := ts, cur := none }, false) else treeLoop n { rest := ts, cur := none } depth
  | .entry d k s :: ts =>
    if depth = 1 then .ok ({ rest := ts, cur := some (d, k, s) }, true) else treeLoop n { rest := ts, cur := some (d, k, s) } depth

/-- The sibling attribute of an entry as it is encoded. -/
def sibAttr (t : Tree Die) : Option Nat := if t.opens then sibOf t else none

theorem enc_eq' (t : Tree Die) : enc t = .entry t.die t.opens (sibAttr t) :: tailToks t := enc_eq t

mutual
/-- How many items the loop reads below an entry. -/
def used : Tree Die → Nat
  | .node _ f s ks => if (f || !ks.isEmpty) && !s then usedList ks + 1 else 0
/-- The same for siblings, which are read too. -/
def usedList : List (Tree Die) → Nat
  | [] => 0
  | t :: ts => used t + 1 + usedList ts
end

mutual
theorem used_le (t : Tree Die) : used t ≤ (tailToks t).length := by
  match t with
  | .node d f s ks =>
    have := usedList_le ks
    simp only [used, tailToks, Tree.opens, Tree.kids]
    by_cases h : (f || !ks.isEmpty) = true <;> simp [h]
    split <;> omega
theorem usedList_le (ts : List (Tree Die)) : usedList ts ≤ (encList ts).length := by
  match ts with
  | [] => simp [usedList]
  | t :: ts =>
    have := used_le t
    have := usedList_le ts
    simp only [usedList, encList, enc_eq', List.length_append, List.length_cons]; omega
end

mutual
theorem treeLoop_over (t : Tree Die) (n : Nat) (more : List (Tok Die)) (depth : Int) (hd : 1 ≤ depth) :
    treeLoop (used t + n + 1) { rest := tailToks t ++ more, cur := some (t.die, t.opens, sibAttr t) } depth = look n more depth := by
  match t with
  | .node d f s ks =>
    by_cases ho : (f || !ks.isEmpty) = true
    · cases s with
      | true =>
        simp only [used, tailToks, sibAttr, Tree.opens, Tree.kids, Tree.die, sibOf, ho, if_true, Bool.not_true, Bool.and_false,
          Bool.false_eq_true, if_false]
        have : ((encList ks ++ [Tok.null]) ++ more).drop ((encList ks).length + 1) = more := by
          rw [List.drop_append_of_le_length (by simp)]; simp
        rw [show 0 + n + 1 = n + 1 by omega]
        simp only [treeLoop, this]; rfl
      | false =>
        simp only [used, tailToks, sibAttr, Tree.opens, Tree.kids, Tree.die, sibOf, ho, if_true, Bool.not_false, Bool.and_true,
          Bool.false_eq_true, if_false]
        have hk := lookList_over ks (n + 1) (.null :: more) (depth + 1) (by omega)
        have e : treeLoop (usedList ks + 1 + n + 1) { rest := encList ks ++ [Tok.null] ++ more, cur := some (d, true, none) } depth =
            look (usedList ks + (n + 1)) (encList ks ++ Tok.null :: more) (depth + 1) := by
          rw [show usedList ks + 1 + n + 1 = (usedList ks + (n + 1)) + 1 by omega]
          simp only [treeLoop, List.append_assoc, List.singleton_append]; rfl
        rw [e, hk]
        have h1 : ¬ (depth + 1 = 1) := by omega
        simp only [look, h1, if_false, treeLoop]
        rw [show depth + 1 - 1 = depth by omega]
        rfl
    · simp only [Bool.not_eq_true] at ho
      simp only [used, tailToks, sibAttr, Tree.opens, Tree.die, ho, Bool.false_and, Bool.false_eq_true, if_false, List.nil_append]
      rw [show 0 + n + 1 = n + 1 by omega]
      simp only [treeLoop]; rfl
theorem lookList_over (ts : List (Tree Die)) (n : Nat) (more : List (Tok Die)) (depth : Int) (hd : 2 ≤ depth) :
    look (usedList ts + n) (encList ts ++ more) depth = look n more depth := by
  match ts with
  | [] => simp [usedList, encList]
  | t :: ts =>
    simp only [usedList, encList, enc_eq', List.cons_append, List.append_assoc]
    have h1 : ¬ (depth = 1) := by omega
    rw [show look (used t + 1 + usedList ts + n) (Tok.entry t.die t.opens (sibAttr t) :: (tailToks t ++ (encList ts ++ more))) depth =
      treeLoop (used t + 1 + usedList ts + n) { rest := tailToks t ++ (encList ts ++ more), cur := some (t.die, t.opens, sibAttr t) } depth by
      simp only [look, h1, if_false]]
    rw [show used t + 1 + usedList ts + n = used t + (usedList ts + n) + 1 by omega, treeLoop_over t _ _ _ (by omega)]
    exact lookList_over ts n more depth hd
end

theorem childLoop_over (t : Tree Die) (ts : List (Tree Die)) (more : List (Tok Die)) (n : Nat) (hn : ts.length < n) :
    childLoop n { rest := tailToks t ++ (encList ts ++ .null :: more), cur := some (t.die, t.opens, sibAttr t) } =
      .ok ((t :: ts).map fun k => k.die.off) := by
  induction ts generalizing t n with
  | nil =>
    obtain ⟨m, rfl⟩ : ∃ m, n = m + 1 := ⟨n - 1, by simp at hn; omega⟩
    simp only [childLoop, encList, List.nil_append]
    obtain ⟨k, hk⟩ : ∃ k, (tailToks t ++ Tok.null :: more).length = used t + k :=
      ⟨_, (Nat.add_sub_cancel' (Nat.le_trans (used_le t) (by simp))).symm⟩
    rw [hk, treeLoop_over t k _ 1 (by omega)]
    simp [look, Res.bind]
  | cons t' ts ih =>
    obtain ⟨m, rfl⟩ : ∃ m, n = m + 1 := ⟨n - 1, by simp at hn; omega⟩
    simp only [childLoop]
    obtain ⟨k, hk⟩ : ∃ k, (tailToks t ++ (encList (t' :: ts) ++ Tok.null :: more)).length = used t + k :=
      ⟨_, (Nat.add_sub_cancel' (Nat.le_trans (used_le t) (by simp))).symm⟩
    rw [hk, treeLoop_over t k _ 1 (by omega)]
    have h2 : look k (encList (t' :: ts) ++ Tok.null :: more) 1 =
        .ok ({ rest := tailToks t' ++ (encList ts ++ .null :: more), cur := some (t'.die, t'.opens, sibAttr t') }, true) := by
      simp only [encList, enc_eq', List.cons_append, List.append_assoc, look, if_true]
    rw [h2]
    simp only [Res.bind_ok, if_true]
    rw [ih t' m (by simp at hn; omega)]
    simp [Res.bind]

theorem length_encList (ts : List (Tree Die)) : ts.length ≤ (encList ts).length := by
  induction ts with
  | nil => simp
  | cons t ts ih => simp only [encList, enc_eq', List.length_append, List.length_cons]; omega

/-- The children that are read are the children of the entry. -/
theorem childrenAt_enc (t : Tree Die) (more : List (Tok Die)) :
    childrenAt (enc t ++ more) = .ok (t.kids.map fun k => k.die.off) := by
  rw [enc_eq']
  cases ho : t.opens with
  | false =>
    have : t.kids = [] := by
      cases t with
      | node d f s ks =>
        simp only [Tree.opens, Bool.or_eq_false_iff, Bool.not_eq_false', List.isEmpty_iff] at ho
        exact ho.2
    simp [childrenAt, this]
  | true =>
    simp only [tailToks, ho, if_true]
    cases hk : t.kids with
    | nil => simp [childrenAt, encList]
    | cons k ks =>
      have e : (encList (k :: ks) ++ [Tok.null]) ++ more =
          .entry k.die k.opens (sibAttr k) :: (tailToks k ++ (encList ks ++ .null :: more)) := by
        simp only [encList, enc_eq', List.cons_append, List.append_assoc, List.nil_append]
      rw [List.cons_append, e]
      simp only [childrenAt]
      refine childLoop_over k ks more _ ?_
      have := length_encList ks
      simp only [List.length_cons, List.length_append]; omega

mutual
theorem fromEntry_skip (o : Nat) (t : Tree Die) (more : List (Tok Die)) (h : ∀ k ∈ subtrees t, k.die.off ≠ o) :
    fromEntry o (enc t ++ more) = fromEntry o more := by
  match t with
  | .node d f s ks =>
    have h0 : d.off ≠ o := h (.node d f s ks) (by simp [subtrees])
    have hk := fun m => fromEntryList_skip o ks m fun k hk => h k (by simp [subtrees, hk])
    simp only [enc]
    split
    · simp only [List.cons_append, fromEntry, h0, if_false, List.append_assoc, hk]
      rfl
    · simp only [List.cons_append, List.nil_append, fromEntry, h0, if_false]
theorem fromEntryList_skip (o : Nat) (ts : List (Tree Die)) (more : List (Tok Die)) (h : ∀ k ∈ subtreesList ts, k.die.off ≠ o) :
    fromEntry o (encList ts ++ more) = fromEntry o more := by
  match ts with
  | [] => simp [encList]
  | t :: ts =>
    simp only [encList, List.append_assoc]
    rw [fromEntry_skip o t _ fun k hk => h k (by simp [subtreesList, hk]),
      fromEntryList_skip o ts _ fun k hk => h k (by simp [subtreesList, hk])]
end

mutual
theorem fromEntry_enc (t k : Tree Die) (more : List (Tok Die)) (hk : k ∈ subtrees t)
    (hd : ((subtrees t).map fun k => k.die.off).Nodup) : ∃ trailing, fromEntry k.die.off (enc t ++ more) = some (enc k ++ trailing) := by
  match t with
  | .node d f s ks =>
    simp only [subtrees, List.mem_cons] at hk
    rcases hk with rfl | hk
    · refine ⟨more, ?_⟩
      rw [enc_eq']
      simp [fromEntry]
    · simp only [subtrees, List.map_cons, List.nodup_cons] at hd
      have h0 : d.off ≠ k.die.off := fun e => hd.1 (by
        rw [List.mem_map]; exact ⟨k, hk, by rw [← e]; rfl⟩)
      have hne : ks ≠ [] := by rintro rfl; simp [subtreesList] at hk
      have ho : (f || !ks.isEmpty) = true := by
        cases ks with
        | nil => exact absurd rfl hne
        | cons _ _ => simp
      obtain ⟨tr, h⟩ := fromEntryList_enc ks k ([Tok.null] ++ more) hk hd.2
      refine ⟨tr, ?_⟩
      simp only [enc, ho, if_true, List.cons_append, fromEntry, h0, if_false, List.append_assoc]
      exact h
theorem fromEntryList_enc (ts : List (Tree Die)) (k : Tree Die) (more : List (Tok Die)) (hk : k ∈ subtreesList ts)
    (hd : ((subtreesList ts).map fun k => k.die.off).Nodup) :
    ∃ trailing, fromEntry k.die.off (encList ts ++ more) = some (enc k ++ trailing) := by
  match ts with
  | [] => simp [subtreesList] at hk
  | t :: ts =>
    simp only [subtreesList, List.map_append, List.nodup_append, List.mem_append, List.mem_map] at hk hd
    simp only [encList, List.append_assoc]
    by_cases h : k ∈ subtrees t
    · exact fromEntry_enc t k _ h hd.1
    · have hk' : k ∈ subtreesList ts := hk.resolve_left h
      rw [fromEntry_skip _ t _ fun x hx e => hd.2.2 _ ⟨x, hx, rfl⟩ _ ⟨k, hk', rfl⟩ e]
      exact fromEntryList_enc ts k more hk' hd.2.1
end

theorem fromEntry_nulls (o n : Nat) : fromEntry o (List.replicate n .null) = none := by
  induction n with
  | zero => rfl
  | succ n ih => simpa [List.replicate_succ, fromEntry] using ih

/-- Reading at the offset of an entry starts with the entry. -/
theorem readFrom_node (us : List UnitOf) (h : Offsets us) (t : Tree Die) (ht : t ∈ nodes us) :
    ∃ trailing, readFrom (us.map encUnit) t.die.off = some (enc t ++ trailing) := by
  induction us with
  | nil => simp [nodes] at ht
  | cons u us ih =>
    simp only [Offsets, nodes, List.flatMap_cons, List.map_append, List.nodup_append, List.mem_map] at h
    simp only [readFrom, List.map_cons, List.findSome?_cons]
    by_cases hu : t ∈ subtrees u.1
    · obtain ⟨tr, e⟩ := fromEntry_enc u.1 t (List.replicate u.2 .null) hu h.1
      exact ⟨tr, by rw [encUnit, e]⟩
    · have ht' : t ∈ nodes us := by
        simp only [nodes, List.flatMap_cons, List.mem_append] at ht
        exact ht.resolve_left hu
      have hs : fromEntry t.die.off (encUnit u) = none := by
        rw [encUnit, fromEntry_skip _ u.1 _ fun x hx e => h.2.2 _ ⟨x, hx, rfl⟩ _ ⟨t, ht', rfl⟩ e, fromEntry_nulls]
      rw [hs]
      exact ih h.2.1 ht'

/-- Nothing is read at other offsets. -/
theorem readFrom_none (us : List UnitOf) (o : Nat) (h : ∀ t ∈ nodes us, t.die.off ≠ o) : readFrom (us.map encUnit) o = none := by
  induction us with
  | nil => rfl
  | cons u us ih =>
    simp only [nodes, List.flatMap_cons, List.mem_append] at h
    simp only [readFrom, List.map_cons, List.findSome?_cons]
    rw [encUnit, fromEntry_skip _ u.1 _ fun x hx => h x (.inl hx), fromEntry_nulls]
    exact ih fun t ht => h t (.inr ht)

theorem entry_node (us : List UnitOf) (h : Offsets us) (t : Tree Die) (ht : t ∈ nodes us) :
    (fileDb (us.map encUnit)).entry t.die.off = some t.die := by
  obtain ⟨tr, e⟩ := readFrom_node us h t ht
  simp only [fileDb, e, enc_eq', List.cons_append]

theorem children_node (us : List UnitOf) (h : Offsets us) (t : Tree Die) (ht : t ∈ nodes us) :
    (fileDb (us.map encUnit)).children t.die.off = .ok (t.kids.map fun k => k.die.off) := by
  obtain ⟨tr, e⟩ := readFrom_node us h t ht
  simp only [fileDb, e, childrenAt_enc]

theorem entry_none (us : List UnitOf) (o : Nat) (h : ∀ t ∈ nodes us, t.die.off ≠ o) : (fileDb (us.map encUnit)).entry o = none := by
  simp only [fileDb, readFrom_none us o h]

theorem children_none (us : List UnitOf) (o : Nat) (h : ∀ t ∈ nodes us, t.die.off ≠ o) : (fileDb (us.map encUnit)).children o = .err := by
  simp only [fileDb, readFrom_none us o h]

/-- An entry that is read is an entry of a tree of the file. -/
theorem entry_some (us : List UnitOf) (h : Offsets us) (o : Nat) (d : Die) :
    (fileDb (us.map encUnit)).entry o = some d ↔ ∃ t ∈ nodes us, t.die = d ∧ d.off = o := by
  constructor
  · intro e
    by_cases hx : ∀ t ∈ nodes us, t.die.off ≠ o
    · rw [entry_none us o hx] at e; cases e
    · simp only [Classical.not_forall, Decidable.not_not] at hx
      obtain ⟨t, ht, rfl⟩ := hx
      rw [entry_node us h t ht] at e
      cases e
      exact ⟨t, ht, rfl, rfl⟩
  · rintro ⟨t, ht, rfl, rfl⟩
    exact entry_node us h t ht

end Rudy.Entries
