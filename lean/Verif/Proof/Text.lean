import Verif.Proof.Shown
/-
Lemmas for C83: the lines of a text, and what is printed of a value line by line.
-/
set_option linter.unusedSimpArgs false
namespace Rudy.Shown
open Rudy Rudy.Layout Rudy.Eval Rudy.Expr

/-! ### Lines -/

/-- The cutLines of a text between its line feeds. -/
def cutLines : Str → List Str
  | [] => [[]]
  | c :: cs => if c = '\n' then [] :: cutLines cs else (c :: (cutLines cs).headD []) :: (cutLines cs).tail

theorem cutLines_ne (s : Str) : ∃ l ls, cutLines s = l :: ls := by
  cases s with
  | nil => exact ⟨_, _, rfl⟩
  | cons c cs => rw [cutLines]; split <;> exact ⟨_, _, rfl⟩

theorem joinWith_cons2 (sep s : Str) (r : List Str) (h : r ≠ []) : joinWith sep (s :: r) = s ++ sep ++ joinWith sep r := by
  cases r with
  | nil => exact absurd rfl h
  | cons t r => rfl

theorem join_cutLines : ∀ s : Str, joinWith ['\n'] (cutLines s) = s
  | [] => rfl
  | c :: cs => by
    obtain ⟨l, ls, h⟩ := cutLines_ne cs
    have ih := join_cutLines cs
    rw [cutLines]
    rw [h] at ih ⊢
    split
    · rename_i hc
      rw [joinWith_cons2 _ _ _ (by simp), ih, hc]; rfl
    · cases ls with
      | nil => simp only [joinWith] at ih; simp [joinWith, ih]
      | cons x xs =>
        simp only [joinWith] at ih
        simp only [List.headD_cons, List.tail_cons, joinWith, List.cons_append, ih]

theorem cutLines_inj {s t : Str} (h : cutLines s = cutLines t) : s = t := by rw [← join_cutLines s, h, join_cutLines]

theorem cutLines_line (l : Str) (h : '\n' ∉ l) : cutLines l = [l] := by
  induction l with
  | nil => rfl
  | cons c cs ih =>
    rw [cutLines, ih (fun hc => h (by simp [hc])), if_neg (fun e => h (by simp [e]))]
    rfl

theorem cutLines_append (l : Str) (h : '\n' ∉ l) (r : Str) : cutLines (l ++ '\n' :: r) = l :: cutLines r := by
  induction l with
  | nil => simp [cutLines]
  | cons c cs ih =>
    rw [List.cons_append, cutLines, ih (fun hc => h (by simp [hc])), if_neg (fun e => h (by simp [e]))]
    rfl

theorem cutLines_app : ∀ (l r : Str), cutLines (l ++ '\n' :: r) = cutLines l ++ cutLines r
  | [], r => by simp [cutLines]
  | c :: cs, r => by
    obtain ⟨l, ls, h⟩ := cutLines_ne cs
    rw [List.cons_append, cutLines, cutLines, cutLines_app cs r, h]
    split <;> rfl

theorem cutLines_join : ∀ ls : List Str, ls ≠ [] → (∀ l ∈ ls, '\n' ∉ l) → cutLines (joinWith ['\n'] ls) = ls
  | [], h, _ => absurd rfl h
  | [l], _, h => by rw [joinWith, cutLines_line l (h l (by simp))]
  | l :: x :: xs, _, h => by
    rw [joinWith_cons2 _ _ _ (by simp), List.append_assoc]
    show cutLines (l ++ '\n' :: joinWith ['\n'] (x :: xs)) = _
    rw [cutLines_append l (h l (by simp)), cutLines_join (x :: xs) (by simp) (fun y hy => h y (by simp [hy]))]

theorem mem_cutLines : ∀ (s : Str) (l : Str), l ∈ cutLines s → '\n' ∉ l
  | [], l, h => by simp [cutLines] at h; simp [h]
  | c :: cs, l, h => by
    obtain ⟨x, xs, hp⟩ := cutLines_ne cs
    have ih := mem_cutLines cs
    rw [cutLines, hp] at h
    rw [hp] at ih
    split at h
    · rcases List.mem_cons.1 h with rfl | h
      · simp
      · exact ih l h
    · rename_i hc
      rcases List.mem_cons.1 h with rfl | h
      · simp only [List.headD_cons, List.mem_cons, not_or]
        exact ⟨fun e => hc e.symm, ih x (by simp)⟩
      · exact ih l (by simp at h; simp [h])

/-- Without carriage returns, and without a line feed at the end, the lines are the cutLines. -/
theorem linesOf_eq : ∀ s : Str, s ≠ [] → '\r' ∉ s → s.getLast? ≠ some '\n' → linesOf s = cutLines s
  | [], h, _, _ => absurd rfl h
  | [c], _, hr, hl => by
    have : c ≠ '\n' := fun e => hl (by simp [e])
    simp [linesOf, cutLines, this]
  | c :: d :: cs, _, hr, hl => by
    have ih := linesOf_eq (d :: cs) (by simp) (fun h => hr (by simp at h; simp [h])) (by simpa using hl)
    obtain ⟨x, xs, hp⟩ := cutLines_ne (d :: cs)
    have hc : c ≠ '\r' := fun e => hr (by simp [e])
    rw [linesOf, cutLines, ih, hp]
    split
    · rfl
    · simp [hc]

/-- Two blanks in. -/
def inset (l : Str) : Str := ' ' :: ' ' :: l

theorem cutLines_indent (s : Str) (h : s ≠ []) (hr : '\r' ∉ s) (hl : s.getLast? ≠ some '\n') : cutLines (indent s) = (cutLines s).map inset := by
  rw [indent, linesOf_eq s h hr hl]
  refine cutLines_join _ ?_ ?_
  · obtain ⟨x, xs, hp⟩ := cutLines_ne s
    rw [hp]; simp
  · intro l hl
    obtain ⟨x, hx, rfl⟩ := List.mem_map.1 hl
    have := mem_cutLines s x hx
    simp [this]

theorem indent_nil : indent [] = [] := rfl

theorem inset_inj {a b : List Str} (h : a.map inset = b.map inset) : a = b :=
  (List.map_inj_right (fun _ _ e => by simpa [inset] using e)).1 h

/-- A line that cannot close a block. -/
def Inner (l : Str) : Prop := l.head? = some ' ' ∨ l = []

theorem split_inner {a b : List Str} {x y : Str} {r s : List Str} (ha : ∀ l ∈ a, Inner l) (hb : ∀ l ∈ b, Inner l) (hx : ¬ Inner x) (hy : ¬ Inner y)
    (h : a ++ x :: r = b ++ y :: s) : a = b ∧ x :: r = y :: s := by
  induction a generalizing b with
  | nil =>
    cases b with
    | nil => exact ⟨rfl, h⟩
    | cons c b => cases h; exact absurd (hb x (by simp)) hx
  | cons d a ih =>
    cases b with
    | nil => cases h; exact absurd (ha y (by simp)) hy
    | cons c b =>
      simp only [List.cons_append, List.cons.injEq] at h
      obtain ⟨e1, e2⟩ := ih (fun l hl => ha l (by simp [hl])) (fun l hl => hb l (by simp [hl])) h.2
      exact ⟨by rw [h.1, e1], e2⟩

/-! ### Separators -/

/-- There is a colon followed by a blank in the text. -/
def hasSep : Str → Bool
  | [] => false
  | [_] => false
  | c :: d :: r => (c == ':' && d == ' ') || hasSep (d :: r)

theorem hasSep_cons {c : Char} {s : Str} (h : hasSep (c :: s) = false) : hasSep s = false := by
  cases s with
  | nil => rfl
  | cons d r => simp only [hasSep, Bool.or_eq_false_iff] at h; exact h.2

theorem cut_sep {a b x y : Str} (ha : hasSep a = false) (hb : hasSep b = false) (h : a ++ ':' :: ' ' :: x = b ++ ':' :: ' ' :: y) : a = b ∧ x = y := by
  induction a generalizing b with
  | nil =>
    cases b with
    | nil => simp at h; exact ⟨rfl, h⟩
    | cons c b =>
      simp only [List.nil_append, List.cons_append, List.cons.injEq] at h
      obtain ⟨rfl, h⟩ := h
      cases b with
      | nil => simp at h
      | cons d b =>
        simp only [List.cons_append, List.cons.injEq] at h
        obtain ⟨rfl, _⟩ := h
        simp [hasSep] at hb
  | cons c a ih =>
    cases b with
    | nil =>
      simp only [List.nil_append, List.cons_append, List.cons.injEq] at h
      obtain ⟨rfl, h⟩ := h
      cases a with
      | nil => simp at h
      | cons d a =>
        simp only [List.cons_append, List.cons.injEq] at h
        obtain ⟨rfl, _⟩ := h
        simp [hasSep] at ha
    | cons d b =>
      simp only [List.cons_append, List.cons.injEq] at h
      obtain ⟨e1, e2⟩ := ih (hasSep_cons ha) (hasSep_cons hb) h.2
      exact ⟨by rw [h.1, e1], e2⟩

theorem cut_quote {a b x y : Str} (ha : '"' ∉ a) (hb : '"' ∉ b) (h : a ++ '"' :: x = b ++ '"' :: y) : a = b ∧ x = y := by
  induction a generalizing b with
  | nil =>
    cases b with
    | nil => simp at h; exact ⟨rfl, h⟩
    | cons c b => simp only [List.nil_append, List.cons_append, List.cons.injEq] at h; exact absurd (List.mem_cons.2 (.inl h.1)) hb
  | cons c a ih =>
    cases b with
    | nil => simp only [List.nil_append, List.cons_append, List.cons.injEq] at h; exact absurd (List.mem_cons.2 (.inl h.1.symm)) ha
    | cons d b =>
      simp only [List.cons_append, List.cons.injEq] at h
      obtain ⟨e1, e2⟩ := ih (fun q => ha (by simp [q])) (fun q => hb (by simp [q])) h.2
      exact ⟨by rw [h.1, e1], e2⟩

/-- A text without colon-blank does not have one before its end. -/
theorem no_sep_prefix {o t x y : Str} (ho : hasSep o = false) (ht : '\n' ∉ t) (h : t ++ ':' :: ' ' :: x = o ++ '\n' :: y) : False := by
  induction t generalizing o with
  | nil =>
    rcases o with _ | ⟨c, _ | ⟨d, o⟩⟩
    · simp at h
    · simp at h
    · simp only [List.nil_append, List.cons_append, List.cons.injEq] at h
      obtain ⟨rfl, rfl, _⟩ := h
      simp [hasSep] at ho
  | cons c t ih =>
    cases o with
    | nil => simp only [List.nil_append, List.cons_append, List.cons.injEq] at h; exact ht (by simp [h.1])
    | cons d o =>
      simp only [List.cons_append, List.cons.injEq] at h
      exact ih (hasSep_cons ho) (fun q => ht (by simp [q])) h.2

end Rudy.Shown
