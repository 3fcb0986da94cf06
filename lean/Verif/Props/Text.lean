import Verif.Proof.Text
import Verif.Props.Shown
/-
C83: different values look different.
-/
set_option linter.unusedSimpArgs false
namespace Rudy.Shown
open Rudy Rudy.Dwarf Rudy.Parse Rudy.Layout Rudy.Data Rudy.TypeRes Rudy.Eval Rudy.Expr

/-! ### Specification -/

/-- A text on one line, not empty. -/
def OneLine (t : Str) : Prop := t ≠ [] ∧ '\n' ∉ t ∧ '\r' ∉ t

/-- The text of a simple key: a text in double quotes without one inside, or one that does not begin with a double quote and in
which no colon is followed by a blank. -/
def Token (t : Str) : Prop := (∃ s, t = '"' :: (s ++ ['"']) ∧ '"' ∉ s) ∨ (t.head? ≠ some '"' ∧ hasSep t = false)

/-- The name of a type: on one line, no double quote first, no colon with a blank after it. -/
def TypeName (t : Str) : Prop := '\n' ∉ t ∧ '\r' ∉ t ∧ t.head? ≠ some '"' ∧ hasSep (t ++ [' ']) = false

/-- The name of a field. -/
def FieldName (t : Str) : Prop := '\n' ∉ t ∧ '\r' ∉ t ∧ hasSep t = false

mutual
/-- A value printed in full: at most ten elements everywhere, every text in it on one line, and the names and keys such that
one sees where they end. -/
def Full : RVal → Prop
  | .leaf t => OneLine t
  | .seq vs => vs.length ≤ 10 ∧ Fulls vs
  | .record t fs => TypeName t ∧ FullFields fs
  | .tuple t vs => TypeName t ∧ Fulls vs
  | .map es => es.length ≤ 10 ∧ FullEntries es
/-- All of these values. -/
def Fulls : List RVal → Prop
  | [] => True
  | v :: vs => Full v ∧ Fulls vs
/-- All of these fields. -/
def FullFields : List (Str × RVal) → Prop
  | [] => True
  | (n, v) :: vs => FieldName n ∧ Full v ∧ FullFields vs
/-- All of these entries. -/
def FullEntries : List (RVal × RVal) → Prop
  | [] => True
  | (k, v) :: vs => Full k ∧ (∀ t, k = .leaf t → Token t) ∧ Full v ∧ FullEntries vs
end

/-! ### The text of a block -/

theorem block_eq (o : Str) (items : List Str) (c : Str) :
    block o items c = o ++ '\n' :: (indent (joinWith [',', '\n'] items) ++ '\n' :: c) := by
  simp [block]

/-- A body: nothing, or lines of which the last is not empty. -/
def Body (s : Str) : Prop := s = [] ∨ ('\r' ∉ s ∧ s ≠ [] ∧ s.getLast? ≠ some '\n')

theorem inset_inner (l : Str) : Inner (inset l) := .inl rfl

theorem body_inner {s : Str} (h : Body s) : ∀ l ∈ cutLines (indent s), Inner l := by
  intro l hl
  rcases h with rfl | ⟨h1, h2, h3⟩
  · rw [indent_nil] at hl; simp [cutLines] at hl; exact .inr hl
  · rw [cutLines_indent s h2 h1 h3] at hl
    obtain ⟨x, _, rfl⟩ := List.mem_map.1 hl
    exact inset_inner x

theorem body_inj {s t : Str} (hs : Body s) (ht : Body t) (h : cutLines (indent s) = cutLines (indent t)) : s = t := by
  have no : ∀ u : Str, cutLines u ≠ [] := fun u => by obtain ⟨x, xs, e⟩ := cutLines_ne u; simp [e]
  have clash : ∀ u : Str, cutLines (indent []) ≠ (cutLines u).map inset := by
    intro u
    obtain ⟨x, xs, e⟩ := cutLines_ne u
    rw [e, indent_nil]
    simp [cutLines, inset]
  rcases hs with rfl | ⟨h1, h2, h3⟩ <;> rcases ht with rfl | ⟨k1, k2, k3⟩
  · rfl
  · rw [cutLines_indent t k2 k1 k3] at h; exact absurd h (clash t)
  · rw [cutLines_indent s h2 h1 h3] at h; exact absurd h.symm (clash s)
  · rw [cutLines_indent s h2 h1 h3, cutLines_indent t k2 k1 k3] at h
    exact cutLines_inj (inset_inj h)

theorem block_det {o p s t : Str} {c d : Char} {C D : Str} (ho : '\n' ∉ o) (hp : '\n' ∉ p) (hs : Body s) (ht : Body t)
    (hc : c ≠ ' ' ∧ c ≠ '\n') (hd : d ≠ ' ' ∧ d ≠ '\n')
    (h : o ++ '\n' :: (indent s ++ '\n' :: (c :: C)) = p ++ '\n' :: (indent t ++ '\n' :: (d :: D))) : o = p ∧ s = t ∧ c = d ∧ C = D := by
  replace h := congrArg cutLines h
  rw [cutLines_append o ho, cutLines_append p hp, cutLines_app, cutLines_app] at h
  simp only [List.cons.injEq] at h
  obtain ⟨rfl, h⟩ := h
  have split : ∀ (c : Char) (C : Str), c ≠ ' ' ∧ c ≠ '\n' → ∃ x r, cutLines (c :: C) = x :: r ∧ ¬ Inner x := by
    intro c C hc
    rw [cutLines, if_neg hc.2]
    refine ⟨_, _, rfl, ?_⟩
    rintro (e | e)
    · simp at e; exact hc.1 e
    · simp at e
  obtain ⟨x, r, ex, hx⟩ := split c C hc
  obtain ⟨y, r', ey, hy⟩ := split d D hd
  rw [ex, ey] at h
  obtain ⟨e1, e2⟩ := split_inner (body_inner hs) (body_inner ht) hx hy h
  rw [← ex, ← ey] at e2
  have := cutLines_inj e2
  simp only [List.cons.injEq] at this
  exact ⟨rfl, body_inj hs ht e1, this⟩

/-! ### Texts are bodies -/

/-- Not empty, no carriage return, no line feed at the end. -/
def Solid (s : Str) : Prop := '\r' ∉ s ∧ s ≠ [] ∧ s.getLast? ≠ some '\n'

theorem Solid.append {a b : Str} (ha : '\r' ∉ a) (hb : Solid b) : Solid (a ++ b) := by
  obtain ⟨h1, h2, h3⟩ := hb
  refine ⟨by simp [ha, h1], by simp [h2], ?_⟩
  rw [List.getLast?_append]
  cases hl : b.getLast? with
  | none => exact absurd (List.getLast?_eq_none_iff.1 hl) h2
  | some c => simp; rw [hl] at h3; simpa using h3

theorem solid_join (sep : Str) (hsep : '\r' ∉ sep) : ∀ ls : List Str, ls ≠ [] → (∀ l ∈ ls, Solid l) → Solid (joinWith sep ls)
  | [], h, _ => absurd rfl h
  | [l], _, h => h l (by simp)
  | l :: x :: xs, _, h => by
    rw [joinWith_cons2 _ _ _ (by simp)]
    exact Solid.append (by simp [(h l (by simp)).1, hsep]) (solid_join sep hsep (x :: xs) (by simp) (fun y hy => h y (by simp [hy])))

theorem body_join (ls : List Str) (h : ∀ l ∈ ls, Solid l) : Body (joinWith [',', '\n'] ls) := by
  by_cases hn : ls = []
  · subst hn; exact .inl rfl
  · exact .inr (solid_join _ (by decide) ls hn h)

theorem indent_clean {s : Str} (h : Body s) : '\r' ∉ indent s := by
  rcases h with rfl | ⟨h1, h2, h3⟩
  · simp [indent_nil]
  · rw [indent, linesOf_eq s h2 h1 h3]
    have key : ∀ ls : List Str, (∀ l ∈ ls, '\r' ∉ l) → '\r' ∉ joinWith ['\n'] ls := by
      intro ls
      induction ls with
      | nil => simp [joinWith]
      | cons x xs ih =>
        intro hx
        by_cases hn : xs = []
        · subst hn; exact hx x (by simp)
        · rw [joinWith_cons2 _ _ _ hn]
          simp only [List.mem_append, not_or]
          exact ⟨⟨hx x (by simp), by decide⟩, ih fun l hl => hx l (by simp [hl])⟩
    refine key _ ?_
    intro l hl
    obtain ⟨x, hx, rfl⟩ := List.mem_map.1 hl
    have : ∀ (s : Str), '\r' ∉ s → ∀ x ∈ cutLines s, '\r' ∉ x := by
      intro s
      induction s with
      | nil => intro _ x hx; simp [cutLines] at hx; simp [hx]
      | cons c cs ih =>
        intro hs x hx
        obtain ⟨y, ys, hp⟩ := cutLines_ne cs
        have ih := ih (fun q => hs (by simp [q]))
        rw [cutLines, hp] at hx
        rw [hp] at ih
        split at hx
        · rcases List.mem_cons.1 hx with rfl | hx
          · simp
          · exact ih x hx
        · rcases List.mem_cons.1 hx with rfl | hx
          · simp only [List.headD_cons, List.mem_cons, not_or]
            exact ⟨fun e => hs (List.mem_cons.2 (.inl e)), ih y (by simp)⟩
          · exact ih x (by simp at hx; simp [hx])
    have := this s h1 x hx
    simp [this]

theorem solid_block {o : Str} {items : List Str} {c : Char} (ho : '\r' ∉ o) (h : ∀ l ∈ items, Solid l) (hc : c ≠ '\n' ∧ c ≠ '\r') : Solid (block o items [c]) := by
  rw [block_eq]
  have : o ++ '\n' :: (indent (joinWith [',', '\n'] items) ++ '\n' :: [c]) = (o ++ '\n' :: (indent (joinWith [',', '\n'] items) ++ ['\n'])) ++ [c] := by simp
  rw [this]
  refine Solid.append ?_ ⟨by simpa using fun e => hc.2 e.symm, by simp, by simpa using hc.1⟩
  have := indent_clean (body_join items h)
  simp [ho, this]

mutual
theorem solid_text : ∀ v : RVal, Full v → Solid v.text
  | .leaf t, h => by
    obtain ⟨h1, h2, h3⟩ := h
    refine ⟨h3, h1, fun e => h2 (List.mem_of_getLast? e)⟩
  | .seq vs, h => by
    rw [RVal.text, if_pos h.1]
    exact solid_block (by decide) (solid_texts vs h.2) (by decide)
  | .record t fs, h => by
    rw [RVal.text]
    exact solid_block (by have := h.1.2.1; simp [this]) (solid_fields fs h.2) (by decide)
  | .tuple t vs, h => by
    rw [RVal.text]
    exact solid_block (by have := h.1.2.1; simp [this]) (solid_texts vs h.2) (by decide)
  | .map es, h => by
    rw [RVal.text, if_pos h.1]
    exact solid_block (by decide) (solid_entries es h.2) (by decide)
theorem solid_texts : ∀ vs : List RVal, Fulls vs → ∀ l ∈ texts vs, Solid l
  | [], _ => by simp [texts]
  | v :: vs, h => by
    intro l hl
    rw [texts] at hl
    rcases List.mem_cons.1 hl with rfl | hl
    · exact solid_text v h.1
    · exact solid_texts vs h.2 l hl
theorem solid_fields : ∀ vs : List (Str × RVal), FullFields vs → ∀ l ∈ fieldTexts vs, Solid l
  | [], _ => by simp [fieldTexts]
  | (n, v) :: vs, h => by
    intro l hl
    rw [fieldTexts] at hl
    rcases List.mem_cons.1 hl with rfl | hl
    · exact Solid.append (by have := h.1.2.1; simp [this]) (solid_text v h.2.1)
    · exact solid_fields vs h.2.2 l hl
theorem solid_entries : ∀ vs : List (RVal × RVal), FullEntries vs → ∀ l ∈ entryTexts vs, Solid l
  | [], _ => by simp [entryTexts]
  | (k, v) :: vs, h => by
    intro l hl
    rw [entryTexts] at hl
    rcases List.mem_cons.1 hl with rfl | hl
    · exact Solid.append (by have := (solid_text k h.1).1; simp [this]) (solid_text v h.2.2.1)
    · exact solid_entries vs h.2.2.2 l hl
end

/-! ### Reading a text back -/

/-- What may follow the text of a value: nothing or the next item, or, after a key, the value. -/
inductive Ends : Bool → Str → Prop where
  | last : Ends false []
  | next (r : Str) : Ends false (',' :: '\n' :: r)
  | value (r : Str) : Ends true (':' :: ' ' :: r)

/-- The value can stand where it stands. -/
def Fit (key : Bool) (v : RVal) : Prop := key = true → ∀ t, v = .leaf t → Token t

theorem leaf_leaf {key : Bool} {t u C D : Str} (ht : OneLine t) (hu : OneLine u) (ft : Fit key (.leaf t)) (fu : Fit key (.leaf u))
    (hC : Ends key C) (hD : Ends key D) (h : t ++ C = u ++ D) : t = u ∧ C = D := by
  cases hC with
  | last =>
    cases hD with
    | last => exact ⟨by simpa using h, rfl⟩
    | next r => exact absurd (by rw [List.append_nil] at h; rw [h]; simp) ht.2.1
  | next r =>
    cases hD with
    | last => exact absurd (by rw [List.append_nil] at h; rw [← h]; simp) hu.2.1
    | next r' =>
      have h : (t ++ [',']) ++ '\n' :: r = (u ++ [',']) ++ '\n' :: r' := by simpa using h
      have h := congrArg cutLines h
      rw [cutLines_append _ (by have := ht.2.1; simp [this]), cutLines_append _ (by have := hu.2.1; simp [this])] at h
      simp only [List.cons.injEq] at h
      exact ⟨List.append_cancel_right h.1, by rw [cutLines_inj h.2]⟩
  | value r =>
    cases hD with
    | value r' =>
      rcases ft rfl t rfl with ⟨s, rfl, hs⟩ | ⟨h1, h2⟩ <;> rcases fu rfl u rfl with ⟨s', rfl, hs'⟩ | ⟨k1, k2⟩
      · simp only [List.cons_append, List.append_assoc, List.cons.injEq, true_and, List.singleton_append, List.nil_append] at h
        obtain ⟨e1, e2⟩ := cut_quote hs hs' h
        exact ⟨by rw [e1], by simpa using e2⟩
      · cases u with
        | nil => simp at h
        | cons c u => simp at h k1; exact absurd h.1.symm k1
      · cases t with
        | nil => simp at h
        | cons c u => simp at h h1; exact absurd h.1 h1
      · obtain ⟨e1, e2⟩ := cut_sep h2 k2 h
        exact ⟨e1, by rw [e2]⟩

/-- The first line of a block. -/
structure Opener (o : Str) : Prop where
  line : '\n' ∉ o
  last : ∃ c, o.getLast? = some c ∧ c ≠ ','
  quote : o.head? ≠ some '"'
  sep : hasSep o = false

theorem leaf_block {key : Bool} {t o C y : Str} (ht : OneLine t) (ft : Fit key (.leaf t)) (ho : Opener o) (hC : Ends key C)
    (h : t ++ C = o ++ '\n' :: y) : False := by
  cases hC with
  | last => exact ht.2.1 (by rw [List.append_nil] at h; rw [h]; simp)
  | next r =>
    have h : (t ++ [',']) ++ '\n' :: r = o ++ '\n' :: y := by simpa using h
    have h := congrArg cutLines h
    rw [cutLines_append _ (by have := ht.2.1; simp [this]), cutLines_append _ ho.line] at h
    simp only [List.cons.injEq] at h
    obtain ⟨c, hc, hne⟩ := ho.last
    rw [← h.1] at hc
    simp at hc
    exact hne hc.symm
  | value r =>
    rcases ft rfl t rfl with ⟨s, rfl, hs⟩ | ⟨h1, h2⟩
    · have q := ho.quote
      cases o with
      | nil => simp at h
      | cons c o => simp at h q; exact q h.1.symm
    · exact no_sep_prefix ho.sep ht.2.1 h

theorem opener_seq : Opener (chars! "[") := ⟨by decide, ⟨'[', rfl, by decide⟩, by decide, by decide⟩
theorem opener_map : Opener (chars! "{") := ⟨by decide, ⟨'{', rfl, by decide⟩, by decide, by decide⟩

theorem hasSep_snoc : ∀ (s : Str) (c : Char), c ≠ ' ' → hasSep s = false → hasSep (s ++ [c]) = false
  | [], _, _, _ => rfl
  | [a], c, hc, _ => by simp [hasSep, hc]
  | a :: b :: r, c, hc, h => by
    have ih := hasSep_snoc (b :: r) c hc (hasSep_cons h)
    simp only [hasSep, Bool.or_eq_false_iff] at h
    simp only [List.cons_append, hasSep, Bool.or_eq_false_iff] at ih ⊢
    exact ⟨h.1, ih⟩

theorem opener_name {t : Str} (h : TypeName t) (c : Char) (hc : c ≠ ' ' ∧ c ≠ ',' ∧ c ≠ '\n') : Opener (t ++ [' ', c]) := by
  obtain ⟨h1, h2, h3, h4⟩ := h
  refine ⟨?_, ⟨c, by simp, hc.2.1⟩, ?_, ?_⟩
  · simp only [List.mem_append, List.mem_cons, List.not_mem_nil, or_false, not_or]
    exact ⟨h1, by decide, fun e => hc.2.2 e.symm⟩
  · cases t with
    | nil => simp
    | cons d t => simpa using h3
  · have := hasSep_snoc (t ++ [' ']) c hc.1 h4
    simpa using this

/-- What is printed of a value that is not a leaf. -/
theorem text_block : ∀ v : RVal, Full v → (∃ t, v = .leaf t) ∨
    ∃ o items c, v.text = block o items [c] ∧ Opener o ∧ (∀ l ∈ items, Solid l) ∧ (c = ']' ∨ c = '}' ∨ c = ')')
  | .leaf t, _ => .inl ⟨t, rfl⟩
  | .seq vs, h => .inr ⟨_, _, ']', by rw [RVal.text, if_pos h.1], opener_seq, solid_texts vs h.2, .inl rfl⟩
  | .record t fs, h => .inr ⟨t ++ [' ', '{'], _, '}', by rw [RVal.text], opener_name h.1 _ (by decide), solid_fields fs h.2, .inr (.inl rfl)⟩
  | .tuple t vs, h => .inr ⟨t ++ [' ', '('], _, ')', by rw [RVal.text], opener_name h.1 _ (by decide), solid_texts vs h.2, .inr (.inr rfl)⟩
  | .map es, h => .inr ⟨_, _, '}', by rw [RVal.text, if_pos h.1], opener_map, solid_entries es h.2, .inr (.inl rfl)⟩

theorem closer_ok {c : Char} (h : c = ']' ∨ c = '}' ∨ c = ')') : c ≠ ' ' ∧ c ≠ '\n' := by
  rcases h with rfl | rfl | rfl <;> decide

theorem blocks_det {o p : Str} {is js : List Str} {c d : Char} {C D : Str} (ho : Opener o) (hp : Opener p) (hi : ∀ l ∈ is, Solid l) (hj : ∀ l ∈ js, Solid l)
    (hc : c = ']' ∨ c = '}' ∨ c = ')') (hd : d = ']' ∨ d = '}' ∨ d = ')') (h : block o is [c] ++ C = block p js [d] ++ D) :
    o = p ∧ joinWith [',', '\n'] is = joinWith [',', '\n'] js ∧ c = d ∧ C = D := by
  rw [block_eq, block_eq] at h
  simp only [List.append_assoc, List.cons_append, List.nil_append] at h
  exact block_det ho.line hp.line (body_join is hi) (body_join js hj) (closer_ok hc) (closer_ok hd) h

theorem join_cons (x : Str) (xs : List Str) : ∃ C, Ends false C ∧ joinWith [',', '\n'] (x :: xs) = x ++ C ∧
    (xs = [] ∧ C = [] ∨ xs ≠ [] ∧ C = ',' :: '\n' :: joinWith [',', '\n'] xs) := by
  cases xs with
  | nil => exact ⟨[], .last, by simp [joinWith], .inl ⟨rfl, rfl⟩⟩
  | cons y ys => exact ⟨_, .next _, by rw [joinWith_cons2 _ _ _ (by simp)]; simp, .inr ⟨by simp, rfl⟩⟩

theorem join_ne {x : Str} {xs : List Str} (h : x ≠ []) : joinWith [',', '\n'] (x :: xs) ≠ [] := by
  obtain ⟨C, _, e, _⟩ := join_cons x xs
  rw [e]; simp [h]

/-- Items that are told apart one by one are told apart in a list. -/
theorem join_step {x y : Str} {xs ys : List Str} (h : joinWith [',', '\n'] (x :: xs) = joinWith [',', '\n'] (y :: ys))
    (hd : ∀ C D, Ends false C → Ends false D → x ++ C = y ++ D → C = D) : joinWith [',', '\n'] xs = joinWith [',', '\n'] ys ∧ (xs = [] ↔ ys = []) ∧
      ∃ C, Ends false C ∧ x ++ C = y ++ C := by
  obtain ⟨C, hC, e, hx⟩ := join_cons x xs
  obtain ⟨D, hD, e', hy⟩ := join_cons y ys
  rw [e, e'] at h
  have hCD := hd C D hC hD h
  subst hCD
  rcases hx with ⟨rfl, hx⟩ | ⟨hx', hx⟩ <;> rcases hy with ⟨rfl, hy⟩ | ⟨hy', hy⟩
  · exact ⟨rfl, by simp, C, hC, h⟩
  · rw [hx] at hy; simp at hy
  · rw [hy] at hx; simp at hx
  · rw [hx] at hy; simp at hy; exact ⟨hy, by simp [hx', hy'], C, hC, h⟩

theorem block_ne_leaf {key : Bool} {v : RVal} {t C D : Str} (ht : OneLine t) (ft : Fit key (.leaf t)) (hC : Ends key C) (hv : Full v) (hl : ∀ t, v ≠ .leaf t)
    (h : t ++ C = v.text ++ D) : False := by
  rcases text_block v hv with ⟨u, rfl⟩ | ⟨o, is, c, e, ho, -, -⟩
  · exact hl u rfl
  · rw [e, block_eq] at h
    simp only [List.append_assoc, List.cons_append] at h
    exact leaf_block ht ft ho hC h

mutual
theorem text_det : ∀ (v w : RVal), Full v → Full w → ∀ (key : Bool) (C D : Str), Fit key v → Fit key w → Ends key C → Ends key D →
    v.text ++ C = w.text ++ D → v = w ∧ C = D
  | .leaf t, w, hv, hw, key, C, D, fv, fw, hC, hD, h => by
    by_cases hl : ∃ u, w = .leaf u
    · obtain ⟨u, rfl⟩ := hl
      obtain ⟨e1, e2⟩ := leaf_leaf hv hw fv fw hC hD h
      exact ⟨by rw [e1], e2⟩
    · exact (block_ne_leaf hv fv hC hw (fun u e => hl ⟨u, e⟩) h).elim
  | .seq vs, w, hv, hw, key, C, D, fv, fw, hC, hD, h => by
    cases w with
    | leaf u => exact (block_ne_leaf hw fw hD hv (by simp) h.symm).elim
    | seq ws =>
      rw [RVal.text, RVal.text, if_pos hv.1, if_pos hw.1] at h
      obtain ⟨-, e, -, e'⟩ := blocks_det opener_seq opener_seq (solid_texts vs hv.2) (solid_texts ws hw.2) (.inl rfl) (.inl rfl) h
      exact ⟨by rw [texts_det vs ws hv.2 hw.2 e], e'⟩
    | record t fs =>
      rw [RVal.text, RVal.text, if_pos hv.1] at h
      obtain ⟨-, -, e, -⟩ := blocks_det opener_seq (opener_name hw.1 '{' (by decide)) (solid_texts vs hv.2) (solid_fields fs hw.2) (.inl rfl) (.inr (.inl rfl)) h
      exact absurd e (by decide)
    | tuple t fs =>
      rw [RVal.text, RVal.text, if_pos hv.1] at h
      obtain ⟨-, -, e, -⟩ := blocks_det opener_seq (opener_name hw.1 '(' (by decide)) (solid_texts vs hv.2) (solid_texts fs hw.2) (.inl rfl) (.inr (.inr rfl)) h
      exact absurd e (by decide)
    | map es =>
      rw [RVal.text, RVal.text, if_pos hv.1, if_pos hw.1] at h
      obtain ⟨-, -, e, -⟩ := blocks_det opener_seq opener_map (solid_texts vs hv.2) (solid_entries es hw.2) (.inl rfl) (.inr (.inl rfl)) h
      exact absurd e (by decide)
  | .record t fs, w, hv, hw, key, C, D, fv, fw, hC, hD, h => by
    cases w with
    | leaf u => exact (block_ne_leaf hw fw hD hv (by simp) h.symm).elim
    | seq ws =>
      rw [RVal.text, RVal.text, if_pos hw.1] at h
      obtain ⟨-, -, e, -⟩ := blocks_det (opener_name hv.1 '{' (by decide)) opener_seq (solid_fields fs hv.2) (solid_texts ws hw.2) (.inr (.inl rfl)) (.inl rfl) h
      exact absurd e (by decide)
    | record u gs =>
      rw [RVal.text, RVal.text] at h
      obtain ⟨e0, e, -, e'⟩ := blocks_det (opener_name hv.1 '{' (by decide)) (opener_name hw.1 '{' (by decide)) (solid_fields fs hv.2) (solid_fields gs hw.2)
        (.inr (.inl rfl)) (.inr (.inl rfl)) h
      exact ⟨by rw [List.append_cancel_right e0, fields_det fs gs hv.2 hw.2 e], e'⟩
    | tuple u ws =>
      rw [RVal.text, RVal.text] at h
      obtain ⟨-, -, e, -⟩ := blocks_det (opener_name hv.1 '{' (by decide)) (opener_name hw.1 '(' (by decide)) (solid_fields fs hv.2) (solid_texts ws hw.2)
        (.inr (.inl rfl)) (.inr (.inr rfl)) h
      exact absurd e (by decide)
    | map es =>
      rw [RVal.text, RVal.text, if_pos hw.1] at h
      obtain ⟨e, -⟩ := blocks_det (opener_name hv.1 '{' (by decide)) opener_map (solid_fields fs hv.2) (solid_entries es hw.2)
        (.inr (.inl rfl)) (.inr (.inl rfl)) h
      exact absurd (congrArg List.length e) (by simp)
  | .tuple t vs, w, hv, hw, key, C, D, fv, fw, hC, hD, h => by
    cases w with
    | leaf u => exact (block_ne_leaf hw fw hD hv (by simp) h.symm).elim
    | seq ws =>
      rw [RVal.text, RVal.text, if_pos hw.1] at h
      obtain ⟨-, -, e, -⟩ := blocks_det (opener_name hv.1 '(' (by decide)) opener_seq (solid_texts vs hv.2) (solid_texts ws hw.2) (.inr (.inr rfl)) (.inl rfl) h
      exact absurd e (by decide)
    | record u gs =>
      rw [RVal.text, RVal.text] at h
      obtain ⟨-, -, e, -⟩ := blocks_det (opener_name hv.1 '(' (by decide)) (opener_name hw.1 '{' (by decide)) (solid_texts vs hv.2) (solid_fields gs hw.2)
        (.inr (.inr rfl)) (.inr (.inl rfl)) h
      exact absurd e (by decide)
    | tuple u ws =>
      rw [RVal.text, RVal.text] at h
      obtain ⟨e0, e, -, e'⟩ := blocks_det (opener_name hv.1 '(' (by decide)) (opener_name hw.1 '(' (by decide)) (solid_texts vs hv.2) (solid_texts ws hw.2)
        (.inr (.inr rfl)) (.inr (.inr rfl)) h
      exact ⟨by rw [List.append_cancel_right e0, texts_det vs ws hv.2 hw.2 e], e'⟩
    | map es =>
      rw [RVal.text, RVal.text, if_pos hw.1] at h
      obtain ⟨-, -, e, -⟩ := blocks_det (opener_name hv.1 '(' (by decide)) opener_map (solid_texts vs hv.2) (solid_entries es hw.2)
        (.inr (.inr rfl)) (.inr (.inl rfl)) h
      exact absurd e (by decide)
  | .map es, w, hv, hw, key, C, D, fv, fw, hC, hD, h => by
    cases w with
    | leaf u => exact (block_ne_leaf hw fw hD hv (by simp) h.symm).elim
    | seq ws =>
      rw [RVal.text, RVal.text, if_pos hv.1, if_pos hw.1] at h
      obtain ⟨-, -, e, -⟩ := blocks_det opener_map opener_seq (solid_entries es hv.2) (solid_texts ws hw.2) (.inr (.inl rfl)) (.inl rfl) h
      exact absurd e (by decide)
    | record u gs =>
      rw [RVal.text, RVal.text, if_pos hv.1] at h
      obtain ⟨e, -⟩ := blocks_det opener_map (opener_name hw.1 '{' (by decide)) (solid_entries es hv.2) (solid_fields gs hw.2)
        (.inr (.inl rfl)) (.inr (.inl rfl)) h
      exact absurd (congrArg List.length e) (by simp)
    | tuple u ws =>
      rw [RVal.text, RVal.text, if_pos hv.1] at h
      obtain ⟨-, -, e, -⟩ := blocks_det opener_map (opener_name hw.1 '(' (by decide)) (solid_entries es hv.2) (solid_texts ws hw.2)
        (.inr (.inl rfl)) (.inr (.inr rfl)) h
      exact absurd e (by decide)
    | map gs =>
      rw [RVal.text, RVal.text, if_pos hv.1, if_pos hw.1] at h
      obtain ⟨-, e, -, e'⟩ := blocks_det opener_map opener_map (solid_entries es hv.2) (solid_entries gs hw.2) (.inr (.inl rfl)) (.inr (.inl rfl)) h
      exact ⟨by rw [entries_det es gs hv.2 hw.2 e], e'⟩
theorem texts_det : ∀ (vs ws : List RVal), Fulls vs → Fulls ws → joinWith [',', '\n'] (texts vs) = joinWith [',', '\n'] (texts ws) → vs = ws
  | [], [], _, _, _ => rfl
  | [], w :: ws, _, hw, h => absurd h.symm (join_ne (solid_text w hw.1).2.1)
  | v :: vs, [], hv, _, h => absurd h (join_ne (solid_text v hv.1).2.1)
  | v :: vs, w :: ws, hv, hw, h => by
    rw [texts, texts] at h
    have det := fun C D hC hD e => text_det v w hv.1 hw.1 false C D (by simp [Fit]) (by simp [Fit]) hC hD e
    obtain ⟨e, -, C, hC, hx⟩ := join_step h (fun C D hC hD e => (det C D hC hD e).2)
    rw [(det C C hC hC hx).1, texts_det vs ws hv.2 hw.2 e]
theorem fields_det : ∀ (vs ws : List (Str × RVal)), FullFields vs → FullFields ws →
    joinWith [',', '\n'] (fieldTexts vs) = joinWith [',', '\n'] (fieldTexts ws) → vs = ws
  | [], [], _, _, _ => rfl
  | [], (n, w) :: ws, _, hw, h => absurd h.symm (join_ne (by simp))
  | (n, v) :: vs, [], hv, _, h => absurd h (join_ne (by simp))
  | (n, v) :: vs, (n', w) :: ws, hv, hw, h => by
    rw [fieldTexts, fieldTexts] at h
    have det : ∀ C D, Ends false C → Ends false D → (n ++ chars! ": " ++ v.text) ++ C = (n' ++ chars! ": " ++ w.text) ++ D → (n = n' ∧ v = w) ∧ C = D := by
      intro C D hC hD e
      have e : n ++ ':' :: ' ' :: (v.text ++ C) = n' ++ ':' :: ' ' :: (w.text ++ D) := by simpa using e
      obtain ⟨e1, e2⟩ := cut_sep hv.1.2.2 hw.1.2.2 e
      obtain ⟨e3, e4⟩ := text_det v w hv.2.1 hw.2.1 false C D (by simp [Fit]) (by simp [Fit]) hC hD e2
      exact ⟨⟨e1, e3⟩, e4⟩
    obtain ⟨e, -, C, hC, hx⟩ := join_step h (fun C D hC hD e => (det C D hC hD e).2)
    obtain ⟨⟨e1, e2⟩, -⟩ := det C C hC hC hx
    rw [e1, e2, fields_det vs ws hv.2.2 hw.2.2 e]
theorem entries_det : ∀ (vs ws : List (RVal × RVal)), FullEntries vs → FullEntries ws →
    joinWith [',', '\n'] (entryTexts vs) = joinWith [',', '\n'] (entryTexts ws) → vs = ws
  | [], [], _, _, _ => rfl
  | [], (n, w) :: ws, _, hw, h => absurd h.symm (join_ne (by simp))
  | (n, v) :: vs, [], hv, _, h => absurd h (join_ne (by simp))
  | (n, v) :: vs, (n', w) :: ws, hv, hw, h => by
    rw [entryTexts, entryTexts] at h
    have det : ∀ C D, Ends false C → Ends false D → (n.text ++ chars! ": " ++ v.text) ++ C = (n'.text ++ chars! ": " ++ w.text) ++ D →
        (n = n' ∧ v = w) ∧ C = D := by
      intro C D hC hD e
      have e : n.text ++ ':' :: ' ' :: (v.text ++ C) = n'.text ++ ':' :: ' ' :: (w.text ++ D) := by simpa using e
      obtain ⟨e1, e2⟩ := text_det n n' hv.1 hw.1 true _ _ (fun _ => hv.2.1) (fun _ => hw.2.1) (.value _) (.value _) e
      simp only [List.cons.injEq, true_and] at e2
      obtain ⟨e3, e4⟩ := text_det v w hv.2.2.1 hw.2.2.1 false C D (by simp [Fit]) (by simp [Fit]) hC hD e2
      exact ⟨⟨e1, e3⟩, e4⟩
    obtain ⟨e, -, C, hC, hx⟩ := join_step h (fun C D hC hD e => (det C D hC hD e).2)
    obtain ⟨⟨e1, e2⟩, -⟩ := det C C hC hC hx
    rw [e1, e2, entries_det vs ws hv.2.2.2 hw.2.2.2 e]
end

/-! ### Specification: the lines of a value -/

/-- The lines of two texts one after the other: the last line of the first goes on with the first line of the second. -/
def weld : List Str → List Str → List Str
  | [], ys => ys
  | [x], [] => [x]
  | [x], y :: ys => (x ++ y) :: ys
  | x :: x' :: xs, ys => x :: weld (x' :: xs) ys

/-- The lines between the first and the last line of a block, with the lines of its items given: two blanks in, a comma after
every item but the last; one empty line if there is no item. -/
def bodyLines : List (List Str) → List Str
  | [] => [[]]
  | [x] => x.map (chars! "  " ++ ·)
  | x :: y :: r => (weld x [chars! ","]).map (chars! "  " ++ ·) ++ bodyLines (y :: r)

mutual
/-- The lines a value is printed on, if it is printed in full. -/
def RVal.lines : RVal → List Str
  | .leaf t => [t]
  | .seq vs => [chars! "["] ++ bodyLines (itemLines vs) ++ [chars! "]"]
  | .record t fs => [t ++ chars! " {"] ++ bodyLines (fieldLines fs) ++ [chars! "}"]
  | .tuple t vs => [t ++ chars! " ("] ++ bodyLines (itemLines vs) ++ [chars! ")"]
  | .map es => [chars! "{"] ++ bodyLines (entryLines es) ++ [chars! "}"]
/-- The lines of some values. -/
def itemLines : List RVal → List (List Str)
  | [] => []
  | v :: vs => v.lines :: itemLines vs
/-- The lines of some fields. -/
def fieldLines : List (Str × RVal) → List (List Str)
  | [] => []
  | (n, v) :: vs => weld [n ++ chars! ": "] v.lines :: fieldLines vs
/-- The lines of some entries. -/
def entryLines : List (RVal × RVal) → List (List Str)
  | [] => []
  | (k, v) :: vs => weld (weld k.lines [chars! ": "]) v.lines :: entryLines vs
end

theorem weld_cons (x : Str) (xs ys : List Str) (h : xs ≠ []) : weld (x :: xs) ys = x :: weld xs ys := by
  cases xs with
  | nil => exact absurd rfl h
  | cons y r => rfl

theorem cutLines_weld : ∀ a b : Str, cutLines (a ++ b) = weld (cutLines a) (cutLines b)
  | [], b => by
    obtain ⟨l, ls, h⟩ := cutLines_ne b
    rw [List.nil_append, h]; rfl
  | c :: cs, b => by
    obtain ⟨l, ls, h⟩ := cutLines_ne cs
    rw [List.cons_append, cutLines, cutLines, cutLines_weld cs b, h]
    split
    · rfl
    · cases ls with
      | nil =>
        obtain ⟨l', ls', h'⟩ := cutLines_ne b
        rw [h']; rfl
      | cons y r => rfl

theorem solid_indent {s : Str} (h : Solid s) : cutLines (indent s) = (cutLines s).map (chars! "  " ++ ·) :=
  cutLines_indent s h.2.1 h.1 h.2.2

theorem bodyLines_eq : ∀ items : List Str, (∀ l ∈ items, Solid l) →
    cutLines (indent (joinWith [',', '\n'] items)) = bodyLines (items.map cutLines)
  | [], _ => rfl
  | [x], h => by
    rw [joinWith]
    exact solid_indent (h x (by simp))
  | x :: y :: r, h => by
    have ih := bodyLines_eq (y :: r) (fun l hl => h l (by simp [hl]))
    have hs := solid_join [',', '\n'] (by decide) (y :: r) (by simp) (fun l hl => h l (by simp [hl]))
    rw [solid_indent hs] at ih
    rw [solid_indent (solid_join _ (by decide) _ (by simp) h), joinWith_cons2 _ _ _ (by simp), List.map_cons, List.map_cons, bodyLines]
    rw [List.map_cons] at ih
    rw [← ih, show x ++ [',', '\n'] ++ joinWith [',', '\n'] (y :: r) = (x ++ [',']) ++ '\n' :: joinWith [',', '\n'] (y :: r) by simp,
      cutLines_app, cutLines_weld, List.map_append]
    rfl

theorem lines_block {o : Str} {items : List Str} {c : Char} (ho : '\n' ∉ o) (hi : ∀ l ∈ items, Solid l) (hc : c ≠ '\n') :
    cutLines (block o items [c]) = [o] ++ bodyLines (items.map cutLines) ++ [[c]] := by
  rw [block_eq, cutLines_append o ho, cutLines_app, bodyLines_eq items hi, cutLines_line [c] (by simpa using fun e => hc e.symm)]
  simp

mutual
theorem lines_text : ∀ v : RVal, Full v → cutLines v.text = v.lines
  | .leaf t, h => by rw [RVal.text, RVal.lines, cutLines_line t h.2.1]
  | .seq vs, h => by
    rw [RVal.text, if_pos h.1, RVal.lines, lines_block (by decide) (solid_texts vs h.2) (by decide), lines_texts vs h.2]
  | .record t fs, h => by
    rw [RVal.text, RVal.lines, lines_block (by have := h.1.1; simp [this]) (solid_fields fs h.2) (by decide), lines_fields fs h.2]
  | .tuple t vs, h => by
    rw [RVal.text, RVal.lines, lines_block (by have := h.1.1; simp [this]) (solid_texts vs h.2) (by decide), lines_texts vs h.2]
  | .map es, h => by
    rw [RVal.text, if_pos h.1, RVal.lines, lines_block (by decide) (solid_entries es h.2) (by decide), lines_entries es h.2]
theorem lines_texts : ∀ vs : List RVal, Fulls vs → (texts vs).map cutLines = itemLines vs
  | [], _ => rfl
  | v :: vs, h => by rw [texts, itemLines, List.map_cons, lines_text v h.1, lines_texts vs h.2]
theorem lines_fields : ∀ vs : List (Str × RVal), FullFields vs → (fieldTexts vs).map cutLines = fieldLines vs
  | [], _ => rfl
  | (n, v) :: vs, h => by
    rw [fieldTexts, fieldLines, List.map_cons, cutLines_weld, cutLines_line (n ++ _) (by have := h.1.1; simp [this]), lines_text v h.2.1, lines_fields vs h.2.2]
theorem lines_entries : ∀ vs : List (RVal × RVal), FullEntries vs → (entryTexts vs).map cutLines = entryLines vs
  | [], _ => rfl
  | (k, v) :: vs, h => by
    rw [entryTexts, entryLines, List.map_cons, cutLines_weld, cutLines_weld, cutLines_line (chars! ": ") (by decide), lines_text k h.1, lines_text v h.2.2.1,
      lines_entries vs h.2.2.2]
end

/-- C83: a value printed in full is printed on these lines. -/
theorem C83_lines (v : RVal) (h : Full v) : v.text = joinWith (chars! "\n") v.lines := by
  rw [← lines_text v h, join_cutLines]

/-- C83: values printed in full that look alike are alike. -/
theorem C83_distinct (v w : RVal) (hv : Full v) (hw : Full w) (h : v.text = w.text) : v = w :=
  (text_det v w hv hw false [] [] (by simp [Fit]) (by simp [Fit]) .last .last (by rw [h])).1

section
variable {typedef : Nat → Option Layout} {db : Db} {m m' : Mem} {lossy : List UInt8 → Str} {floatStr : Nat → Nat → Str}

/-- C83: the same for what is shown of two places of one type, be it in one process or in two, or before and after a step (values
nested at most four levels, as in C76). -/
theorem C83_shown_partial (hw : WellFormed db) (hdec : Decodes db) {n n' a a' e : Nat} {v v' : RVal} (hn : n ≤ 4) (hn' : n' ≤ 4)
    (h : Holds typedef db m lossy floatStr n a e v) (h' : Holds typedef db m' lossy floatStr n' a' e v') (hf : Full v) (hf' : Full v') :
    ∃ N, ∀ (σ : Type) (W W' : World σ) (ex ex' : Expr) (s s1 s' s1' : St σ) (td td' : TypeDef) (depth : Nat), N ≤ depth → N ≤ W.stack → N ≤ W'.stack →
      W.target s1.proc = target typedef db m lossy floatStr depth → W'.target s1'.proc = target typedef db m' lossy floatStr depth →
      resolveType typedef db depth e = .ok td ∨ shallow typedef db depth e = .ok td →
      resolveType typedef db depth e = .ok td' ∨ shallow typedef db depth e = .ok td' →
      toRef W ex s = (.ok (a, td), s1) → toRef W' ex' s' = (.ok (a', td'), s1') →
      (evaluate W ex s).1 = (evaluate W' ex' s').1 → v = v' := by
  obtain ⟨N, hN⟩ := C76_shown_partial hw hdec hn h
  obtain ⟨N', hN'⟩ := C76_shown_partial hw hdec hn' h'
  refine ⟨max N N', fun σ W W' ex ex' s s1 s' s1' td td' depth hd hs hs' hT hT' htd htd' hp hp' he => ?_⟩
  rw [hN σ W ex s s1 td depth (by omega) (by omega) hT htd hp, hN' σ W' ex' s' s1' td' depth (by omega) (by omega) hT' htd' hp'] at he
  simp only [Res.ok.injEq, Prod.mk.injEq] at he
  exact C83_distinct v v' hf hf' he.1

/-! ### Where values that differ look alike -/

/-- More than ten elements are only counted. -/
theorem C83_long_fails (hw : WellFormed db) (hdec : Decodes db) {n a a' e : Nat} {vs vs' : List RVal} (hn : n ≤ 4)
    (h : Holds typedef db m lossy floatStr n a e (.seq vs)) (h' : Holds typedef db m' lossy floatStr n a' e (.seq vs'))
    (hl : vs.length = vs'.length) (h10 : 10 < vs.length) :
    ∃ N, ∀ (σ : Type) (W W' : World σ) (ex ex' : Expr) (s s1 s' s1' : St σ) (td : TypeDef) (depth : Nat), N ≤ depth → N ≤ W.stack → N ≤ W'.stack →
      W.target s1.proc = target typedef db m lossy floatStr depth → W'.target s1'.proc = target typedef db m' lossy floatStr depth →
      resolveType typedef db depth e = .ok td ∨ shallow typedef db depth e = .ok td →
      toRef W ex s = (.ok (a, td), s1) → toRef W' ex' s' = (.ok (a', td), s1') →
      (evaluate W ex s).1 = (evaluate W' ex' s').1 := by
  obtain ⟨N, hN⟩ := C76_shown_partial hw hdec hn h
  obtain ⟨N', hN'⟩ := C76_shown_partial hw hdec hn h'
  refine ⟨max N N', fun σ W W' ex ex' s s1 s' s1' td depth hd hs hs' hT hT' htd hp hp' => ?_⟩
  rw [hN σ W ex s s1 td depth (by omega) (by omega) hT htd hp, hN' σ W' ex' s' s1' td depth (by omega) (by omega) hT' htd hp']
  rw [RVal.text, RVal.text, if_neg (by omega), if_neg (by omega), hl]

end

/-- Texts are not escaped: one text with quotes, a comma and a line feed in it looks like two texts. -/
theorem C83_quotes_fail (s t : Str) : (RVal.seq [.leaf (chars! "\"" ++ (s ++ chars! "\",\n\"" ++ t) ++ chars! "\"")]).text =
    (RVal.seq [.leaf (chars! "\"" ++ s ++ chars! "\""), .leaf (chars! "\"" ++ t ++ chars! "\"")]).text := by
  simp [RVal.text, texts, block, joinWith]

/-- Line ends of a text in a collection are all made alike. -/
theorem C83_crlf_fails : (RVal.seq [.leaf (chars! "\"a\r\nb\"")]).text = (RVal.seq [.leaf (chars! "\"a\nb\"")]).text := by
  decide

/-! ### Values printed in full -/

example : Full (.map [(.leaf (chars! "\"a: b\""), .seq [.leaf (chars! "1"), .leaf (chars! "2")]),
    (.record (chars! "Key") [(chars! "id", .leaf (chars! "7"))], .seq [])]) := by
  refine ⟨by decide, ⟨by decide, by decide, by decide⟩, ?_, ⟨by decide, ⟨by decide, by decide, by decide⟩, ⟨by decide, by decide, by decide⟩, trivial⟩,
    ⟨⟨by decide, by decide, by decide, by decide⟩, ⟨by decide, by decide, by decide⟩, ⟨by decide, by decide, by decide⟩, trivial⟩, by simp, ⟨by decide, trivial⟩, trivial⟩
  rintro t e
  cases e
  exact .inl ⟨chars! "a: b", rfl, by decide⟩

example : (RVal.map [(.leaf (chars! "\"a: b\""), .seq [.leaf (chars! "1"), .leaf (chars! "2")]),
    (.record (chars! "Key") [(chars! "id", .leaf (chars! "7"))], .seq [])]).lines =
  [chars! "{", chars! "  \"a: b\": [", chars! "    1,", chars! "    2", chars! "  ],", chars! "  Key {", chars! "    id: 7", chars! "  }: [", chars! "  ", chars! "  ]", chars! "}"] := by
  decide

end Rudy.Shown
