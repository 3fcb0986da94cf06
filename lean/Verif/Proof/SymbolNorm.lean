import Verif.Proof.SymbolSplit
/- White-space normalisation lemmas and consequences for `parseSymbol`. -/
namespace Rudy.Symbols
open Rudy

def preWords (W : List Str) : Str := W.flatMap (· ++ [' '])

theorem joinWords_append_singleton (W : List Str) (w : Str) :
    joinWords (W ++ [w]) = preWords W ++ w := by
  induction W with
  | nil => simp [joinWords, preWords]
  | cons v vs ih =>
    cases vs with
    | nil => simp [joinWords, preWords]
    | cons x xs =>
      simp only [List.cons_append, joinWords] at ih ⊢
      rw [ih]; simp [preWords]

theorem preWords_append (W : List Str) (w : Str) :
    preWords (W ++ [w]) = preWords W ++ (w ++ [' ']) := by
  simp [preWords]

def cstep (cur : Str) (c : Char) : Str := if isBlank c then pushBlank cur else cur ++ [c]

theorem isBlank_space : isBlank ' ' = true := by decide

theorem pushBlank_pre (W : List Str) : pushBlank (preWords W) = preWords W := by
  rcases List.eq_nil_or_concat W with rfl | ⟨V, v, rfl⟩
  · simp [preWords, pushBlank]
  · rw [show V.concat v = V ++ [v] by simp, preWords_append]
    rw [show preWords V ++ (v ++ [' ']) = (preWords V ++ v) ++ [' '] by simp]
    simp [pushBlank]

theorem pushBlank_word (x w : Str) (hw : w ≠ []) (hb : ∀ c ∈ w, isBlank c = false) :
    pushBlank (x ++ w) = x ++ w ++ [' '] := by
  rcases List.eq_nil_or_concat w with rfl | ⟨v, c, rfl⟩
  · exact absurd rfl hw
  · have : c ≠ ' ' := by
      intro h
      have := hb c (by simp)
      rw [h, isBlank_space] at this; cases this
    rw [show v.concat c = v ++ [c] by simp, ← List.append_assoc]
    simp [pushBlank, this]

theorem fold_words (p : Str) : ∀ (W : List Str) (w : Str), (∀ c ∈ w, isBlank c = false) →
    ∃ t, (t = [] ∨ t = [' ']) ∧
      p.foldl cstep (preWords W ++ w) = joinWords (W ++ wordsAux p w) ++ t := by
  induction p with
  | nil =>
    intro W w hw
    cases w with
    | nil =>
      rcases List.eq_nil_or_concat W with rfl | ⟨V, v, rfl⟩
      · exact ⟨[], Or.inl rfl, by simp [wordsAux, joinWords, preWords]⟩
      · refine ⟨[' '], Or.inr rfl, ?_⟩
        rw [show V.concat v = V ++ [v] by simp]
        simp [wordsAux, joinWords_append_singleton, preWords_append]
    | cons a b =>
      refine ⟨[], Or.inl rfl, ?_⟩
      simp [wordsAux, joinWords_append_singleton]
  | cons c cs ih =>
    intro W w hw
    by_cases hb : isBlank c
    · cases w with
      | nil =>
        obtain ⟨t, ht, he⟩ := ih W [] (by simp)
        refine ⟨t, ht, ?_⟩
        simp only [List.foldl_cons, cstep, hb, if_true, List.append_nil, pushBlank_pre, wordsAux,
          List.isEmpty_nil] at he ⊢
        exact he
      | cons a b =>
        obtain ⟨t, ht, he⟩ := ih (W ++ [a :: b]) [] (by simp)
        refine ⟨t, ht, ?_⟩
        simp only [List.foldl_cons]
        rw [show cstep (preWords W ++ a :: b) c = preWords (W ++ [a :: b]) by
          simp only [cstep, hb, if_true]
          rw [pushBlank_word _ _ (by simp) hw, preWords_append]; simp]
        simp only [List.append_nil] at he
        rw [he]
        simp [wordsAux, hb]
    · obtain ⟨t, ht, he⟩ := ih W (w ++ [c]) (by
        intro x hx
        rcases List.mem_append.1 hx with hx | hx
        · exact hw x hx
        · simp at hx; subst hx; simpa using hb)
      refine ⟨t, ht, ?_⟩
      simp only [List.foldl_cons]
      rw [show cstep (preWords W ++ w) c = preWords W ++ (w ++ [c]) by simp [cstep, hb]]
      rw [he]; simp [wordsAux, hb]

theorem trim_append_space (x : Str) : trim (x ++ [' ']) = trim x := by
  have hsp : isRustWhitespace ' ' = true := by decide
  unfold trim
  rw [List.dropWhile_append]
  split
  · rename_i h
    have : x.dropWhile isRustWhitespace = [] := by simpa using h
    simp [this, hsp]
  · simp [hsp]

theorem trim_collapse (p : Str) : trim (collapse p) = normalise p := by
  obtain ⟨t, ht, he⟩ := fold_words p [] [] (by simp)
  have h1 : collapse p = joinWords (words p) ++ t := by
    have : collapse p = p.foldl cstep [] := rfl
    rw [this]
    simpa [preWords, words] using he
  rw [h1, normalise]
  rcases ht with rfl | rfl
  · simp
  · exact trim_append_space _

theorem collapse_keeps_text (p : Str) (ht : hasText p = true) :
    ∃ c ∈ collapse p, c ∈ p ∧ isBlank c = false := by
  have main : ∀ n, ∀ l : Str, l.length = n → (∃ c ∈ l, isBlank c = false) →
      ∃ c ∈ collapse l, c ∈ l ∧ isBlank c = false := by
    intro n
    induction n with
    | zero => intro l hl ⟨c, hc, _⟩; simp at hl; subst hl; simp at hc
    | succ n ih =>
      intro l hl ⟨c, hc, hb⟩
      rcases List.eq_nil_or_concat l with rfl | ⟨l', d, rfl⟩
      · simp at hl
      · have hd : l'.concat d = l' ++ [d] := by simp
        rw [hd] at hc hl ⊢
        rw [collapse_append_singleton]
        by_cases hdb : isBlank d = true
        · have hc' : c ∈ l' := by
            rcases List.mem_append.1 hc with h | h
            · exact h
            · simp at h; subst h; rw [hb] at hdb; cases hdb
          obtain ⟨x, hx1, hx2, hx3⟩ := ih l' (by simp at hl; exact hl) ⟨c, hc', hb⟩
          refine ⟨x, ?_, by simp [hx2], hx3⟩
          simp only [hdb, if_true, pushBlank]
          split
          · exact List.mem_append_left _ hx1
          · exact hx1
        · refine ⟨d, ?_, by simp, by simpa using hdb⟩
          simp [hdb]
  exact main p.length p rfl (by simpa [hasText] using ht)

theorem dropWhile_nil (f : Char → Bool) (l : Str) (h : l.dropWhile f = []) : ∀ x ∈ l, f x = true := by
  induction l with
  | nil => simp
  | cons a t ih =>
    simp only [List.dropWhile_cons] at h
    split at h
    · rename_i ha
      intro x hx
      rcases List.mem_cons.1 hx with rfl | hx
      · exact ha
      · exact ih h x hx
    · cases h

theorem trim_nil (l : Str) (h : trim l = []) : ∀ x ∈ l, isRustWhitespace x = true := by
  unfold trim at h
  rw [List.reverse_eq_nil_iff] at h
  have h2 := dropWhile_nil _ _ h
  by_cases h3 : l.dropWhile isRustWhitespace = []
  · exact dropWhile_nil _ _ h3
  · exfalso
    have hh := List.head_dropWhile_not isRustWhitespace h3
    have := h2 _ (List.mem_reverse.2 (List.head_mem h3))
    rw [this] at hh; cases hh

/-- Segments of a symbol according to the specification. -/
def specSegments (pieces : List Str) : List Str := (pieces.filter hasText).map normalise

theorem scan_segments (s : Str) :
    ∃ pieces, IsTopSplit s pieces ∧ scan s [] [] 0 = specSegments pieces := by
  obtain ⟨pieces, h1, h2⟩ := scan_spec s [] [] noTopSep_nil (by
    intro _ a b hab
    have := congrArg List.length hab
    simp at this; omega)
  refine ⟨pieces, by simpa using h1, ?_⟩
  have : segsOf pieces = specSegments pieces := by
    simp [segsOf, specSegments, trim_collapse]
  rw [← this]
  simpa [collapse, depth] using h2

theorem dropLast_getLast? {α} (l : List α) (a : α) (h : l.getLast? = some a) :
    l.dropLast ++ [a] = l := by
  rw [List.getLast?_eq_some_iff] at h
  obtain ⟨ys, rfl⟩ := h; simp

theorem parse_segments (s : Str) (r : Parsed) (h : parseSymbol s = some r) :
    r.modulePath ++ [r.name] ++ r.hash.toList = scan s [] [] 0 := by
  unfold parseSymbol at h
  simp only at h
  split at h
  · cases h
  · rename_i last hl
    split at h
    · split at h
      · cases h
      · rename_i fn hf
        cases h
        simp only [Option.toList]
        rw [dropLast_getLast? _ _ hf, dropLast_getLast? _ _ hl]
    · cases h
      simp only [Option.toList, List.append_nil]
      exact dropLast_getLast? _ _ hl

theorem parse_hash (s : Str) (r : Parsed) (h : parseSymbol s = some r) :
    (∀ x, r.hash = some x → looksLikeHash x = true) ∧
    (r.hash = none → looksLikeHash r.name = false) := by
  unfold parseSymbol at h
  simp only at h
  split at h
  · cases h
  · rename_i last hl
    split at h
    · rename_i hh
      split at h
      · cases h
      · cases h; simp [hh]
    · rename_i hh
      cases h; simp at hh; simp [hh]

theorem parse_none (s : Str) :
    parseSymbol s = none ↔ scan s [] [] 0 = [] ∨
      ∃ x, scan s [] [] 0 = [x] ∧ looksLikeHash x = true := by
  unfold parseSymbol
  simp only
  generalize scan s [] [] 0 = segs
  rcases List.eq_nil_or_concat segs with rfl | ⟨l, last, rfl⟩
  · simp
  · rw [show l.concat last = l ++ [last] by simp]
    simp only [List.getLast?_append, List.getLast?_singleton, Option.some_or, List.dropLast_concat]
    rcases List.eq_nil_or_concat l with rfl | ⟨l', y, rfl⟩
    · cases hh : looksLikeHash last <;> simp [hh]
    · rw [show l'.concat y = l' ++ [y] by simp]
      cases hh : looksLikeHash last <;> simp <;>
        (intro x hx; have := congrArg List.length hx; simp at this)

theorem parse_of_segments (s : Str) (ms : List Str) (n : Str)
    (h : scan s [] [] 0 = ms ++ [n]) (hn : looksLikeHash n = false) :
    parseSymbol s = some ⟨ms, n, none⟩ := by
  unfold parseSymbol
  simp [h, hn]

theorem parse_of_segments_hash (s : Str) (ms : List Str) (n x : Str)
    (h : scan s [] [] 0 = ms ++ [n] ++ [x]) (hx : looksLikeHash x = true) :
    parseSymbol s = some ⟨ms, n, some x⟩ := by
  unfold parseSymbol
  simp [h, hx]

end Rudy.Symbols
