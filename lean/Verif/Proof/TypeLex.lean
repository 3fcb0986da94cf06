import Verif.Model.TypeNames
import Verif.Proof.ExprPrint
/-
Tokenizing type names.
-/
namespace Rudy.TypeNames
open Rudy Rudy.Layout Rudy.Expr

theorem lex_shrinks : ∀ (n : Nat) (s : Str) (ts : List Tok) (r : Str), lex n s = some (ts, r) → r.length ≤ s.length := by
  intro n
  induction n with
  | zero => intro s ts r h; cases h
  | succ n ih =>
    intro s ts r h
    have hd : (s.dropWhile isWhite).length ≤ s.length := (List.dropWhile_sublist _).length_le
    unfold lex at h
    split at h
    · cases h; simp
    · rename_i c cs hs
      rw [hs] at hd
      simp only [List.length_cons] at hd
      have hw : (cs.dropWhile isWord).length ≤ cs.length := (List.dropWhile_sublist _).length_le
      split at h
      · cases h; simpa using hd
      · split at h
        · split at h
          · rename_i inner c' rest hl
            have h1 := ih _ _ _ hl
            simp only [List.length_cons] at h1
            split at h
            · simp only [Option.map_eq_some_iff] at h
              obtain ⟨x, hx, hx'⟩ := h
              cases hx'
              have := ih _ _ _ hx
              omega
            · cases h
          · cases h
        · split at h
          · simp only [] at h
            split at h
            · cases h
            · simp only [Option.map_eq_some_iff] at h
              obtain ⟨x, hx, hx'⟩ := h
              cases hx'
              have := ih _ _ _ hx
              omega
          · split at h
            · simp only [] at h
              split at h
              · simp only [Option.map_eq_some_iff] at h
                obtain ⟨x, hx, hx'⟩ := h
                cases hx'
                have := ih _ _ _ hx
                omega
              · cases h
            · split at h
              · simp only [Option.map_eq_some_iff] at h
                obtain ⟨x, hx, hx'⟩ := h
                cases hx'
                have := ih _ _ _ hx
                omega
              · cases h

/-- The bound on the number of tokens does not matter once it exceeds the length. -/
theorem lex_fuel : ∀ (n m : Nat) (s : Str), s.length < n → s.length < m → lex n s = lex m s := by
  intro n
  induction n with
  | zero => intro m s h; omega
  | succ n ih =>
    intro m s hn hm
    obtain ⟨m, rfl⟩ : ∃ k, m = k + 1 := ⟨m - 1, by omega⟩
    have hd : (s.dropWhile isWhite).length ≤ s.length := (List.dropWhile_sublist _).length_le
    unfold lex
    cases hs : s.dropWhile isWhite with
    | nil => rfl
    | cons c cs =>
      rw [hs] at hd
      simp only [List.length_cons] at hd
      have hw : (cs.dropWhile isWord).length ≤ cs.length := (List.dropWhile_sublist _).length_le
      have h1 : lex n cs = lex m cs := ih m cs (by omega) (by omega)
      have h2 : lex n (cs.dropWhile isWord) = lex m (cs.dropWhile isWord) := ih m _ (by omega) (by omega)
      simp only [h1, h2]
      split
      · rfl
      · split
        · split
          · rename_i inner c' rest hl
            have := lex_shrinks _ _ _ _ hl
            simp only [List.length_cons] at this
            rw [ih m rest (by omega) (by omega)]
          · rfl
        · rfl

/-- The tokens of a text, up to the end or an unmatched closing delimiter. -/
def lexL (s : Str) : Option (List Tok × Str) := lex (s.length + 1) s

theorem lex_eq (n : Nat) (s : Str) (h : s.length < n) : lex n s = lexL s := lex_fuel _ _ _ h (by omega)

theorem lexL_nil : lexL [] = some ([], []) := rfl

theorem lexL_white {c : Char} (h : isWhite c = true) (s : Str) : lexL (c :: s) = lexL s := by
  rw [lexL, ← lex_eq (s.length + 1 + 1) s (by omega)]
  rw [lex, lex]
  simp [h]

theorem lexL_close {c : Char} (hw : isWhite c = false) (h : (closes c).isSome) (s : Str) :
    lexL (c :: s) = some ([], c :: s) := by
  rw [lexL, lex]
  simp [hw, h]

theorem lexL_open {c : Char} {d : Delim} (hw : isWhite c = false) (hc : closes c = none) (h : opens c = some d)
    {s : Str} {inner : List Tok} {c' : Char} {rest : Str} (hi : lexL s = some (inner, c' :: rest))
    (hc' : closes c' = some d) :
    lexL (c :: s) = (lexL rest).map fun r => (.group d inner :: r.1, r.2) := by
  have hs := lex_shrinks _ _ _ _ hi
  simp only [List.length_cons] at hs
  rw [lexL, lex]
  simp only [List.dropWhile_cons, hw, hc, h, List.length_cons, Bool.false_eq_true, if_false, Option.isSome_none]
  rw [lex_eq _ s (by omega), hi]
  simp only [hc', if_true]
  rw [lex_eq _ rest (by omega)]

theorem takeWhile_all {α : Type} (p : α → Bool) (w k : List α) (hw : ∀ c ∈ w, p c = true)
    (hk : ∀ c, k.head? = some c → p c = false) : (w ++ k).takeWhile p = w := by
  induction w with
  | nil => cases k with
    | nil => rfl
    | cons c k => simp [hk c rfl]
  | cons a w ih => simp [hw a (by simp), ih (fun c hc => hw c (by simp [hc]))]

theorem dropWhile_all {α : Type} (p : α → Bool) (w k : List α) (hw : ∀ c ∈ w, p c = true)
    (hk : ∀ c, k.head? = some c → p c = false) : (w ++ k).dropWhile p = k := by
  induction w with
  | nil => cases k with
    | nil => rfl
    | cons c k => simp [hk c rfl]
  | cons a w ih => simp [hw a (by simp), ih (fun c hc => hw c (by simp [hc]))]

/-- The text does not continue a word. -/
def WordEnd (k : Str) : Prop := ∀ c, k.head? = some c → isWord c = false ∧ c ≠ '#' ∧ c ≠ '.'

theorem wordEnd_nil : WordEnd [] := by intro c h; cases h

theorem wordEnd_cons {c : Char} (k : Str) (h : isWord c = false ∧ c ≠ '#' ∧ c ≠ '.') : WordEnd (c :: k) := by
  intro d hd
  cases hd
  exact h

/-- An identifier: a letter or underscore followed by letters, digits and underscores. -/
def IsIdent (s : Str) : Prop := ∃ c cs, s = c :: cs ∧ isStart c = true ∧ ∀ x ∈ cs, isWord x = true

theorem isStart_plain {c : Char} (h : isStart c = true) : isWhite c = false ∧ closes c = none ∧ opens c = none := by
  have h' : c = '_' ∨ ('a' ≤ c ∧ c ≤ 'z') ∨ ('A' ≤ c ∧ c ≤ 'Z') := by
    simp only [isStart, isAlpha, Bool.or_eq_true, Bool.and_eq_true, decide_eq_true_eq, beq_iff_eq] at h
    rcases h with (h | h) | h
    · exact Or.inr (Or.inl h)
    · exact Or.inr (Or.inr h)
    · exact Or.inl h
  have hn : 65 ≤ c.toNat ∧ c.toNat ≤ 90 ∨ c.toNat = 95 ∨ 97 ≤ c.toNat ∧ c.toNat ≤ 122 := by
    rcases h' with rfl | ⟨a, b⟩ | ⟨a, b⟩
    · decide
    · exact Or.inr (Or.inr ⟨a, b⟩)
    · exact Or.inl ⟨a, b⟩
  have ne : ∀ d : Char, ¬ (65 ≤ d.toNat ∧ d.toNat ≤ 90 ∨ d.toNat = 95 ∨ 97 ≤ d.toNat ∧ d.toNat ≤ 122) → c ≠ d := by
    rintro d hd rfl; exact hd hn
  refine ⟨?_, ?_, ?_⟩
  · simp only [isWhite]
    simp
    omega
  · unfold closes
    split
    · exact absurd rfl (ne ')' (by decide))
    · exact absurd rfl (ne ']' (by decide))
    · exact absurd rfl (ne '}' (by decide))
    · rfl
  · unfold opens
    split
    · exact absurd rfl (ne '(' (by decide))
    · exact absurd rfl (ne '[' (by decide))
    · exact absurd rfl (ne '{' (by decide))
    · rfl

theorem isDigit_plain {c : Char} (h : isDigit c = true) :
    isWhite c = false ∧ closes c = none ∧ opens c = none ∧ isStart c = false := by
  have hn : 48 ≤ c.toNat ∧ c.toNat ≤ 57 := by
    simp only [isDigit, Bool.and_eq_true, decide_eq_true_eq] at h
    exact ⟨h.1, h.2⟩
  have ne : ∀ d : Char, ¬ (48 ≤ d.toNat ∧ d.toNat ≤ 57) → c ≠ d := by
    rintro d hd rfl; exact hd hn
  refine ⟨?_, ?_, ?_, ?_⟩
  · simp only [isWhite]
    simp
    omega
  · unfold closes
    split
    · exact absurd rfl (ne ')' (by decide))
    · exact absurd rfl (ne ']' (by decide))
    · exact absurd rfl (ne '}' (by decide))
    · rfl
  · unfold opens
    split
    · exact absurd rfl (ne '(' (by decide))
    · exact absurd rfl (ne '[' (by decide))
    · exact absurd rfl (ne '{' (by decide))
    · rfl
  · cases hs : isStart c with
    | false => rfl
    | true =>
      simp only [isStart, isAlpha, Bool.or_eq_true, Bool.and_eq_true, decide_eq_true_eq, beq_iff_eq] at hs
      rcases hs with (⟨a, b⟩ | ⟨a, b⟩) | rfl
      · have : 97 ≤ c.toNat := a
        omega
      · have : 65 ≤ c.toNat := a
        omega
      · revert hn; decide

theorem lexL_word {w : Str} (hw : IsIdent w) {k : Str} (hk : WordEnd k) :
    lexL (w ++ k) = (lexL k).map fun r => (.ident w :: r.1, r.2) := by
  obtain ⟨c, cs, rfl, hc, hcs⟩ := hw
  obtain ⟨h1, h2, h3⟩ := isStart_plain hc
  rw [List.cons_append, lexL, lex]
  simp only [List.dropWhile_cons, h1, h2, h3, Bool.false_eq_true, if_false, Option.isSome_none, hc, if_true]
  rw [takeWhile_all isWord cs k hcs (fun d hd => (hk d hd).1), dropWhile_all isWord cs k hcs (fun d hd => (hk d hd).1)]
  rw [if_neg (fun h => (hk '#' h.1).2.1 rfl), lex_eq _ k (by simp; omega)]

theorem isWord_of_isDigit {c : Char} (h : isDigit c = true) : isWord c = true := by simp [isWord, h]

theorem lexL_num {w : Str} (hne : w ≠ []) (hw : ∀ c ∈ w, isDigit c = true) {k : Str} (hk : WordEnd k) :
    lexL (w ++ k) = (lexL k).map fun r => (.lit w :: r.1, r.2) := by
  cases w with
  | nil => exact absurd rfl hne
  | cons c cs =>
    obtain ⟨h1, h2, h3, h4⟩ := isDigit_plain (hw c (by simp))
    have hcs : ∀ x ∈ cs, isWord x = true := fun x hx => isWord_of_isDigit (hw x (by simp [hx]))
    rw [List.cons_append, lexL, lex]
    simp only [List.dropWhile_cons, h1, h2, h3, h4, Bool.false_eq_true, if_false, Option.isSome_none,
      hw c (by simp), if_true]
    rw [takeWhile_all isWord cs k hcs (fun d hd => (hk d hd).1), dropWhile_all isWord cs k hcs (fun d hd => (hk d hd).1)]
    rw [if_pos, lex_eq _ k (by simp; omega)]
    simp only [Bool.and_eq_true, List.all_eq_true, bne_iff_ne, ne_eq]
    exact ⟨fun x hx => hw x (by simp [hx]), fun h => (hk '.' h).2.2 rfl⟩

/-- The punctuation that occurs in printed types. -/
def punctuation : List Char := ['&', '!', '<', '>', ',', ':', '+', '-', ';', '*', '#']

theorem lexL_punct {c : Char} (h : c ∈ punctuation) (s : Str) :
    lexL (c :: s) = (lexL s).map fun r => (.punct c ((s.head?.map isPunct).getD false) :: r.1, r.2) := by
  have key : isWhite c = false ∧ closes c = none ∧ opens c = none ∧ isStart c = false ∧ isDigit c = false ∧
      (isPunct c && c != '/' && c != '\'') = true := by
    revert c
    decide
  obtain ⟨h1, h2, h3, h4, h5, h6⟩ := key
  rw [lexL, lex]
  simp only [List.dropWhile_cons, h1, h2, h3, h4, h5, h6, Bool.false_eq_true, if_false, Option.isSome_none, if_true]
  rw [lex_eq _ s (by simp)]

/-- The tokens of the text `p`, when the text `k` follows. -/
def Lexed (p k : Str) (ts : List Tok) : Prop := lexL (p ++ k) = (lexL k).map fun r => (ts ++ r.1, r.2)

theorem Lexed.nil (k : Str) : Lexed [] k [] := by
  show lexL k = _
  cases lexL k <;> simp

theorem Lexed.append {p q k : Str} {ts us : List Tok} (h1 : Lexed p (q ++ k) ts) (h2 : Lexed q k us) :
    Lexed (p ++ q) k (ts ++ us) := by
  unfold Lexed at *
  rw [List.append_assoc, h1, h2]
  cases lexL k <;> simp

theorem lexed_white {c : Char} (h : isWhite c = true) (k : Str) : Lexed [c] k [] := by
  unfold Lexed
  rw [List.cons_append, List.nil_append, lexL_white h]
  cases lexL k <;> simp

theorem lexed_word {w : Str} (hw : IsIdent w) {k : Str} (hk : WordEnd k) : Lexed w k [.ident w] := lexL_word hw hk

/-- A word before `#`; only after `r` it is something else. -/
theorem lexed_hash {w : Str} (hw : IsIdent w) (hr : w ≠ ['r']) (k : Str) : Lexed w ('#' :: k) [.ident w] := by
  obtain ⟨c, cs, rfl, hc, hcs⟩ := hw
  obtain ⟨h1, h2, h3⟩ := isStart_plain hc
  have hd : ∀ d, ('#' :: k).head? = some d → isWord d = false := by
    intro d hd
    cases hd
    decide
  show lexL (c :: cs ++ '#' :: k) = _
  rw [List.cons_append, lexL, lex]
  simp only [List.dropWhile_cons, h1, h2, h3, Bool.false_eq_true, if_false, Option.isSome_none, hc, if_true]
  rw [takeWhile_all isWord cs _ hcs hd, dropWhile_all isWord cs _ hcs hd]
  rw [if_neg (fun h => hr h.2), lex_eq _ _ (by simp; omega)]
  rfl

theorem lexed_num {w : Str} (hne : w ≠ []) (hw : ∀ c ∈ w, isDigit c = true) {k : Str} (hk : WordEnd k) :
    Lexed w k [.lit w] := lexL_num hne hw hk

theorem lexed_punct {c : Char} (h : c ∈ punctuation) (k : Str) :
    Lexed [c] k [.punct c ((k.head?.map isPunct).getD false)] := lexL_punct h k

/-- A group: the opening delimiter, a text that is tokenized, the closing delimiter. -/
theorem lexed_group {o c : Char} {d : Delim} (ho : opens o = some d) (hc : closes c = some d)
    {p : Str} {ts : List Tok} {k : Str} (h : Lexed p (c :: k) ts) : Lexed (o :: (p ++ [c])) k [.group d ts] := by
  have hco : isWhite o = false ∧ closes o = none := by
    revert ho
    unfold opens
    split <;> intro h <;> first | cases h; done | decide
  have hcc : isWhite c = false := by
    revert hc
    unfold closes
    split <;> intro h <;> first | cases h; done | decide
  have h1 : lexL (p ++ c :: k) = some (ts, c :: k) := by
    rw [h, lexL_close hcc (by simp [hc])]
    simp
  show lexL (o :: (p ++ [c]) ++ k) = _
  rw [List.cons_append, List.append_assoc, List.singleton_append, lexL_open hco.1 hco.2 ho h1 hc]
  rfl

theorem lexPlain_of_lexed {s : Str} {ts : List Tok} (h : Lexed s [] ts) : lexPlain s = some ts := by
  unfold Lexed at h
  rw [List.append_nil, lexL_nil] at h
  unfold lexPlain
  show (match lexL s with | some (ts, []) => some ts | _ => none) = _
  rw [h]
  simp

end Rudy.TypeNames
