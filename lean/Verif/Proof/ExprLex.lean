import Verif.Proof.ExprGrammar
/-
The tokenizer on text whose characters are single bytes: it is the tokenizer on the remaining characters
(`lexOne`), so that positions no longer matter.
-/
set_option linter.unusedSimpArgs false
namespace Rudy.Expr
open Rudy Rudy.Data Rudy.Layout

/-- A 7-bit character. -/
def Ascii (c : Char) : Prop := c.toNat < 128

instance (c : Char) : Decidable (Ascii c) := by unfold Ascii; infer_instance

theorem ascii_size {c : Char} (h : Ascii c) : c.utf8Size = 1 := by
  rw [Char.utf8Size]
  exact if_pos (by rw [UInt32.le_iff_toNat_le]; exact Nat.le_of_lt_succ h)

theorem length_le_byteLen (s : Str) : s.length ≤ byteLen s := by
  induction s with
  | nil => simp [byteLen]
  | cons c cs ih =>
    have := Char.utf8Size_pos c
    simp only [byteLen, List.length_cons]; omega

theorem advance_eq {s : Str} {p : Nat} (h : p < s.length) : advance s p = p + 1 := by
  have := length_le_byteLen s
  simp only [advance]; rw [if_pos (by omega)]

theorem dropBytes_ascii (n : Nat) (s : Str) (h : ∀ c ∈ s.take n, Ascii c) (hn : n ≤ s.length) :
    dropBytes n s = some (s.drop n) := by
  induction s generalizing n with
  | nil => simp at hn; simp [hn, dropBytes]
  | cons c cs ih =>
    cases n with
    | zero => simp [dropBytes]
    | succ n =>
      have hc := ascii_size (h c (by simp))
      simp only [dropBytes, hc]
      rw [if_pos (by omega), Nat.add_sub_cancel, ih n (fun x hx => h x (by simp [hx])) (by simpa using hn)]
      simp

theorem takeBytes_ascii (n : Nat) (s : Str) (h : ∀ c ∈ s.take n, Ascii c) (hn : n ≤ s.length) :
    takeBytes n s = some (s.take n) := by
  induction s generalizing n with
  | nil => simp at hn; simp [hn, takeBytes]
  | cons c cs ih =>
    cases n with
    | zero => simp [takeBytes]
    | succ n =>
      have hc := ascii_size (h c (by simp))
      simp only [takeBytes, hc]
      rw [if_pos (by omega), Nat.add_sub_cancel, ih n (fun x hx => h x (by simp [hx])) (by simpa using hn)]
      simp

/-- The first `p` characters are single bytes. -/
def AsciiTo (s : Str) (p : Nat) : Prop := ∀ c ∈ s.take p, Ascii c

theorem asciiTo_add {s : Str} {p k : Nat} : AsciiTo s (p + k) ↔ AsciiTo s p ∧ ∀ c ∈ (s.drop p).take k, Ascii c := by
  simp only [AsciiTo, List.take_add, List.mem_append]
  constructor
  · intro h; exact ⟨fun c hc => h c (Or.inl hc), fun c hc => h c (Or.inr hc)⟩
  · rintro ⟨h1, h2⟩ c (hc | hc)
    · exact h1 c hc
    · exact h2 c hc

theorem sliceFrom_ascii {s : Str} {a : Nat} (h : AsciiTo s a) (ha : a ≤ s.length) :
    sliceFrom s a = .ok (s.drop a) := by
  simp [sliceFrom, dropBytes_ascii a s h ha]

theorem slice_ascii {s : Str} {a k : Nat} (h : AsciiTo s (a + k)) (hk : a + k ≤ s.length) :
    slice s a (a + k) = .ok ((s.drop a).take k) := by
  rw [asciiTo_add] at h
  simp only [slice]
  rw [if_neg (by omega), sliceFrom_ascii h.1 (by omega), Res.bind_ok, Nat.add_sub_cancel_left,
    takeBytes_ascii k _ h.2 (by simp; omega)]

theorem take_takeWhile (f : Char → Bool) (l : Str) : l.take (l.takeWhile f).length = l.takeWhile f := by
  induction l with
  | nil => rfl
  | cons a l ih =>
    simp only [List.takeWhile]
    split
    · simp [ih]
    · simp

theorem drop_takeWhile (f : Char → Bool) (l : Str) : l.drop (l.takeWhile f).length = l.dropWhile f := by
  induction l with
  | nil => rfl
  | cons a l ih =>
    simp only [List.takeWhile, List.dropWhile]
    split
    · simp [ih]
    · simp

theorem length_takeWhile_le (f : Char → Bool) (l : Str) : (l.takeWhile f).length ≤ l.length :=
  (List.takeWhile_sublist f).length_le

/-- The identifier or keyword of a run of word characters. -/
def wordToken (w : Str) : Token := if w = chars! "mut" then .mut else .ident w

/-- The tokens of one character. -/
def symbol (c : Char) : Option Token :=
  if c = '.' then some .dot
  else if c = '*' then some .star
  else if c = '&' then some .amp
  else if c = '[' then some .lbracket
  else if c = ']' then some .rbracket
  else if c = '(' then some .lparen
  else if c = ')' then some .rparen
  else if c = '<' then some .langle
  else if c = '>' then some .rangle
  else if c = ',' then some .comma
  else none

/-- The number at the start of a text starting with a digit, and the number of characters it takes up. -/
def lexNumber (r : Str) : Res (Token × Nat) :=
  if startsWith (chars! "0x") r || startsWith (chars! "0X") r then
    (Res.ofOption (parseU64 16 ((r.drop 2).takeWhile isHex))).bind fun n =>
    .ok (.number n, 2 + ((r.drop 2).takeWhile isHex).length)
  else
    (Res.ofOption (parseU64 10 (r.takeWhile isDigit))).bind fun n =>
    .ok (.number n, (r.takeWhile isDigit).length)

/-- The token at the start of a text, and the number of characters it takes up. -/
def lexHead (r : Str) : Res (Token × Nat) :=
  match r with
  | [] => .ok (.eof, 0)
  | c :: cs =>
    match symbol c with
    | some t => .ok (t, 1)
    | none =>
      if c = ':' then (if cs.head? = some ':' then .ok (.pathSep, 2) else .err)
      else if isAlpha c || c == '_' then
        .ok (wordToken ((c :: cs).takeWhile isWord), ((c :: cs).takeWhile isWord).length)
      else if isDigit c then lexNumber (c :: cs)
      else if c = '"' then
        match closingQuote cs 0 with
        | some q => .ok (.string (cs.take q), q + 2)
        | none => .err
      else .err

/-- The next token of the remaining text, and the number of characters it takes up with the white space
before it. -/
def lexOne (r : Str) : Res (Token × Nat) :=
  (lexHead (r.drop (r.takeWhile isWhite).length)).bind fun x => .ok (x.1, (r.takeWhile isWhite).length + x.2)

/-- Text on which character and byte positions agree as far as the tokenizer gets: either everything is
ASCII, or there is no string literal and no exotic white space. -/
def Safe (s : Str) : Prop := (∀ c ∈ s, Ascii c) ∨ ('"' ∉ s ∧ ∀ c ∈ s, isWhite c = true → Ascii c)

theorem char_le_iff (a b : Char) : (a ≤ b) ↔ a.toNat ≤ b.toNat := by
  rw [Char.le_def, UInt32.le_iff_toNat_le]; rfl

theorem word_ascii {c : Char} (h : isWord c = true) : Ascii c := by
  simp only [isWord, isAlpha, isDigit, Bool.or_eq_true, Bool.and_eq_true, decide_eq_true_eq, beq_iff_eq, char_le_iff] at h
  simp only [Ascii]
  rcases h with ((⟨h1, h2⟩ | ⟨h1, h2⟩) | ⟨h1, h2⟩) | h
  · have : 'z'.toNat = 122 := rfl
    omega
  · have : 'Z'.toNat = 90 := rfl
    omega
  · have : '9'.toNat = 57 := rfl
    omega
  · subst h; decide

theorem hex_word {c : Char} (h : isHex c = true) : isWord c = true := by
  simp only [isHex, isWord, isAlpha, isDigit, Bool.or_eq_true, Bool.and_eq_true, decide_eq_true_eq, beq_iff_eq, char_le_iff] at h ⊢
  rcases h with (h | ⟨h1, h2⟩) | ⟨h1, h2⟩
  · exact Or.inl (Or.inr h)
  · have : 'z'.toNat = 122 := rfl
    have : 'f'.toNat = 102 := rfl
    exact Or.inl (Or.inl (Or.inl ⟨h1, by omega⟩))
  · have : 'Z'.toNat = 90 := rfl
    have : 'F'.toNat = 70 := rfl
    exact Or.inl (Or.inl (Or.inr ⟨h1, by omega⟩))

theorem digit_word {c : Char} (h : isDigit c = true) : isWord c = true := by simp [isWord, h]

theorem takeWhile_imp {f : Char → Bool} {l : Str} {c : Char} (h : c ∈ l.takeWhile f) : f c = true := by
  induction l with
  | nil => simp at h
  | cons a l ih =>
    simp only [List.takeWhile] at h
    split at h
    · rcases List.mem_cons.1 h with rfl | h
      · assumption
      · exact ih h
    · simp at h

theorem closingQuote_shift (l : Str) (p d : Nat) : closingQuote l (p + d) = (closingQuote l p).map (· + d) := by
  induction l, p using closingQuote.induct with
  | case1 => simp [closingQuote]
  | case2 => simp [closingQuote]
  | case3 => simp [closingQuote]
  | case4 p c r ih => simp only [closingQuote]; rw [← ih]; congr 1; omega
  | case5 p c r h1 h2 h3 ih =>
    rw [closingQuote, closingQuote, ← ih]
    · congr 1; omega
    all_goals assumption

theorem closingQuote_lt (l : Str) (p q : Nat) (h : closingQuote l p = some q) : p ≤ q ∧ q < p + l.length := by
  induction l, p using closingQuote.induct with
  | case1 => simp [closingQuote] at h
  | case2 => simp [closingQuote] at h; subst h; simp
  | case3 => simp [closingQuote] at h
  | case4 p c r ih =>
    simp only [closingQuote] at h
    have := ih h
    simp; omega
  | case5 p c r h1 h2 h3 ih =>
    rw [closingQuote] at h
    · have := ih h; simp; omega
    all_goals assumption

theorem head_drop (s : Str) (p : Nat) : s[p]? = (s.drop p).head? := by simp

theorem nextToken_eq {s : Str} (hs : Safe s) {p : Nat} (hp : AsciiTo s p) (hl : p ≤ s.length) :
    nextToken s p = (lexOne (s.drop p)).bind (fun x => .ok (x.1, p + x.2)) ∧
    ∀ t k, lexOne (s.drop p) = .ok (t, k) → AsciiTo s (p + k) ∧ p + k ≤ s.length := by
  have hk : (∀ c ∈ (s.drop p).takeWhile isWhite, Ascii c) := by
    intro c hc
    have h1 := takeWhile_imp hc
    have h2 : c ∈ s := List.mem_of_mem_drop ((List.takeWhile_sublist _).subset hc)
    rcases hs with h | ⟨-, h⟩
    · exact h c h2
    · exact h c h2 h1
  simp only [nextToken, lexOne]
  rw [scanWhile]
  have hklen := length_takeWhile_le isWhite (s.drop p)
  generalize hkk : ((s.drop p).takeWhile isWhite).length = k at *
  have hp1 : AsciiTo s (p + k) := by
    rw [asciiTo_add]
    refine ⟨hp, ?_⟩
    rw [← hkk, take_takeWhile]; exact hk
  have hl1 : p + k ≤ s.length := by simp at hklen; omega
  simp only [tokenAt]
  rw [head_drop, ← List.drop_drop]
  have hdd : (s.drop p).drop k = s.drop (p + k) := by rw [List.drop_drop]
  cases hr : (s.drop p).drop k with
  | nil => exact ⟨by simp [lexHead], fun t k' h => by simp [lexHead] at h; rw [← h.2]; exact ⟨hp1, hl1⟩⟩
  | cons c cs =>
    rw [hr] at hdd
    have hlt : p + k < s.length := by
      have := congrArg List.length hdd
      simp at this; omega
    have hcs : cs.length = s.length - (p + k) - 1 := by
      have := congrArg List.length hdd
      simp at this; omega
    have hadv : advance s (p + k) = p + k + 1 := advance_eq hlt
    simp only [List.head?_cons]
    -- a token of one character
    have single : ∀ t : Token, symbol c = some t → Ascii c →
        (Res.ok (t, advance s (p + k)) =
            ((lexHead (c :: cs)).bind fun x => Res.ok (x.1, k + x.2)).bind (fun x => Res.ok (x.1, p + x.2)) ∧
          ∀ t' k', ((lexHead (c :: cs)).bind fun x => Res.ok (x.1, k + x.2)) = Res.ok (t', k') →
            AsciiTo s (p + k') ∧ p + k' ≤ s.length) := by
      intro t ht hc
      simp only [lexHead, ht]
      refine ⟨by simp [hadv, Nat.add_assoc], ?_⟩
      intro t' k' h
      cases h
      rw [← Nat.add_assoc, asciiTo_add, ← hdd]
      exact ⟨⟨hp1, by simpa using hc⟩, hlt⟩
    by_cases h1 : c = '.'
    · subst h1; exact single _ rfl (by decide)
    by_cases h2 : c = '*'
    · subst h2; exact single _ rfl (by decide)
    by_cases h3 : c = '&'
    · subst h3; exact single _ rfl (by decide)
    by_cases h4 : c = '['
    · subst h4; exact single _ rfl (by decide)
    by_cases h5 : c = ']'
    · subst h5; exact single _ rfl (by decide)
    by_cases h6 : c = '('
    · subst h6; exact single _ rfl (by decide)
    by_cases h7 : c = ')'
    · subst h7; exact single _ rfl (by decide)
    by_cases h8 : c = '<'
    · subst h8; exact single _ rfl (by decide)
    by_cases h9 : c = '>'
    · subst h9; exact single _ rfl (by decide)
    by_cases h11 : c = ','
    · subst h11; exact single _ rfl (by decide)
    have hsym : symbol c = none := by simp [symbol, h1, h2, h3, h4, h5, h6, h7, h8, h9, h11]
    simp only [if_neg h1, if_neg h2, if_neg h3, if_neg h4, if_neg h5, if_neg h6, if_neg h7, if_neg h8, if_neg h9,
      if_neg h11, lexHead, hsym]
    by_cases h10 : c = ':'
    · simp only [if_pos h10]
      have e : s[advance s (p + k)]? = cs.head? := by
        rw [hadv, head_drop, ← List.drop_drop, ← hdd]; simp
      rw [e]
      by_cases hc : cs.head? = some ':'
      · simp only [if_pos hc]
        obtain ⟨cs', rfl⟩ : ∃ cs', cs = ':' :: cs' := by
          cases cs with
          | nil => cases hc
          | cons a b => simp at hc; exact ⟨b, by rw [hc]⟩
        have hlt2 : p + k + 1 < s.length := by simp at hcs; omega
        refine ⟨by simp [hadv, advance_eq hlt2]; omega, ?_⟩
        intro t' k' h
        cases h
        dsimp only
        rw [← Nat.add_assoc, asciiTo_add, ← hdd]
        subst h10
        refine ⟨⟨hp1, ?_⟩, hlt2⟩
        intro x hx
        simp at hx; subst hx; decide
      · simp only [if_neg hc]; exact ⟨rfl, fun t k h => by cases h⟩
    simp only [if_neg h10]
    -- a run of characters satisfying `f`, all of them ASCII
    have run : ∀ f : Char → Bool, (∀ x, f x = true → Ascii x) →
        AsciiTo s (p + k + ((c :: cs).takeWhile f).length) ∧ p + k + ((c :: cs).takeWhile f).length ≤ s.length := by
      intro f hf
      have hle := length_takeWhile_le f (c :: cs)
      refine ⟨?_, by simp only [List.length_cons] at hle; omega⟩
      rw [asciiTo_add, ← hdd]
      refine ⟨hp1, ?_⟩
      rw [take_takeWhile]
      intro x hx
      exact hf x (takeWhile_imp hx)
    by_cases h12 : (isAlpha c || c == '_') = true
    · simp only [if_pos h12, readIdent, scanWhile]
      obtain ⟨r1, r2⟩ := run isWord fun x => word_ascii
      rw [← hdd, slice_ascii r1 r2, ← hdd, take_takeWhile, Res.bind_ok]
      refine ⟨by simp [wordToken, Nat.add_assoc], ?_⟩
      intro t' k' h
      cases h
      rw [← Nat.add_assoc]; exact ⟨r1, r2⟩
    simp only [if_neg h12]
    by_cases h13 : isDigit c = true
    · simp only [if_pos h13, readNumber, lexNumber]
      rw [sliceFrom_ascii hp1 hl1, Res.bind_ok, ← hdd]
      by_cases hx : (startsWith (chars! "0x") (c :: cs) || startsWith (chars! "0X") (c :: cs)) = true
      · simp only [if_pos hx]
        obtain ⟨x, cs', hc0, hcs', hxa⟩ : ∃ x cs', c = '0' ∧ cs = x :: cs' ∧ Ascii x := by
          simp only [startsWith, Bool.or_eq_true, List.isPrefixOf_iff_prefix] at hx
          rcases hx with ⟨w, hw⟩ | ⟨w, hw⟩
          · simp at hw; exact ⟨'x', w, hw.1.symm, by rw [← hw.2], by decide⟩
          · simp at hw; exact ⟨'X', w, hw.1.symm, by rw [← hw.2], by decide⟩
        have hlt2 : p + k + 1 < s.length := by rw [hcs'] at hcs; simp at hcs; omega
        rw [hadv, advance_eq hlt2]
        have e : s.drop (p + k + 1 + 1) = cs' := by
          rw [Nat.add_assoc, ← List.drop_drop, ← hdd, hcs']; rfl
        simp only [scanWhile]
        rw [e]
        have hlen : cs'.length = s.length - (p + k) - 2 := by rw [hcs'] at hcs; simp at hcs; omega
        have hle := length_takeWhile_le isHex cs'
        have r1 : AsciiTo s (p + k + 2 + (cs'.takeWhile isHex).length) := by
          rw [asciiTo_add, asciiTo_add, ← hdd]
          refine ⟨⟨hp1, ?_⟩, ?_⟩
          · rw [hcs', hc0]
            intro y hy
            simp at hy
            rcases hy with rfl | rfl
            · decide
            · exact hxa
          · rw [show s.drop (p + k + 2) = cs' from e, take_takeWhile]
            intro y hy
            exact word_ascii (hex_word (takeWhile_imp hy))
        have r2 : p + k + 2 + (cs'.takeWhile isHex).length ≤ s.length := by omega
        rw [show p + k + 1 + 1 = p + k + 2 from rfl, slice_ascii r1 r2, show s.drop (p + k + 2) = cs' from e,
          take_takeWhile, Res.bind_ok, hcs']
        simp only [List.drop_succ_cons, List.drop_zero]
        cases parseU64 16 (cs'.takeWhile isHex) with
        | none => exact ⟨rfl, fun t k h => by cases h⟩
        | some n =>
          refine ⟨by simp [Res.ofOption]; omega, ?_⟩
          intro t' k' h
          cases h
          dsimp only
          refine ⟨?_, by omega⟩
          rw [show p + (k + (2 + (cs'.takeWhile isHex).length)) = p + k + 2 + (cs'.takeWhile isHex).length by omega]
          exact r1
      · simp only [if_neg hx, scanWhile]
        obtain ⟨r1, r2⟩ := run isDigit fun x h => word_ascii (digit_word h)
        rw [← hdd, slice_ascii r1 r2, ← hdd, take_takeWhile, Res.bind_ok]
        cases parseU64 10 ((c :: cs).takeWhile isDigit) with
        | none => exact ⟨rfl, fun t k h => by cases h⟩
        | some n =>
          refine ⟨by simp [Res.ofOption, Nat.add_assoc], ?_⟩
          intro t' k' h
          cases h
          rw [← Nat.add_assoc]; exact ⟨r1, r2⟩
    simp only [if_neg h13]
    by_cases h14 : c = '"'
    · simp only [if_pos h14, readString]
      have hall : ∀ x ∈ s, Ascii x := by
        rcases hs with h | ⟨h, -⟩
        · exact h
        · exfalso; apply h
          have : c ∈ s.drop (p + k) := by rw [← hdd]; simp
          rw [← h14]; exact List.mem_of_mem_drop this
      have hallTo : ∀ n, AsciiTo s n := fun n x hx => hall x (List.mem_of_mem_take hx)
      have e : s.drop (p + k + 1) = cs := by rw [← List.drop_drop, ← hdd]; rfl
      rw [hadv, e]
      have hsh : closingQuote cs (p + k + 1) = (closingQuote cs 0).map (· + (p + k + 1)) := by
        have := closingQuote_shift cs 0 (p + k + 1)
        rwa [Nat.zero_add] at this
      rw [hsh]
      cases hq : closingQuote cs 0 with
      | none => exact ⟨rfl, fun t k h => by cases h⟩
      | some q =>
        have hb := closingQuote_lt _ _ _ hq
        simp only [Option.map_some]
        have hql : p + k + 1 + q < s.length := by omega
        rw [Nat.add_comm q, slice_ascii (hallTo _) (by omega), e, Res.bind_ok, advance_eq hql]
        refine ⟨by simp; omega, ?_⟩
        intro t' k' h
        cases h
        exact ⟨hallTo _, by dsimp only; omega⟩
    simp only [if_neg h14]
    exact ⟨rfl, fun t k h => by cases h⟩

theorem ofOption_noPanic {α : Type} (o : Option α) : (Res.ofOption o).NoPanic := by cases o <;> trivial

theorem lexHead_noPanic (r : Str) : (lexHead r).NoPanic := by
  simp only [lexHead]
  split
  · trivial
  · split
    · trivial
    · split
      · split <;> trivial
      · split
        · trivial
        · split
          · simp only [lexNumber]
            split
            · exact bind_noPanic (ofOption_noPanic _) fun _ _ => trivial
            · exact bind_noPanic (ofOption_noPanic _) fun _ _ => trivial
          · split
            · split <;> trivial
            · trivial

theorem lexOne_noPanic (r : Str) : (lexOne r).NoPanic := bind_noPanic (lexHead_noPanic _) fun _ _ => trivial

theorem lexHead_nil {r : Str} {k : Nat} (h : lexHead r = .ok (.eof, k)) : r = [] := by
  simp only [lexHead] at h
  split at h
  · rfl
  · split at h
    · rename_i c _ _ t ht
      simp only [symbol] at ht
      injection h with h
      rw [Prod.mk.injEq] at h
      obtain ⟨rfl, -⟩ := h
      repeat' split at ht
      all_goals cases ht
    · split at h
      · split at h <;> cases h
      · split at h
        · injection h with h
          rw [Prod.mk.injEq] at h
          simp only [wordToken] at h
          split at h <;> cases h.1
        · split at h
          · simp only [lexNumber] at h
            split at h
            · rw [Res.bind_eq_ok] at h; obtain ⟨_, _, h⟩ := h; cases h
            · rw [Res.bind_eq_ok] at h; obtain ⟨_, _, h⟩ := h; cases h
          · split at h
            · split at h <;> cases h
            · cases h

theorem lexHead_pos {r : Str} {n : Nat} {t : Token} (h : lexHead r = .ok (t, n)) (ht : t ≠ .eof) : 0 < n := by
  simp only [lexHead] at h
  split at h
  · cases h; exact absurd rfl ht
  · split at h
    · cases h; omega
    · split at h
      · split at h <;> cases h; omega
      · split at h
        · rename_i hw
          cases h
          have hw' : ∀ c : Char, (isAlpha c || c == '_') = true → isWord c = true := by
            intro c hw
            simp only [isWord, Bool.or_eq_true] at hw ⊢
            rcases hw with h | h
            · exact Or.inl (Or.inl h)
            · exact Or.inr h
          simp [List.takeWhile, hw' _ hw]
        · split at h
          · rename_i hd
            simp only [lexNumber] at h
            split at h
            · rw [Res.bind_eq_ok] at h; obtain ⟨_, _, h⟩ := h; cases h; omega
            · rw [Res.bind_eq_ok] at h; obtain ⟨_, _, h⟩ := h; cases h
              simp [List.takeWhile, hd]
          · split at h
            · split at h <;> cases h; omega
            · cases h

theorem lexOne_pos {r : Str} {n : Nat} {t : Token} (h : lexOne r = .ok (t, n)) (ht : t ≠ .eof) : 0 < n := by
  simp only [lexOne, Res.bind_eq_ok] at h
  obtain ⟨x, h1, h2⟩ := h
  cases h2
  have := lexHead_pos h1 ht
  omega

/-! ### The whole token sequence -/

/-- The token sequence of a text, token by token. -/
inductive Lexes : Str → List Token → Prop
  | eof {r k} : lexOne r = .ok (.eof, k) → Lexes r [.eof]
  | token {r t k ts} : lexOne r = .ok (t, k) → t ≠ .eof → Lexes (r.drop k) ts → Lexes r (t :: ts)

theorem tokens_of_lexes {s : Str} (hs : Safe s) (n : Nat) (p : Nat) (ts : List Token) (hp : AsciiTo s p)
    (hl : p ≤ s.length) (h : Lexes (s.drop p) ts) (hn : ts.length ≤ n) : tokens s n p = .ok ts := by
  induction n generalizing p ts with
  | zero => cases h <;> simp at hn
  | succ n ih =>
    have hnt := nextToken_eq hs hp hl
    cases h with
    | eof h1 =>
      rw [tokens, hnt.1, h1]; rfl
    | token h1 h2 h3 =>
      obtain ⟨a1, a2⟩ := hnt.2 _ _ h1
      rw [tokens, hnt.1, h1]
      simp only [Res.bind_ok, if_neg h2]
      rw [ih _ _ a1 a2 (by rw [← List.drop_drop]; exact h3) (by simp at hn; omega)]
      rfl

theorem lexes_of_tokens {s : Str} (hs : Safe s) (n : Nat) (p : Nat) (ts : List Token) (hp : AsciiTo s p)
    (hl : p ≤ s.length) (h : tokens s n p = .ok ts) : Lexes (s.drop p) ts := by
  induction n generalizing p ts with
  | zero => cases h
  | succ n ih =>
    have hnt := nextToken_eq hs hp hl
    rw [tokens, hnt.1] at h
    cases hx : lexOne (s.drop p) with
    | err => rw [hx] at h; cases h
    | panic => rw [hx] at h; cases h
    | ok x =>
      obtain ⟨t, k⟩ := x
      obtain ⟨a1, a2⟩ := hnt.2 _ _ hx
      rw [hx] at h
      simp only [Res.bind_ok] at h
      split at h
      · rename_i he
        cases h
        exact .eof (by rw [hx, he])
      · rename_i he
        rw [Res.bind_eq_ok] at h
        obtain ⟨ts', h1, h2⟩ := h
        cases h2
        refine .token hx he ?_
        rw [List.drop_drop]
        exact ih _ _ a1 a2 h1

theorem tokens_noPanic {s : Str} (hs : Safe s) (n : Nat) (p : Nat) (hp : AsciiTo s p) (hl : p ≤ s.length)
    (hn : s.length - p < n) : (tokens s n p).NoPanic := by
  induction n generalizing p with
  | zero => omega
  | succ n ih =>
    have hnt := nextToken_eq hs hp hl
    rw [tokens, hnt.1]
    cases hx : lexOne (s.drop p) with
    | err => trivial
    | panic => have := lexOne_noPanic (s.drop p); rw [hx] at this; exact this
    | ok x =>
      obtain ⟨t, k⟩ := x
      obtain ⟨a1, a2⟩ := hnt.2 _ _ hx
      simp only [Res.bind_ok]
      split
      · trivial
      · rename_i he
        have := lexOne_pos hx he
        exact bind_noPanic (ih _ a1 a2 (by omega)) fun _ _ => trivial

theorem lexes_length {r : Str} {ts : List Token} (h : Lexes r ts) : ts.length ≤ r.length + 1 := by
  induction h with
  | eof => simp
  | @token r t k ts h1 h2 _ ih =>
    have h3 := lexOne_pos h1 h2
    have h4 : r ≠ [] := by
      rintro rfl
      simp [lexOne, lexHead] at h1
      exact h2 h1.1.symm
    have : 0 < r.length := List.length_pos_iff.2 h4
    simp at ih ⊢; omega

theorem asciiTo_zero (s : Str) : AsciiTo s 0 := by intro c hc; simp at hc

theorem tokenize_iff {s : Str} (hs : Safe s) (ts : List Token) : tokenize s = .ok ts ↔ Lexes s ts := by
  constructor
  · intro h; simpa using lexes_of_tokens hs _ 0 ts (asciiTo_zero s) (by omega) h
  · intro h
    exact tokens_of_lexes hs _ 0 ts (asciiTo_zero s) (by omega) (by simpa using h) (lexes_length h)

theorem tokenize_noPanic {s : Str} (hs : Safe s) : (tokenize s).NoPanic :=
  tokens_noPanic hs _ 0 (asciiTo_zero s) (by omega) (by omega)

end Rudy.Expr
