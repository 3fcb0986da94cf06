import Verif.Proof.ExprLex
/-
Number literals, and the tokens of printed expressions.
-/
set_option linter.unusedSimpArgs false
namespace Rudy.Expr
open Rudy Rudy.Data Rudy.Layout

/-! ### Numbers -/

/-- The value of a digit: its place in `0123456789abcdef`, whatever its case. -/
def digitOf (c : Char) : Nat := (chars! "0123456789abcdef").idxOf c.toLower

/-- The number written with the digits `ds` in base `r`, most significant digit first. -/
def valueOf (r : Nat) : Str → Nat
  | [] => 0
  | d :: ds => digitOf d * r ^ ds.length + valueOf r ds

theorem char_cases {P : Char → Prop} (h : ∀ n, n < 128 → P (Char.ofNat n)) (c : Char) (hc : Ascii c) : P c := by
  have := h c.toNat hc
  rwa [Char.ofNat_toNat] at this

theorem digitVal_hex (c : Char) (h : isHex c = true) : digitVal 16 c = some (digitOf c) := by
  refine char_cases (P := fun c => isHex c = true → digitVal 16 c = some (digitOf c)) ?_ c
    (word_ascii (hex_word h)) h
  decide

theorem digitVal_dec (c : Char) (h : isDigit c = true) : digitVal 10 c = some (digitOf c) := by
  refine char_cases (P := fun c => isDigit c = true → digitVal 10 c = some (digitOf c)) ?_ c
    (word_ascii (digit_word h)) h
  decide

theorem digitOf_dec (c : Char) (h : isDigit c = true) : digitOf c = c.toNat - '0'.toNat := by
  refine char_cases (P := fun c => isDigit c = true → digitOf c = c.toNat - '0'.toNat) ?_ c
    (word_ascii (digit_word h)) h
  decide

theorem digitsU64_eq (r : Nat) (hr : 0 < r) (ds : Str) (hd : ∀ c ∈ ds, digitVal r c = some (digitOf c)) (acc : Nat)
    (ha : acc < u64Max1) :
    digitsU64 r acc ds = if acc * r ^ ds.length + valueOf r ds < u64Max1
      then some (acc * r ^ ds.length + valueOf r ds) else none := by
  induction ds generalizing acc with
  | nil => simp [digitsU64, valueOf, ha]
  | cons c cs ih =>
    have e : acc * r ^ (c :: cs).length + valueOf r (c :: cs)
        = (acc * r + digitOf c) * r ^ cs.length + valueOf r cs := by
      simp only [List.length_cons, Nat.pow_succ, valueOf, Nat.add_mul, ← Nat.add_assoc]
      rw [Nat.mul_comm (r ^ cs.length) r, ← Nat.mul_assoc]
    rw [digitsU64, hd c (by simp), e]
    simp only [Option.bind_some]
    by_cases h : acc * r + digitOf c < u64Max1
    · rw [if_pos h, ih (fun x hx => hd x (by simp [hx])) _ h]
    · rw [if_neg h, if_neg]
      have : 1 ≤ r ^ cs.length := Nat.one_le_pow _ _ hr
      have := Nat.mul_le_mul_left (acc * r + digitOf c) this
      omega

theorem parseU64_eq (r : Nat) (hr : 0 < r) (ds : Str) (hne : ds ≠ []) (hd : ∀ c ∈ ds, digitVal r c = some (digitOf c)) :
    parseU64 r ds = if valueOf r ds < u64Max1 then some (valueOf r ds) else none := by
  have h := digitsU64_eq r hr ds hd 0 (by decide)
  simp only [Nat.zero_mul, Nat.zero_add] at h
  cases ds with
  | nil => exact absurd rfl hne
  | cons c cs =>
    have hc : c ≠ '+' := by
      rintro rfl
      have := hd '+' (by simp)
      have e : digitVal r '+' = none := rfl
      rw [e] at this; cases this
    rw [← h, parseU64]
    · intro h; cases h
    · intro h; cases h; exact hc rfl
    · intro cs h; cases h; exact hc rfl

theorem valueOf_foldl (ds : Str) (hd : ∀ c ∈ ds, isDigit c = true) (acc : Nat) :
    Nat.ofDigitChars 10 ds acc = acc * 10 ^ ds.length + valueOf 10 ds := by
  induction ds generalizing acc with
  | nil => simp [Nat.ofDigitChars, valueOf]
  | cons c cs ih =>
    have : Nat.ofDigitChars 10 (c :: cs) acc = Nat.ofDigitChars 10 cs (10 * acc + (c.toNat - '0'.toNat)) := rfl
    rw [this, ih (fun x hx => hd x (by simp [hx]))]
    simp only [valueOf, List.length_cons, digitOf_dec c (hd c (by simp)), Nat.pow_succ, Nat.add_mul]
    rw [Nat.mul_comm 10 acc, Nat.mul_assoc, Nat.mul_comm 10 (10 ^ cs.length), Nat.add_assoc]

theorem isDigit_iff (c : Char) : isDigit c = c.isDigit := by
  simp only [isDigit, Char.isDigit]
  rfl

theorem natStr_digits (n : Nat) : ∀ c ∈ natStr n, isDigit c = true := by
  intro c hc
  rw [isDigit_iff]
  exact Nat.isDigit_of_mem_toDigits (by omega) (by omega) hc

theorem natStr_ne (n : Nat) : natStr n ≠ [] := Nat.toDigits_ne_nil

theorem valueOf_natStr (n : Nat) : valueOf 10 (natStr n) = n := by
  have h := valueOf_foldl (natStr n) (natStr_digits n) 0
  rw [natStr, Nat.ofDigitChars_ten_toDigits] at h
  simp at h
  exact h.symm

/-! ### Tokens of written text -/

/-- An identifier the tokenizer can produce. -/
def IdentOk (w : Str) : Prop :=
  (∃ c cs, w = c :: cs ∧ (isAlpha c || c == '_') = true) ∧ (∀ c ∈ w, isWord c = true) ∧ w ≠ chars! "mut"

/-- Text between quotes that contains no unescaped quote and does not end in an unescaped backslash. -/
def StrOk (s : Str) : Prop := ∀ r, closingQuote (s ++ '"' :: r) 0 = some s.length

/-- A token the tokenizer can produce. -/
def TokOk : Token → Prop
  | .ident w => IdentOk w
  | .number n => n < u64Max1
  | .string s => StrOk s ∧ ∀ c ∈ s, Ascii c
  | _ => True

/-- The text does not start in the middle of a word. -/
def Boundary (r : Str) : Prop := ∀ c, r.head? = some c → isWord c = false

theorem takeWhile_boundary {f : Char → Bool} {w rest : Str} (hw : ∀ c ∈ w, f c = true)
    (hb : ∀ c, rest.head? = some c → f c = false) : (w ++ rest).takeWhile f = w := by
  induction w with
  | nil =>
    cases rest with
    | nil => rfl
    | cons a b => simp [List.takeWhile, hb a rfl]
  | cons a w ih =>
    rw [List.cons_append, List.takeWhile_cons, hw a (by simp)]
    simp [ih fun c hc => hw c (by simp [hc])]

theorem lexOne_nonwhite {c : Char} (h : isWhite c = false) (r : Str) : lexOne (c :: r) = lexHead (c :: r) := by
  have : ∀ x : Res (Token × Nat), (x.bind fun x => .ok (x.1, 0 + x.2)) = x := by
    intro x; cases x <;> simp
  simp only [lexOne, List.takeWhile_cons, h, Bool.false_eq_true, if_false, List.length_nil, List.drop_zero, this]

theorem lexOne_white {c : Char} (h : isWhite c = true) (r : Str) :
    lexOne (c :: r) = (lexOne r).bind fun x => .ok (x.1, x.2 + 1) := by
  simp only [lexOne, List.takeWhile_cons, h, if_true, List.length_cons, List.drop_succ_cons]
  cases lexHead (r.drop (r.takeWhile isWhite).length) with
  | ok x => simp; omega
  | err => rfl
  | panic => rfl

theorem lex_white {c : Char} {r : Str} {ts : List Token} (h : isWhite c = true) (hr : Lexes r ts) :
    Lexes (c :: r) ts := by
  cases hr with
  | eof h1 => exact .eof (by rw [lexOne_white h, h1]; rfl)
  | token h1 h2 h3 => exact .token (k := _ + 1) (by rw [lexOne_white h, h1]; rfl) h2 h3

theorem lex_symbol {c : Char} {t : Token} {r : Str} {ts : List Token} (hw : isWhite c = false)
    (hs : symbol c = some t) (ht : t ≠ .eof) (hr : Lexes r ts) : Lexes (c :: r) (t :: ts) := by
  refine .token (k := 1) ?_ ht hr
  rw [lexOne_nonwhite hw]
  simp only [lexHead, hs]

theorem lex_sep {r : Str} {ts : List Token} (hr : Lexes r ts) : Lexes (':' :: ':' :: r) (.pathSep :: ts) := by
  refine .token (k := 2) ?_ (by simp) hr
  rw [lexOne_nonwhite (by decide)]
  rfl

theorem word_head {c : Char} (h : isWord c = true) :
    isWhite c = false ∧ symbol c = none ∧ c ≠ ':' ∧ c ≠ '"' := by
  refine char_cases (P := fun c => isWord c = true → isWhite c = false ∧ symbol c = none ∧ c ≠ ':' ∧ c ≠ '"') ?_ c
    (word_ascii h) h
  decide

theorem lex_word {w r : Str} {ts : List Token} (hw : (∃ c cs, w = c :: cs ∧ (isAlpha c || c == '_') = true))
    (hall : ∀ c ∈ w, isWord c = true) (hb : Boundary r) (hr : Lexes r ts) :
    Lexes (w ++ r) (wordToken w :: ts) := by
  obtain ⟨c, cs, rfl, hc⟩ := hw
  obtain ⟨h1, h2, h3, -⟩ := word_head (hall c (by simp))
  have e := takeWhile_boundary (f := isWord) hall hb
  refine .token (k := (c :: cs).length) ?_ (by simp only [wordToken]; split <;> simp) (by simpa using hr)
  rw [List.cons_append, lexOne_nonwhite h1]
  rw [List.cons_append] at e
  simp only [lexHead, h2, if_neg h3, hc, if_true, e]

theorem lex_ident {w r : Str} {ts : List Token} (hw : IdentOk w) (hb : Boundary r) (hr : Lexes r ts) :
    Lexes (w ++ r) (.ident w :: ts) := by
  have := lex_word hw.1 hw.2.1 hb hr
  rwa [wordToken, if_neg hw.2.2] at this

theorem startsWith_false (x : Char) (hx : isDigit x = false) (hw : isWord x = true) (ds r : Str) (hne : ds ≠ [])
    (hd : ∀ c ∈ ds, isDigit c = true) (hb : Boundary r) : startsWith ['0', x] (ds ++ r) = false := by
  cases h : startsWith ['0', x] (ds ++ r) with
  | false => rfl
  | true =>
    exfalso
    simp only [startsWith, List.isPrefixOf_iff_prefix] at h
    obtain ⟨w, hw'⟩ := h
    cases ds with
    | nil => exact hne rfl
    | cons d ds =>
      simp at hw'
      obtain ⟨-, hw'⟩ := hw'
      cases ds with
      | nil =>
        simp at hw'
        have := hb x (by rw [← hw']; rfl)
        rw [hw] at this; cases this
      | cons d' ds =>
        simp at hw'
        have := hd d' (by simp)
        rw [← hw'.1, hx] at this; cases this

theorem digit_head {c : Char} (h : isDigit c = true) : (isAlpha c || c == '_') = false := by
  refine char_cases (P := fun c => isDigit c = true → (isAlpha c || c == '_') = false) ?_ c
    (word_ascii (digit_word h)) h
  decide

/-- A run of decimal digits. -/
theorem lexHead_dec {ds r : Str} (hne : ds ≠ []) (hd : ∀ c ∈ ds, isDigit c = true) (hb : Boundary r) :
    lexHead (ds ++ r) = if valueOf 10 ds < u64Max1 then .ok (.number (valueOf 10 ds), ds.length) else .err := by
  have hsx := startsWith_false 'x' (by decide) (by decide) ds r hne hd hb
  have hsX := startsWith_false 'X' (by decide) (by decide) ds r hne hd hb
  have hbd : ∀ c, r.head? = some c → isDigit c = false := by
    intro c hc
    have := hb c hc
    cases h : isDigit c
    · rfl
    · rw [digit_word h] at this; cases this
  have e := takeWhile_boundary (f := isDigit) hd hbd
  have hv := parseU64_eq 10 (by omega) ds hne fun c hc => digitVal_dec c (hd c hc)
  cases ds with
  | nil => exact absurd rfl hne
  | cons c cs =>
    obtain ⟨h1, h2, h3, h4⟩ := word_head (digit_word (hd c (by simp)))
    have h5 := digit_head (hd c (by simp))
    rw [List.cons_append] at hsx hsX e ⊢
    simp only [lexHead, h2, if_neg h3, h5, hd c (by simp), if_true, Bool.false_eq_true, if_false, lexNumber]
    rw [hsx, hsX, e, hv]
    simp only [Bool.or_self, Bool.false_eq_true, if_false]
    split <;> rfl

/-- `0x` or `0X` and a run of hexadecimal digits. -/
theorem lexHead_hex {x : Char} (hx : x = 'x' ∨ x = 'X') {ds r : Str} (hd : ∀ c ∈ ds, isHex c = true)
    (hb : ∀ c, r.head? = some c → isHex c = false) :
    lexHead ('0' :: x :: (ds ++ r)) =
      if ds ≠ [] ∧ valueOf 16 ds < u64Max1 then .ok (.number (valueOf 16 ds), ds.length + 2) else .err := by
  have e := takeWhile_boundary (f := isHex) hd hb
  have hs : (startsWith (chars! "0x") ('0' :: x :: (ds ++ r)) || startsWith (chars! "0X") ('0' :: x :: (ds ++ r))) = true := by
    rcases hx with rfl | rfl <;> rfl
  have h0 : symbol '0' = none := rfl
  simp only [lexHead, h0, if_neg (show ¬ '0' = ':' by decide), if_neg (show ¬ (isAlpha '0' || '0' == '_') = true by decide),
    if_pos (show isDigit '0' = true by decide), lexNumber, hs, if_true, List.drop_succ_cons, List.drop_zero, e]
  cases hds : ds with
  | nil => simp [parseU64, Res.ofOption]
  | cons c cs =>
    rw [← hds]
    have hne : ds ≠ [] := by rw [hds]; simp
    rw [parseU64_eq 16 (by omega) ds hne fun c hc => digitVal_hex c (hd c hc)]
    by_cases h : valueOf 16 ds < u64Max1
    · simp [h, hne, Res.ofOption, Nat.add_comm]
    · simp [h, Res.ofOption]

theorem lex_num {n : Nat} {r : Str} {ts : List Token} (hn : n < u64Max1) (hb : Boundary r) (hr : Lexes r ts) :
    Lexes (natStr n ++ r) (.number n :: ts) := by
  have h := lexHead_dec (natStr_ne n) (natStr_digits n) hb
  rw [valueOf_natStr, if_pos hn] at h
  cases hs : natStr n with
  | nil => exact absurd hs (natStr_ne n)
  | cons c cs =>
    rw [hs] at h
    have hc := natStr_digits n c (by rw [hs]; simp)
    refine .token (k := (c :: cs).length) ?_ (by simp) (by simpa using hr)
    rw [List.cons_append] at h ⊢
    rw [lexOne_nonwhite (word_head (digit_word hc)).1, h]

theorem lex_str {s r : Str} {ts : List Token} (hs : StrOk s) (hr : Lexes r ts) :
    Lexes ('"' :: (s ++ '"' :: r)) (.string s :: ts) := by
  refine .token (k := s.length + 2) ?_ (by simp) ?_
  · rw [lexOne_nonwhite (by decide)]
    have h0 : symbol '"' = none := rfl
    simp only [lexHead, h0, if_neg (show ¬ '"' = ':' by decide), if_neg (show ¬ (isAlpha '"' || '"' == '_') = true by decide),
      if_neg (show ¬ isDigit '"' = true by decide), if_true, hs r]
    simp
  · simpa using hr

/-! ### The tokens the tokenizer produces -/

theorem closingQuote_strOk (cs : Str) (p q : Nat) (h : closingQuote cs p = some q) (r : Str) :
    closingQuote (cs.take (q - p) ++ '"' :: r) p = some q := by
  induction cs, p using closingQuote.induct with
  | case1 => simp [closingQuote] at h
  | case2 => simp [closingQuote] at h; subst h; simp [closingQuote]
  | case3 => simp [closingQuote] at h
  | case4 c cs p ih =>
    simp only [closingQuote] at h
    have hb := closingQuote_lt _ _ _ h
    have := ih h
    obtain ⟨d, rfl⟩ : ∃ d, q = p + 2 + d := ⟨q - (p + 2), by omega⟩
    rw [show p + 2 + d - (p + 2) = d by omega] at this
    rw [show p + 2 + d - p = d + 1 + 1 by omega]
    simp only [List.take_succ_cons, List.cons_append, closingQuote, this]
  | case5 c cs p h1 h2 h3 ih =>
    rw [closingQuote] at h
    · have hb := closingQuote_lt _ _ _ h
      have := ih h
      obtain ⟨d, rfl⟩ : ∃ d, q = p + 1 + d := ⟨q - (p + 1), by omega⟩
      rw [show p + 1 + d - (p + 1) = d by omega] at this
      rw [show p + 1 + d - p = d + 1 by omega]
      simp only [List.take_succ_cons, List.cons_append]
      rw [closingQuote, this]
      · exact h1
      · intro a b
        cases cs with
        | nil => exact h2 a rfl
        | cons x y => exact h3 x y a rfl
      · intro x y a b
        cases cs with
        | nil => exact h2 a rfl
        | cons x y => exact h3 x y a rfl
    all_goals assumption

theorem digitsU64_lt (r : Nat) (ds : Str) (acc n : Nat) (h : digitsU64 r acc ds = some n) (ha : acc < u64Max1) :
    n < u64Max1 := by
  induction ds generalizing acc with
  | nil => simp [digitsU64] at h; omega
  | cons c cs ih =>
    simp only [digitsU64] at h
    cases hd : digitVal r c with
    | none => rw [hd] at h; cases h
    | some d =>
      rw [hd] at h
      simp only [Option.bind_some] at h
      split at h
      · exact ih _ h (by assumption)
      · cases h

theorem parseU64_lt (r : Nat) (ds : Str) (n : Nat) (h : parseU64 r ds = some n) : n < u64Max1 := by
  unfold parseU64 at h
  split at h
  · cases h
  · cases h
  · exact digitsU64_lt _ _ _ _ h (by decide)
  · exact digitsU64_lt _ _ _ _ h (by decide)

theorem lexHead_tokOk {r : Str} (hr : ∀ c ∈ r, Ascii c) {t : Token} {k : Nat} (h : lexHead r = .ok (t, k)) : TokOk t := by
  simp only [lexHead] at h
  split at h
  · cases h; trivial
  · rename_i c cs
    split at h
    · rename_i t' ht
      cases h
      simp only [symbol] at ht
      repeat' split at ht
      all_goals first | (cases ht; trivial) | cases ht
    · split at h
      · split at h <;> cases h; trivial
      · split at h
        · rename_i hw
          cases h
          simp only [wordToken]
          split
          · trivial
          · rename_i hm
            have hw' : isWord c = true := by
              simp only [isWord, Bool.or_eq_true] at hw ⊢
              rcases hw with h | h
              · exact Or.inl (Or.inl h)
              · exact Or.inr h
            refine ⟨⟨c, cs.takeWhile isWord, by rw [List.takeWhile_cons, hw']; rfl, hw⟩, ?_, hm⟩
            intro x hx
            exact takeWhile_imp hx
        · split at h
          · simp only [lexNumber] at h
            split at h
            · rw [Res.bind_eq_ok] at h; obtain ⟨n, h1, h⟩ := h; cases h
              cases hp : parseU64 16 (((c :: cs).drop 2).takeWhile isHex) with
              | none => rw [hp] at h1; cases h1
              | some m => rw [hp] at h1; cases h1; exact parseU64_lt _ _ _ hp
            · rw [Res.bind_eq_ok] at h; obtain ⟨n, h1, h⟩ := h; cases h
              cases hp : parseU64 10 ((c :: cs).takeWhile isDigit) with
              | none => rw [hp] at h1; cases h1
              | some m => rw [hp] at h1; cases h1; exact parseU64_lt _ _ _ hp
          · split at h
            · split at h
              · rename_i q hq
                cases h
                have hb := closingQuote_lt _ _ _ hq
                refine ⟨?_, fun x hx => hr x (by simp [List.mem_of_mem_take hx])⟩
                intro r
                have := closingQuote_strOk cs 0 q hq r
                rw [Nat.sub_zero] at this
                rw [this, List.length_take]
                congr 1
                omega
              · cases h
            · cases h

theorem lexes_tokOk {r : Str} {ts : List Token} (hr : ∀ c ∈ r, Ascii c) (h : Lexes r ts) : ∀ t ∈ ts, TokOk t := by
  induction h with
  | eof => intro t ht; simp at ht; subst ht; trivial
  | @token r t k ts h1 h2 _ ih =>
    intro x hx
    rcases List.mem_cons.1 hx with rfl | hx
    · simp only [lexOne, Res.bind_eq_ok] at h1
      obtain ⟨y, h3, h4⟩ := h1
      cases h4
      exact lexHead_tokOk (fun c hc => hr c (List.mem_of_mem_drop hc)) h3
    · exact ih (fun c hc => hr c (List.mem_of_mem_drop hc)) x hx

/-! ### The tokens of printed expressions -/

theorem joinWith_cons (sep s : Str) (ss : List Str) :
    joinWith sep (s :: ss) = s ++ ss.flatMap fun x => sep ++ x := by
  induction ss generalizing s with
  | nil => simp [joinWith]
  | cons t ss ih => rw [joinWith, ih]; simp

theorem lex_pathRest {ss : List Str} {r : Str} {ts : List Token} (hss : ∀ s ∈ ss, IdentOk s) (hb : Boundary r)
    (hr : Lexes r ts) :
    Lexes ((ss.flatMap fun x => chars! "::" ++ x) ++ r) ((ss.flatMap fun x => [.pathSep, .ident x]) ++ ts) ∧
      Boundary ((ss.flatMap fun x => chars! "::" ++ x) ++ r) := by
  induction ss with
  | nil => exact ⟨by simpa using hr, by simpa using hb⟩
  | cons s ss ih =>
    obtain ⟨h1, h2⟩ := ih fun x hx => hss x (by simp [hx])
    refine ⟨?_, ?_⟩
    · simp only [List.flatMap_cons, List.cons_append, List.nil_append, List.append_assoc]
      exact lex_sep (lex_ident (hss s (by simp)) h2 h1)
    · intro c hc
      simp at hc; subst hc; decide

theorem lex_path {s : Str} {ss : List Str} {r : Str} {ts : List Token}
    (hok : ∀ t ∈ pathToks s ss, TokOk t) (hb : Boundary r) (hr : Lexes r ts) :
    Lexes (pathText s ss ++ r) (pathToks s ss ++ ts) := by
  have hs : IdentOk s := hok (.ident s) (by simp [pathToks])
  have hss : ∀ x ∈ ss, IdentOk x := fun x hx => hok (.ident x) (by simp [pathToks, hx])
  obtain ⟨h1, h2⟩ := lex_pathRest hss hb hr
  rw [pathText, joinWith_cons, List.append_assoc, pathToks, List.cons_append]
  exact lex_ident hs h2 h1

theorem boundary_cons {c : Char} {r : Str} (h : isWord c = false) : Boundary (c :: r) := by
  intro x hx; simp at hx; subst hx; exact h

/-- The text of the arguments after the first. -/
def moreText (es : List Str) : Str := es.flatMap fun x => chars! ", " ++ x

/-- What the text of a phrase lexes to. -/
def Prints (p : Phrase) (u : List Token) : Prop :=
  match p with
  | .unary e | .postfix e | .primary e =>
    ∀ r ts, Boundary r → Lexes r ts → Lexes (e.print ++ r) (u ++ ts)
  | .args es => ∀ r ts, Boundary r → Lexes r ts → Lexes (joinWith (chars! ", ") (printAll es) ++ r) (u ++ ts)
  | .more es => ∀ r ts, Boundary r → Lexes r ts →
      Lexes (moreText (printAll es) ++ r) (u ++ ts) ∧ Boundary (moreText (printAll es) ++ r)
  | .typ s => ∀ r ts, Boundary r → Lexes r ts → Lexes (s ++ r) (u ++ ts)
  | .typs ss => ∀ r ts, Boundary r → Lexes r ts → Lexes (joinWith (chars! ", ") ss ++ r) (u ++ ts)
  | .moreTyps ss => ∀ r ts, Boundary r → Lexes r ts →
      Lexes (moreText ss ++ r) (u ++ ts) ∧ Boundary (moreText ss ++ r)

theorem lex_comma {r : Str} {ts : List Token} (h : Lexes r ts) : Lexes (',' :: ' ' :: r) (.comma :: ts) :=
  lex_symbol rfl rfl (by simp) (lex_white rfl h)

theorem print_lexes {p : Phrase} {u : List Token} (h : Spells p u) (hok : ∀ t ∈ u, TokOk t) : Prints p u := by
  induction h with
  | @deref e u _ ih =>
    intro r ts hb hr
    simp only [Expr.print, List.cons_append, List.nil_append]
    exact lex_symbol rfl rfl (by simp) (ih (fun t ht => hok t (by simp [ht])) r ts hb hr)
  | @addr e u _ ih =>
    intro r ts hb hr
    simp only [Expr.print, List.cons_append, List.nil_append]
    exact lex_symbol rfl rfl (by simp) (ih (fun t ht => hok t (by simp [ht])) r ts hb hr)
  | @addrMut e u _ ih =>
    intro r ts hb hr
    simp only [Expr.print, List.cons_append, List.nil_append]
    refine lex_symbol rfl rfl (by simp) ?_
    have := lex_word (w := chars! "mut") (r := ' ' :: (e.print ++ r)) ⟨'m', _, rfl, rfl⟩ (by decide)
      (boundary_cons rfl) (lex_white rfl (ih (fun t ht => hok t (by simp [ht])) r ts hb hr))
    exact this
  | «postfix» _ ih => exact ih hok
  | primary _ ih => exact ih hok
  | @field e u f _ ih =>
    intro r ts hb hr
    have hf : IdentOk f := hok (.ident f) (by simp)
    simp only [Expr.print, List.append_assoc, List.cons_append, List.nil_append]
    exact ih (fun t ht => hok t (by simp [ht])) _ _ (boundary_cons rfl)
      (lex_symbol rfl rfl (by simp) (lex_ident hf hb hr))
  | @method e u f as v _ _ ih1 ih2 =>
    intro r ts hb hr
    have hf : IdentOk f := hok (.ident f) (by simp)
    simp only [Expr.print, List.append_assoc, List.cons_append, List.nil_append]
    refine ih1 (fun t ht => hok t (by simp [ht])) _ _ (boundary_cons rfl) ?_
    refine lex_symbol rfl rfl (by simp) (lex_ident hf (boundary_cons rfl) (lex_symbol rfl rfl (by simp) ?_))
    exact ih2 (fun t ht => hok t (by simp [ht])) _ _ (boundary_cons rfl) (lex_symbol rfl rfl (by simp) hr)
  | @index e u i v _ _ ih1 ih2 =>
    intro r ts hb hr
    simp only [Expr.print, List.append_assoc, List.cons_append, List.nil_append]
    refine ih1 (fun t ht => hok t (by simp [ht])) _ _ (boundary_cons rfl) ?_
    refine lex_symbol rfl rfl (by simp) ?_
    exact ih2 (fun t ht => hok t (by simp [ht])) _ _ (boundary_cons rfl) (lex_symbol rfl rfl (by simp) hr)
  | @var s =>
    intro r ts hb hr
    exact lex_ident (hok (.ident s) (by simp)) hb hr
  | @path s t ss =>
    intro r ts hb hr
    exact lex_path hok hb hr
  | @generic s ss ts u _ ih =>
    intro r ts' hb hr
    simp only [Expr.print, List.append_assoc, List.cons_append, List.nil_append]
    refine lex_path (fun t ht => hok t (by simp [ht])) (boundary_cons rfl) (lex_symbol rfl rfl (by simp) ?_)
    exact ih (fun t ht => hok t (by simp [ht])) _ _ (boundary_cons rfl) (lex_symbol rfl rfl (by simp) hr)
  | @call s ss as u _ ih =>
    intro r ts' hb hr
    simp only [Expr.print, List.append_assoc, List.cons_append, List.nil_append]
    refine lex_path (fun t ht => hok t (by simp [ht])) (boundary_cons rfl) (lex_symbol rfl rfl (by simp) ?_)
    exact ih (fun t ht => hok t (by simp [ht])) _ _ (boundary_cons rfl) (lex_symbol rfl rfl (by simp) hr)
  | @num n =>
    intro r ts hb hr
    exact lex_num (hok (.number n) (by simp)) hb hr
  | @str s =>
    intro r ts hb hr
    simp only [Expr.print, List.append_assoc, List.cons_append, List.nil_append]
    exact lex_str (hok (.string s) (by simp)).1 hr
  | @paren e u _ ih =>
    intro r ts hb hr
    simp only [Expr.print, List.append_assoc, List.cons_append, List.nil_append]
    refine lex_symbol rfl rfl (by simp) ?_
    exact ih (fun t ht => hok t (by simp [ht])) _ _ (boundary_cons rfl) (lex_symbol rfl rfl (by simp) hr)
  | noArgs => intro r ts hb hr; exact hr
  | @args a as u v _ _ ih1 ih2 =>
    intro r ts hb hr
    obtain ⟨h1, h2⟩ := ih2 (fun t ht => hok t (by simp [ht])) r ts hb hr
    rw [printAll, joinWith_cons, List.append_assoc, List.append_assoc]
    exact ih1 (fun t ht => hok t (by simp [ht])) _ _ h2 h1
  | noMore => intro r ts hb hr; exact ⟨hr, hb⟩
  | @more a as u v _ _ ih1 ih2 =>
    intro r ts hb hr
    obtain ⟨h1, h2⟩ := ih2 (fun t ht => hok t (by simp [ht])) r ts hb hr
    refine ⟨?_, boundary_cons rfl⟩
    simp only [printAll, moreText, List.flatMap_cons, List.append_assoc, List.cons_append, List.nil_append]
    exact lex_comma (ih1 (fun t ht => hok t (by simp [ht])) _ _ h2 h1)
  | @typ s ss =>
    intro r ts hb hr
    exact lex_path hok hb hr
  | @typGeneric s ss ts u _ ih =>
    intro r ts' hb hr
    simp only [List.append_assoc, List.cons_append, List.nil_append]
    refine lex_path (fun t ht => hok t (by simp [ht])) (boundary_cons rfl) (lex_symbol rfl rfl (by simp) ?_)
    exact ih (fun t ht => hok t (by simp [ht])) _ _ (boundary_cons rfl) (lex_symbol rfl rfl (by simp) hr)
  | noTyps => intro r ts hb hr; exact hr
  | @typs a as u v _ _ ih1 ih2 =>
    intro r ts hb hr
    obtain ⟨h1, h2⟩ := ih2 (fun t ht => hok t (by simp [ht])) r ts hb hr
    rw [joinWith_cons, List.append_assoc, List.append_assoc]
    exact ih1 (fun t ht => hok t (by simp [ht])) _ _ h2 h1
  | noMoreTyps => intro r ts hb hr; exact ⟨hr, hb⟩
  | @moreTyps a as u v _ _ ih1 ih2 =>
    intro r ts hb hr
    obtain ⟨h1, h2⟩ := ih2 (fun t ht => hok t (by simp [ht])) r ts hb hr
    refine ⟨?_, boundary_cons rfl⟩
    simp only [moreText, List.flatMap_cons, List.append_assoc, List.cons_append, List.nil_append]
    exact lex_comma (ih1 (fun t ht => hok t (by simp [ht])) _ _ h2 h1)

end Rudy.Expr
