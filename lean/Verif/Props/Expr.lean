import Verif.Proof.ExprPrint
/-
C15-C18: the expression language.
-/
set_option linter.unusedSimpArgs false
namespace Rudy.Expr
open Rudy Rudy.Data Rudy.Layout

/-! ### C15: parsing never panics -/

/-- C15 for ASCII text, and for any text without string literals and without exotic white space.
Missing: it is false otherwise (`C15_non_ascii_string_fails`). The nesting of the text is unbounded here;
the real parser is recursive and its stack is not modelled. -/
theorem C15_no_panic_partial (s : Str)
    (hs : (∀ c ∈ s, Ascii c) ∨ ('"' ∉ s ∧ ∀ c ∈ s, isWhite c = true → Ascii c)) :
    (parseExpression s).NoPanic :=
  bind_noPanic (tokenize_noPanic hs) fun ts _ => parseTokens_noPanic ts

example : parseExpression (chars! "a.b(1, &mut *c)[0x1F]") =
    .ok (.index (.method (.var (chars! "a")) (chars! "b")
      [.num 1, .addrOf true (.deref (.var (chars! "c")))]) (.num 31)) := rfl

example : parseExpression (chars! "é") = .err := rfl

/-- C15 is false of the code: a string literal holding one non-ASCII character makes the parser panic,
whatever the character is. -/
theorem C15_non_ascii_string_fails (c : Char) (hc : ¬ Ascii c) :
    parseExpression ['"', c, '"'] = .panic := by
  have h2 : ¬ c.utf8Size ≤ 1 := by
    intro h
    have h1 : c.val ≤ 0x7f := by
      rw [Char.utf8Size] at h
      split at h
      · assumption
      · split at h
        · omega
        · split at h <;> omega
    apply hc
    rw [UInt32.le_iff_toNat_le] at h1
    exact Nat.lt_succ_of_le h1
  have hq : c ≠ '"' := by rintro rfl; exact hc (by decide)
  have hb : c ≠ '\\' := by rintro rfl; exact hc (by decide)
  have hcl : closingQuote [c, '"'] 1 = some 2 := by
    rw [closingQuote]
    · rfl
    all_goals (intros; simp_all)
  have hw : isWhite '"' = false := rfl
  have hsl : slice ['"', c, '"'] 1 2 = .panic := by
    have hq1 : '"'.utf8Size = 1 := rfl
    simp [slice, sliceFrom, dropBytes, takeBytes, h2, hq1]
  have hadv : advance ['"', c, '"'] 0 = 1 := advance_eq (by simp)
  have hnt : nextToken ['"', c, '"'] 0 = .panic := by
    have hscan : scanWhile ['"', c, '"'] isWhite 0 = 0 := by simp [scanWhile, List.takeWhile, hw]
    rw [nextToken, hscan, tokenAt]
    simp only [List.getElem?_cons_zero, readString, hadv]
    simp [hcl, hsl, isAlpha, isDigit]
  simp [parseExpression, tokenize, tokens, hnt]

/-- Another panic: a no-break space inside an expression. -/
theorem C15_non_ascii_space_fails : parseExpression (chars! "foo\u00a0bar") = .panic := rfl

/-! ### C16: printing and parsing -/

/-- The characters of the text of a phrase are ASCII. -/
def AsciiText (p : Phrase) : Prop :=
  match p with
  | .unary e | .postfix e | .primary e => ∀ c ∈ e.print, Ascii c
  | .args es | .more es => ∀ s ∈ printAll es, ∀ c ∈ s, Ascii c
  | .typ s => ∀ c ∈ s, Ascii c
  | .typs ss | .moreTyps ss => ∀ s ∈ ss, ∀ c ∈ s, Ascii c

theorem joinWith_ascii {sep : Str} {ss : List Str} (h1 : ∀ c ∈ sep, Ascii c) (h2 : ∀ s ∈ ss, ∀ c ∈ s, Ascii c) :
    ∀ c ∈ joinWith sep ss, Ascii c := by
  cases ss with
  | nil => intro c hc; cases hc
  | cons s ss =>
    rw [joinWith_cons]
    intro c hc
    simp only [List.mem_append, List.mem_flatMap] at hc
    rcases hc with hc | ⟨t, ht, hc | hc⟩
    · exact h2 s (by simp) c hc
    · exact h1 c hc
    · exact h2 t (by simp [ht]) c hc

theorem path_ascii {s : Str} {ss : List Str} (hok : ∀ t ∈ pathToks s ss, TokOk t) : ∀ c ∈ pathText s ss, Ascii c := by
  apply joinWith_ascii (by decide)
  intro x hx c hc
  have : IdentOk x := by
    rcases List.mem_cons.1 hx with rfl | hx
    · exact hok (.ident x) (by simp [pathToks])
    · exact hok (.ident x) (by simp [pathToks, hx])
  exact word_ascii (this.2.1 c hc)

theorem print_ascii {p : Phrase} {u : List Token} (h : Spells p u) (hok : ∀ t ∈ u, TokOk t) : AsciiText p := by
  have app : ∀ {a b : Str}, (∀ c ∈ a, Ascii c) → (∀ c ∈ b, Ascii c) → ∀ c ∈ a ++ b, Ascii c := by
    intro a b h1 h2 c hc
    rcases List.mem_append.1 hc with h | h
    · exact h1 c h
    · exact h2 c h
  induction h with
  | deref _ ih => exact app (by decide) (ih fun t ht => hok t (by simp [ht]))
  | addr _ ih => exact app (by decide) (ih fun t ht => hok t (by simp [ht]))
  | addrMut _ ih => exact app (by decide) (ih fun t ht => hok t (by simp [ht]))
  | «postfix» _ ih => exact ih hok
  | primary _ ih => exact ih hok
  | @field e u f _ ih =>
    have hf : IdentOk f := hok (.ident f) (by simp)
    exact app (app (ih fun t ht => hok t (by simp [ht])) (by decide)) fun c hc => word_ascii (hf.2.1 c hc)
  | @method e u f as v _ _ ih1 ih2 =>
    have hf : IdentOk f := hok (.ident f) (by simp)
    exact app (app (app (app (app (ih1 fun t ht => hok t (by simp [ht])) (by decide)) fun c hc => word_ascii (hf.2.1 c hc))
      (by decide)) (joinWith_ascii (by decide) (ih2 fun t ht => hok t (by simp [ht])))) (by decide)
  | index _ _ ih1 ih2 =>
    exact app (app (app (ih1 fun t ht => hok t (by simp [ht])) (by decide)) (ih2 fun t ht => hok t (by simp [ht]))) (by decide)
  | @var s =>
    have hf : IdentOk s := hok (.ident s) (by simp)
    exact fun c hc => word_ascii (hf.2.1 c hc)
  | path => exact path_ascii hok
  | generic _ ih =>
    exact app (app (app (path_ascii fun t ht => hok t (by simp [ht])) (by decide))
      (joinWith_ascii (by decide) (ih fun t ht => hok t (by simp [ht])))) (by decide)
  | call _ ih =>
    exact app (app (app (path_ascii fun t ht => hok t (by simp [ht])) (by decide))
      (joinWith_ascii (by decide) (ih fun t ht => hok t (by simp [ht])))) (by decide)
  | num => exact fun c hc => word_ascii (digit_word (natStr_digits _ c hc))
  | @str s => exact app (app (by decide) (hok (.string s) (by simp)).2) (by decide)
  | paren _ ih => exact app (app (by decide) (ih fun t ht => hok t (by simp [ht]))) (by decide)
  | noArgs => intro s hs; cases hs
  | args _ _ ih1 ih2 =>
    intro s hs
    rcases List.mem_cons.1 hs with rfl | hs
    · exact ih1 fun t ht => hok t (by simp [ht])
    · exact ih2 (fun t ht => hok t (by simp [ht])) s hs
  | noMore => intro s hs; cases hs
  | more _ _ ih1 ih2 =>
    intro s hs
    rcases List.mem_cons.1 hs with rfl | hs
    · exact ih1 fun t ht => hok t (by simp [ht])
    · exact ih2 (fun t ht => hok t (by simp [ht])) s hs
  | typ => exact path_ascii hok
  | typGeneric _ ih =>
    exact app (app (app (path_ascii fun t ht => hok t (by simp [ht])) (by decide))
      (joinWith_ascii (by decide) (ih fun t ht => hok t (by simp [ht])))) (by decide)
  | noTyps => intro s hs; cases hs
  | typs _ _ ih1 ih2 =>
    intro s hs
    rcases List.mem_cons.1 hs with rfl | hs
    · exact ih1 fun t ht => hok t (by simp [ht])
    · exact ih2 (fun t ht => hok t (by simp [ht])) s hs
  | noMoreTyps => intro s hs; cases hs
  | moreTyps _ _ ih1 ih2 =>
    intro s hs
    rcases List.mem_cons.1 hs with rfl | hs
    · exact ih1 fun t ht => hok t (by simp [ht])
    · exact ih2 (fun t ht => hok t (by simp [ht])) s hs

theorem lexes_nil : Lexes [] [.eof] := .eof (k := 0) rfl

theorem boundary_nil : Boundary [] := by intro c hc; cases hc

/-- The tokens of the print-out of an expression. -/
theorem tokenize_print {e : Expr} {u : List Token} (h : Spells (.unary e) u) (hok : ∀ t ∈ u, TokOk t) :
    tokenize e.print = .ok (u ++ [.eof]) := by
  rw [tokenize_iff (Or.inl (print_ascii h hok))]
  have := print_lexes h hok [] [.eof] boundary_nil lexes_nil
  rwa [List.append_nil] at this

/-- What parsing an ASCII text tells: its tokens are those of the expression, and then some. -/
theorem parse_spells {s : Str} (hs : ∀ c ∈ s, Ascii c) {e : Expr} (h : parseExpression s = .ok e) :
    ∃ u rest, tokenize s = .ok (u ++ rest) ∧ Spells (.unary e) u ∧ ∀ t ∈ u, TokOk t := by
  simp only [parseExpression, Res.bind_eq_ok] at h
  obtain ⟨ts, h1, h2⟩ := h
  obtain ⟨u, rest, rfl, h3⟩ := parseTokens_sound h2
  have hl := (tokenize_iff (Or.inl hs) _).1 h1
  exact ⟨u, rest, h1, h3, fun t ht => lexes_tokOk hs hl t (by simp [ht])⟩

/-- C16 for ASCII input. Missing: it is false for other input (`C16_non_ascii_fails`). -/
theorem C16_round_trip_partial (s : Str) (hs : ∀ c ∈ s, Ascii c) (e : Expr) (h : parseExpression s = .ok e) :
    parseExpression e.print = .ok e := by
  obtain ⟨u, rest, -, h1, h2⟩ := parse_spells hs h
  rw [parseExpression, tokenize_print h1 h2, Res.bind_ok]
  exact parseTokens_complete h1 (by simp [Continues, Opens])

example : parseExpression (chars! " & mut a . b ( 1,*c ) [ 0x1F ] ") =
    .ok (.addrOf true (.index (.method (.var (chars! "a")) (chars! "b") [.num 1, .deref (.var (chars! "c"))]) (.num 31))) ∧
  (Expr.addrOf true (.index (.method (.var (chars! "a")) (chars! "b") [.num 1, .deref (.var (chars! "c"))]) (.num 31))).print
    = chars! "&mut a.b(1, *c)[31]" := ⟨rfl, rfl⟩

/-- The grammar, in both directions: an expression of the grammar, written out, parses to that
expression; and whatever ASCII text parses to is an expression of the grammar whose tokens open the text. -/
theorem C16_grammar_complete (e : Expr) (u : List Token) (h : Spells (.unary e) u) (hok : ∀ t ∈ u, TokOk t) :
    parseExpression e.print = .ok e := by
  rw [parseExpression, tokenize_print h hok, Res.bind_ok]
  exact parseTokens_complete h (by simp [Continues, Opens])

example : ∃ u, Spells (.unary (.deref (.field (.call (chars! "std::f") []) (chars! "x")))) u ∧ ∀ t ∈ u, TokOk t :=
  ⟨_, .deref (.postfix (.field (.primary (.call (s := chars! "std") (ss := [chars! "f"]) .noArgs)))), by
    intro t ht
    simp [pathToks] at ht
    rcases ht with rfl | rfl | rfl | rfl | rfl | rfl | rfl | rfl <;>
      first | trivial | exact ⟨⟨_, _, rfl, by decide⟩, by decide, by decide⟩⟩

/-- C16 is false of the code for non-ASCII text: `"éa"` parses to a string without the `a`, whose
print-out makes the parser panic. -/
theorem C16_non_ascii_fails : ∃ s e, parseExpression s = .ok e ∧ parseExpression e.print ≠ .ok e :=
  ⟨chars! "\"éa\"", .str (chars! "é"), rfl, by
    rw [show parseExpression (Expr.str (chars! "é")).print = .panic from rfl]; simp⟩

/-- The content of an ASCII string literal is what stands between the quotes, escapes included. -/
theorem C16_string_literal (s : Str) (hs : StrOk s) (ha : ∀ c ∈ s, Ascii c) :
    parseExpression (chars! "\"" ++ s ++ chars! "\"") = .ok (.str s) :=
  C16_grammar_complete (.str s) [.string s] (.postfix (.primary .str)) (by simp [TokOk, hs]; exact ha)

example : StrOk (chars! "a\\\"b") ∧ ¬ StrOk (chars! "a\"b") := by
  refine ⟨fun r => rfl, fun h => ?_⟩
  have := h []
  revert this
  decide

/-! ### C17: nothing is silently dropped -/

/-- What is left of C17: the tokens of the print-out of the result open the text. The tokens after them
(`rest`) are ignored. -/
theorem C17_prefix_partial (s : Str) (hs : ∀ c ∈ s, Ascii c) (e : Expr) (h : parseExpression s = .ok e) :
    ∃ u rest, tokenize s = .ok (u ++ rest) ∧ tokenize e.print = .ok (u ++ [.eof]) := by
  obtain ⟨u, rest, h1, h2, h3⟩ := parse_spells hs h
  exact ⟨u, rest, h1, tokenize_print h2 h3⟩

/-- C17 is false of the code: any expression may be followed by any other word, which is ignored. -/
theorem C17_trailing_word_fails (s : Str) (hs : ∀ c ∈ s, Ascii c) (e : Expr) (h : parseExpression s = .ok e)
    (w : Str) (hw : IdentOk w) : parseExpression (e.print ++ ' ' :: w) = .ok e := by
  obtain ⟨u, rest, -, h1, h2⟩ := parse_spells hs h
  have hl : Lexes (w ++ []) (.ident w :: [.eof]) := lex_ident hw boundary_nil lexes_nil
  rw [List.append_nil] at hl
  have hp := print_lexes h1 h2 (' ' :: w) _ (boundary_cons rfl) (lex_white rfl hl)
  have ha : ∀ c ∈ e.print ++ ' ' :: w, Ascii c := by
    intro c hc
    simp at hc
    rcases hc with hc | rfl | hc
    · exact print_ascii h1 h2 c hc
    · decide
    · exact word_ascii (hw.2.1 c hc)
  rw [parseExpression, (tokenize_iff (Or.inl ha) _).2 hp, Res.bind_ok]
  exact parseTokens_complete h1 (by simp [Continues, Opens])

example : parseExpression (chars! "foo bar") = .ok (.var (chars! "foo")) := rfl
/-- Rust writes a thousand like this. -/
example : parseExpression (chars! "1_000") = .ok (.num 1) := rfl
example : parseExpression (chars! "a)") = .ok (.var (chars! "a")) := rfl

/-! ### C18: number literals -/

theorem lexes_of_head {r : Str} {t : Token} (hr : r ≠ []) (hw : ∀ c, r.head? = some c → isWhite c = false)
    (h : lexHead r = .ok (t, r.length)) (ht : t ≠ .eof) : Lexes r [t, .eof] := by
  cases r with
  | nil => exact absurd rfl hr
  | cons c cs =>
    exact .token (k := (c :: cs).length) (by rw [lexOne_nonwhite (hw c rfl), h]) ht (by simpa using lexes_nil)

/-- C18 for decimal literals. -/
theorem C18_decimal (ds : Str) (hne : ds ≠ []) (hd : ∀ c ∈ ds, isDigit c = true) :
    parseExpression ds = if valueOf 10 ds < 2 ^ 64 then .ok (.num (valueOf 10 ds)) else .err := by
  have h := lexHead_dec hne hd boundary_nil
  rw [List.append_nil] at h
  have ha : ∀ c ∈ ds, Ascii c := fun c hc => word_ascii (digit_word (hd c hc))
  have hw : ∀ c, ds.head? = some c → isWhite c = false := by
    intro c hc
    exact (word_head (digit_word (hd c (List.mem_of_mem_head? hc)))).1
  by_cases hv : valueOf 10 ds < 2 ^ 64
  · rw [if_pos (show valueOf 10 ds < u64Max1 from hv)] at h
    rw [if_pos hv, parseExpression, (tokenize_iff (Or.inl ha) _).2 (lexes_of_head hne hw h (by simp)), Res.bind_ok]
    rfl
  · rw [if_neg (show ¬ valueOf 10 ds < u64Max1 from hv)] at h
    rw [if_neg hv, parseExpression, tokenize, tokens,
      (nextToken_eq (Or.inl ha) (asciiTo_zero ds) (by omega)).1, List.drop_zero]
    cases ds with
    | nil => exact absurd rfl hne
    | cons c cs => rw [lexOne_nonwhite (hw c rfl), h]; rfl

/-- C18 for hexadecimal literals, with `0x` or `0X`; without digits they are errors. -/
theorem C18_hexadecimal (x : Char) (hx : x = 'x' ∨ x = 'X') (ds : Str) (hd : ∀ c ∈ ds, isHex c = true) :
    parseExpression ('0' :: x :: ds) =
      if ds ≠ [] ∧ valueOf 16 ds < 2 ^ 64 then .ok (.num (valueOf 16 ds)) else .err := by
  have h := lexHead_hex hx hd (r := []) (by intro c hc; cases hc)
  rw [List.append_nil] at h
  have ha : ∀ c ∈ '0' :: x :: ds, Ascii c := by
    intro c hc
    simp at hc
    rcases hc with rfl | rfl | hc
    · decide
    · rcases hx with rfl | rfl <;> decide
    · exact word_ascii (hex_word (hd c hc))
  have hw : ∀ c, ('0' :: x :: ds).head? = some c → isWhite c = false := by
    intro c hc; simp at hc; subst hc; rfl
  by_cases hv : ds ≠ [] ∧ valueOf 16 ds < 2 ^ 64
  · rw [if_pos (show ds ≠ [] ∧ valueOf 16 ds < u64Max1 from hv)] at h
    rw [if_pos hv, parseExpression, (tokenize_iff (Or.inl ha) _).2 (lexes_of_head (by simp) hw (by simpa using h) (by simp)),
      Res.bind_ok]
    rfl
  · rw [if_neg (show ¬ (ds ≠ [] ∧ valueOf 16 ds < u64Max1) from hv)] at h
    rw [if_neg hv, parseExpression, tokenize, tokens,
      (nextToken_eq (Or.inl ha) (asciiTo_zero _) (by omega)).1, List.drop_zero, lexOne_nonwhite rfl, h]
    rfl

/-- C18 anywhere in a text: a decimal literal after any ASCII text, not followed by a word character. -/
theorem C18_in_context (before ds after : Str) (hne : ds ≠ []) (hd : ∀ c ∈ ds, isDigit c = true)
    (ha : ∀ c ∈ before ++ ds ++ after, Ascii c) (hb : ∀ c, after.head? = some c → isWord c = false) :
    nextToken (before ++ ds ++ after) before.length =
      if valueOf 10 ds < 2 ^ 64 then .ok (.number (valueOf 10 ds), before.length + ds.length) else .err := by
  have hl : before.length ≤ (before ++ ds ++ after).length := by simp
  rw [(nextToken_eq (Or.inl ha) (p := before.length) (fun c hc => ha c (List.mem_of_mem_take hc)) hl).1]
  have e : (before ++ ds ++ after).drop before.length = ds ++ after := by simp
  rw [e]
  have h := lexHead_dec hne hd hb
  cases ds with
  | nil => exact absurd rfl hne
  | cons c cs =>
    have hw := (word_head (digit_word (hd c (by simp)))).1
    rw [List.cons_append] at h ⊢
    rw [lexOne_nonwhite hw, h]
    by_cases hv : valueOf 10 (c :: cs) < 2 ^ 64
    · rw [if_pos hv, if_pos (show valueOf 10 (c :: cs) < u64Max1 from hv)]; rfl
    · rw [if_neg hv, if_neg (show ¬ valueOf 10 (c :: cs) < u64Max1 from hv)]; rfl

example : parseExpression (chars! "18446744073709551615") = .ok (.num (2 ^ 64 - 1)) ∧
    parseExpression (chars! "18446744073709551616") = .err ∧ parseExpression (chars! "0xfF") = .ok (.num 255) ∧
    parseExpression (chars! "0x") = .err := ⟨rfl, rfl, rfl, rfl⟩

example : valueOf 16 (chars! "fF") = 255 ∧ valueOf 10 (chars! "0120") = 120 := by decide

end Rudy.Expr
