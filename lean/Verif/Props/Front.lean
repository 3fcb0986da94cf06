import Verif.Model.Front
import Verif.Proof.ExprPrint
/-
C69: which session a command reaches.  C70: what becomes of the text the user types.
-/
namespace Rudy.Front
open Rudy Rudy.Server Rudy.Expr

/-! ### Words -/

/-- A text cut into words: what lies between them is white space, and there is some of it. -/
inductive Cut (sp : Char → Bool) : Str → List Str → Prop where
  | blank {w : Str} : (∀ c ∈ w, sp c = true) → Cut sp w []
  | last {w s t : Str} : (∀ c ∈ w, sp c = true) → s ≠ [] → (∀ c ∈ s, sp c = false) → (∀ c ∈ t, sp c = true) → Cut sp (w ++ s ++ t) [s]
  | more {w s t r : Str} {ws : List Str} : (∀ c ∈ w, sp c = true) → s ≠ [] → (∀ c ∈ s, sp c = false) → t ≠ [] → (∀ c ∈ t, sp c = true) →
      Cut sp r ws → ws ≠ [] → Cut sp (w ++ s ++ t ++ r) (s :: ws)

theorem split_skip {sp : Char → Bool} {w : Str} (h : ∀ c ∈ w, sp c = true) (r : Str) : splitFrom sp [] (w ++ r) = splitFrom sp [] r := by
  induction w with
  | nil => rfl
  | cons c w ih =>
    rw [List.cons_append, splitFrom, if_pos (h c (by simp))]
    exact ih fun d hd => h d (by simp [hd])

theorem split_cur {sp : Char → Bool} {cur : Str} (hc : cur ≠ []) {s : Str} (h : ∀ c ∈ s, sp c = false) (r : Str) :
    splitFrom sp cur (s ++ r) = splitFrom sp (cur ++ s) r := by
  induction s generalizing cur with
  | nil => simp
  | cons c s ih =>
    cases cur with
    | nil => exact absurd rfl hc
    | cons d cur =>
      rw [List.cons_append, splitFrom, if_neg (by simp [h c (by simp)])]
      rw [ih (by simp) fun d hd => h d (by simp [hd])]
      simp
      simp

theorem split_word {sp : Char → Bool} {s : Str} (hs : s ≠ []) (h : ∀ c ∈ s, sp c = false) (r : Str) :
    splitFrom sp [] (s ++ r) = splitFrom sp s r := by
  cases s with
  | nil => exact absurd rfl hs
  | cons c s =>
    rw [List.cons_append, splitFrom, if_neg (by simp [h c (by simp)])]
    exact split_cur (by simp) (fun d hd => h d (by simp [hd])) r

theorem split_end {sp : Char → Bool} {cur : Str} (hc : cur ≠ []) {t : Str} (ht : ∀ c ∈ t, sp c = true) : splitFrom sp cur t = [cur] := by
  cases cur with
  | nil => exact absurd rfl hc
  | cons d cur =>
    cases t with
    | nil => rfl
    | cons c t =>
      rw [splitFrom, if_pos (ht c (by simp))]
      · have := split_skip (sp := sp) (w := t) (fun c hc => ht c (by simp [hc])) []
        rw [List.append_nil] at this
        rw [this]; rfl
      · simp

theorem split_gap {sp : Char → Bool} {cur : Str} (hc : cur ≠ []) {t : Str} (hn : t ≠ []) (ht : ∀ c ∈ t, sp c = true) (r : Str) :
    splitFrom sp cur (t ++ r) = cur :: splitFrom sp [] r := by
  cases cur with
  | nil => exact absurd rfl hc
  | cons d cur =>
    cases t with
    | nil => exact absurd rfl hn
    | cons c t =>
      rw [List.cons_append, splitFrom, if_pos (ht c (by simp))]
      · rw [split_skip fun c hc => ht c (by simp [hc])]
      · simp

theorem split_cut {sp : Char → Bool} {s : Str} {ws : List Str} (h : Cut sp s ws) : splitFrom sp [] s = ws := by
  induction h with
  | @blank w hw => have := split_skip hw []; rw [List.append_nil] at this; rw [this]; rfl
  | last hw hs hs' ht => rw [List.append_assoc, split_skip hw, split_word hs hs', split_end hs ht]
  | more hw hs hs' hn ht _ _ ih =>
    rw [List.append_assoc, List.append_assoc, split_skip hw, split_word hs hs', split_gap hs hn ht, ih]

theorem cut_total (sp : Char → Bool) (s : Str) : ∃ ws, Cut sp s ws := by
  generalize hn : s.length = n
  induction n using Nat.strongRecOn generalizing s with
  | _ n ih =>
    have e1 : s = s.takeWhile sp ++ s.dropWhile sp := (List.takeWhile_append_dropWhile).symm
    have w1 : ∀ c ∈ s.takeWhile sp, sp c = true := fun c hc => takeWhile_imp hc
    by_cases hd : s.dropWhile sp = []
    · refine ⟨[], .blank ?_⟩
      rw [hd, List.append_nil] at e1
      rw [e1]
      exact fun c hc => takeWhile_imp (by rwa [← e1] at hc)
    · let u := s.dropWhile sp
      have hu : u ≠ [] := hd
      have e2 : u = u.takeWhile (fun c => !sp c) ++ u.dropWhile (fun c => !sp c) := (List.takeWhile_append_dropWhile).symm
      have w2 : ∀ c ∈ u.takeWhile (fun c => !sp c), sp c = false := fun c hc => by simpa using takeWhile_imp hc
      have n2 : u.takeWhile (fun c => !sp c) ≠ [] := by
        have hh := List.head_dropWhile_not sp hd
        cases hu' : u with
        | nil => exact absurd hu' hu
        | cons c cs =>
          have : sp c = false := by
            have hh2 : (s.dropWhile sp).head hd = c := by
              have : s.dropWhile sp = c :: cs := hu'
              simp [this]
            rw [hh2] at hh
            exact hh
          simp [this]
      let v := u.dropWhile (fun c => !sp c)
      have e3 : v = v.takeWhile sp ++ v.dropWhile sp := (List.takeWhile_append_dropWhile).symm
      have w3 : ∀ c ∈ v.takeWhile sp, sp c = true := fun c hc => takeWhile_imp hc
      have hlen : (v.dropWhile sp).length < n := by
        have h1 : s.length = (s.takeWhile sp).length + u.length := by
          rw [← List.length_append]; exact congrArg List.length e1
        have h2 : u.length = (u.takeWhile fun c => !sp c).length + v.length := by
          rw [← List.length_append]; exact congrArg List.length e2
        have h3 : v.length = (v.takeWhile sp).length + (v.dropWhile sp).length := by
          rw [← List.length_append]; exact congrArg List.length e3
        have := List.length_pos_iff.mpr n2
        omega
      obtain ⟨ws, hws⟩ := ih _ hlen (v.dropWhile sp) rfl
      have es : s = s.takeWhile sp ++ u.takeWhile (fun c => !sp c) ++ v.takeWhile sp ++ v.dropWhile sp := by
        rw [List.append_assoc, List.append_assoc, ← e3]
        have : u.takeWhile (fun c => !sp c) ++ v = u := e2.symm
        rw [this]; exact e1
      by_cases hw : ws = []
      · subst hw
        have hb : ∀ c ∈ v.dropWhile sp, sp c = true := by
          generalize v.dropWhile sp = z at hws
          cases hws with
          | blank h => exact h
        have hv : v.dropWhile sp = [] := by
          cases hv' : v.dropWhile sp with
          | nil => rfl
          | cons c cs =>
            have hh := List.head_dropWhile_not sp (l := v) (by rw [hv']; simp)
            have : (v.dropWhile sp).head (by rw [hv']; simp) = c := by simp [hv']
            rw [this, hb c (by rw [hv']; simp)] at hh
            cases hh
        refine ⟨[u.takeWhile fun c => !sp c], ?_⟩
        have hc := Cut.last (sp := sp) w1 n2 w2 w3
        rw [hv, List.append_nil] at es
        rw [es]
        exact hc
      · refine ⟨(u.takeWhile fun c => !sp c) :: ws, ?_⟩
        have n3 : v.takeWhile sp ≠ [] := by
          intro h0
          rw [h0, List.nil_append] at e3
          have hvn : v ≠ [] := by
            rintro hv0
            rw [hv0] at hws
            have := split_cut hws
            simp [splitFrom] at this
            exact hw this
          cases hv' : v with
          | nil => exact hvn hv'
          | cons c cs =>
            have h1 : sp c = false := by
              cases hsp : sp c with
              | false => rfl
              | true => rw [hv'] at h0; simp [hsp] at h0
            have hne : u.dropWhile (fun c => !sp c) ≠ [] := by show v ≠ []; exact hvn
            have hh := List.head_dropWhile_not (fun c => !sp c) hne
            have : (u.dropWhile (fun c => !sp c)).head hne = c := by
              have : u.dropWhile (fun c => !sp c) = c :: cs := hv'
              simp [this]
            rw [this, h1] at hh
            simp at hh
        have hc := Cut.more (sp := sp) w1 n2 w2 n3 w3 hws hw
        rw [es]
        exact hc

/-- The words of a line are what white space leaves, in order: exactly one way to cut it. -/
theorem C70_words (line : Str) (ws : List Str) : words line = ws ↔ Cut isPySpace line ws := by
  constructor
  · rintro rfl
    obtain ⟨ws, h⟩ := cut_total isPySpace line
    rw [words, split_cut h]
    exact h
  · exact split_cut

/-! ### Tokens depend on the words only -/

/-- Nothing, or something that begins with white space. -/
def Gap (z : Str) : Prop := ∀ c, z.head? = some c → isWhite c = true

theorem white_not {c : Char} (h : isWhite c = true) : isWord c = false ∧ c ≠ ':' ∧ c ≠ 'x' ∧ c ≠ 'X' := by
  have hd : isWord c = false := by
    cases hw : isWord c with
    | false => rfl
    | true =>
      exfalso
      have ha := word_ascii hw
      revert h hw
      refine char_cases (P := fun c => isWhite c = true → isWord c = true → False) (by decide) c ha
  refine ⟨hd, ?_, ?_, ?_⟩ <;> (rintro rfl; revert h; decide)

theorem takeWhile_gap {f : Char → Bool} (hf : ∀ c, f c = true → isWord c = true) {s z : Str} (hz : Gap z) :
    (s ++ z).takeWhile f = s.takeWhile f := by
  induction s with
  | nil =>
    cases z with
    | nil => rfl
    | cons c z =>
      have := (white_not (hz c rfl)).1
      have : f c = false := by
        cases hc : f c with
        | false => rfl
        | true => rw [hf c hc] at this; cases this
      simp [this]
  | cons c s ih =>
    simp only [List.cons_append, List.takeWhile_cons]
    split
    · rw [ih]
    · rfl

theorem startsWith_gap {x : Char} (hx : x = 'x' ∨ x = 'X') {s z : Str} (hs : s ≠ []) (hz : Gap z) :
    startsWith ['0', x] (s ++ z) = startsWith ['0', x] s := by
  match s with
  | [] => exact absurd rfl hs
  | [c] =>
    cases z with
    | nil => rfl
    | cons d z =>
      have := white_not (hz d rfl)
      have hd : d ≠ x := by
        rcases hx with rfl | rfl
        · exact this.2.2.1
        · exact this.2.2.2
      simp [startsWith, List.isPrefixOf, hd.symm]
  | c :: d :: s => simp [startsWith, List.isPrefixOf]

theorem lexHead_gap {s z : Str} (hs : s ≠ []) (hq : s.head? ≠ some '"') (hz : Gap z) : lexHead (s ++ z) = lexHead s := by
  match s with
  | [] => exact absurd rfl hs
  | c :: cs =>
    have hq' : c ≠ '"' := by simpa using hq
    simp only [List.cons_append, lexHead]
    split
    · rfl
    · split
      · have : (cs ++ z).head? = some ':' ↔ cs.head? = some ':' := by
          cases cs with
          | nil =>
            simp
            intro h
            exact (white_not (hz _ h)).2.1 rfl
          | cons d cs => simp
        simp only [this]
      · split
        · rw [← List.cons_append, takeWhile_gap (fun c h => h) hz]
        · split
          · rw [← List.cons_append]
            simp only [lexNumber]
            rw [startsWith_gap (.inl rfl) (by simp) hz, startsWith_gap (.inr rfl) (by simp) hz]
            have h2 : ((c :: cs ++ z).drop 2).takeWhile isHex = ((c :: cs).drop 2).takeWhile isHex ∨
                (startsWith ['0', 'x'] (c :: cs) = false ∧ startsWith ['0', 'X'] (c :: cs) = false) := by
              cases cs with
              | nil => right; simp [startsWith, List.isPrefixOf]
              | cons d cs => left; simpa using takeWhile_gap (fun c h => hex_word h) (s := cs) hz
            rw [takeWhile_gap (f := isDigit) (fun c h => digit_word h) hz]
            rcases h2 with h2 | ⟨h2, h3⟩
            · rw [h2]
            · rw [h2, h3]; rfl
          · rfl

theorem lexHead_le {s : Str} {t : Token} {k : Nat} (hq : s.head? ≠ some '"') (h : lexHead s = .ok (t, k)) : k ≤ s.length := by
  match s with
  | [] => simp [lexHead] at h; omega
  | c :: cs =>
    have hq' : c ≠ '"' := by simpa using hq
    simp only [lexHead] at h
    split at h
    · simp at h; simp; omega
    · split at h
      · split at h
        · rename_i hh
          cases cs with
          | nil => simp at hh
          | cons d cs => simp at h; simp; omega
        · cases h
      · split at h
        · simp only [Res.ok.injEq, Prod.mk.injEq] at h
          rw [← h.2]; exact length_takeWhile_le _ _
        · split at h
          · simp only [lexNumber] at h
            split at h
            · rename_i hx
              rw [Res.bind_eq_ok] at h
              obtain ⟨n, _, h⟩ := h
              simp only [Res.ok.injEq, Prod.mk.injEq] at h
              have hl := length_takeWhile_le isHex ((c :: cs).drop 2)
              rw [List.length_drop] at hl
              have : 2 ≤ (c :: cs).length := by
                cases cs with
                | nil => simp [startsWith, List.isPrefixOf] at hx
                | cons d cs => simp
              omega
            · rw [Res.bind_eq_ok] at h
              obtain ⟨n, _, h⟩ := h
              simp only [Res.ok.injEq, Prod.mk.injEq] at h
              rw [← h.2]; exact length_takeWhile_le _ _
          · cases h

/-- The words of a text, for the tokenizer. -/
abbrev wordsR (s : Str) : List Str := splitFrom isWhite [] s

/-- A text with a first word. -/
theorem wordsR_head {r s : Str} {ws : List Str} (h : wordsR r = s :: ws) :
    ∃ w z, r = w ++ (s ++ z) ∧ (∀ c ∈ w, isWhite c = true) ∧ s ≠ [] ∧ (∀ c ∈ s, isWhite c = false) ∧ Gap z ∧ wordsR z = ws := by
  obtain ⟨ws', hc⟩ := cut_total isWhite r
  have he := split_cut hc
  rw [wordsR, he] at h
  subst h
  cases hc with
  | @last w _ t hw hs hs' ht =>
    refine ⟨w, t, by simp, hw, hs, hs', ?_, ?_⟩
    · intro c hc
      exact ht c (List.mem_of_mem_head? hc)
    · have := split_skip ht []
      rw [List.append_nil] at this
      rw [wordsR, this]; rfl
  | @more w _ t r _ hw hs hs' hn ht hr hne =>
    refine ⟨w, t ++ r, by simp, hw, hs, hs', ?_, ?_⟩
    · intro c hc
      cases t with
      | nil => exact absurd rfl hn
      | cons d t => simp at hc; rw [← hc]; exact ht d (by simp)
    · rw [wordsR, split_skip ht]; exact split_cut hr

theorem wordsR_nil {r : Str} (h : wordsR r = []) : ∀ c ∈ r, isWhite c = true := by
  obtain ⟨ws', hc⟩ := cut_total isWhite r
  have he := split_cut hc
  rw [wordsR, he] at h
  subst h
  cases hc with
  | blank h => exact h

theorem wordsR_append {s z : Str} (hs : s ≠ []) (hs' : ∀ c ∈ s, isWhite c = false) (hz : Gap z) :
    wordsR (s ++ z) = s :: wordsR z := by
  rw [wordsR, split_word hs hs']
  cases z with
  | nil => rw [split_end hs (by intro c hc; cases hc)]; rfl
  | cons c z =>
    have hc := hz c rfl
    have := split_gap (sp := isWhite) hs (t := [c]) (by simp) (by intro d hd; simp at hd; rw [hd]; exact hc) z
    rw [List.singleton_append] at this
    rw [this]
    have h2 := split_skip (sp := isWhite) (w := [c]) (by intro d hd; simp at hd; rw [hd]; exact hc) z
    rw [List.singleton_append] at h2
    rw [wordsR, h2]

theorem white_drop {w r : Str} (hw : ∀ c ∈ w, isWhite c = true) (hr : ∀ c, r.head? = some c → isWhite c = false) :
    (w ++ r).takeWhile isWhite = w := by
  rw [List.takeWhile_append_of_pos hw]
  cases r with
  | nil => simp
  | cons c r => simp [hr c rfl]

theorem lexOne_words {w s z : Str} (hw : ∀ c ∈ w, isWhite c = true) (hs : s ≠ []) (hs' : ∀ c ∈ s, isWhite c = false)
    (hq : s.head? ≠ some '"') (hz : Gap z) :
    lexOne (w ++ (s ++ z)) = (lexHead s).bind fun x => .ok (x.1, w.length + x.2) := by
  have hd : (w ++ (s ++ z)).takeWhile isWhite = w := white_drop hw (by
    intro c hc
    cases s with
    | nil => exact absurd rfl hs
    | cons d s => simp at hc; rw [← hc]; exact hs' d (by simp))
  rw [lexOne, hd, List.drop_left, lexHead_gap hs hq hz]

theorem lexOne_blank {r : Str} (h : ∀ c ∈ r, isWhite c = true) : lexOne r = .ok (.eof, r.length) := by
  have : r.takeWhile isWhite = r := by
    have := white_drop (w := r) (r := []) h (by intro c hc; cases hc)
    rwa [List.append_nil] at this
  rw [lexOne, this, List.drop_length]
  simp [lexHead]

/-- Two texts with the same words and no string literal have the same tokens. -/
theorem lexes_words {r : Str} {ts : List Token} (h : Lexes r ts) : ∀ {r' : Str}, wordsR r = wordsR r' →
    (∀ s ∈ wordsR r, '"' ∉ s) → Lexes r' ts := by
  induction h with
  | @eof r k h =>
    intro r' hw hq
    cases hws : wordsR r with
    | nil =>
      rw [hws] at hw
      exact .eof (lexOne_blank (wordsR_nil hw.symm))
    | cons s ws =>
      exfalso
      obtain ⟨w, z, rfl, hww, hs, hs', hz, _⟩ := wordsR_head hws
      have hq' : s.head? ≠ some '"' := by
        intro hh
        exact hq s (by rw [hws]; simp) (List.mem_of_mem_head? hh)
      rw [lexOne_words hww hs hs' hq' hz, Res.bind_eq_ok] at h
      obtain ⟨x, h1, h2⟩ := h
      obtain ⟨t, n⟩ := x
      simp only [Res.ok.injEq, Prod.mk.injEq] at h2
      rw [h2.1] at h1
      exact hs (lexHead_nil h1)
  | @token r t k ts h ht hl ih =>
    intro r' hw hq
    cases hws : wordsR r with
    | nil =>
      rw [lexOne_blank (wordsR_nil hws)] at h
      simp only [Res.ok.injEq, Prod.mk.injEq] at h
      exact absurd h.1.symm ht
    | cons s ws =>
      rw [hws] at hw
      have hqs : '"' ∉ s := hq s (by rw [hws]; simp)
      obtain ⟨w, z, rfl, hww, hs, hs', hz, hwz⟩ := wordsR_head hws
      obtain ⟨w', z', rfl, hww', _, _, hz', hwz'⟩ := wordsR_head hw.symm
      have hq' : s.head? ≠ some '"' := by
        intro hh
        exact hqs (List.mem_of_mem_head? hh)
      rw [lexOne_words hww hs hs' hq' hz, Res.bind_eq_ok] at h
      obtain ⟨⟨t', n⟩, h1, h2⟩ := h
      simp only [Res.ok.injEq, Prod.mk.injEq] at h2
      obtain ⟨rfl, rfl⟩ := h2
      have hle := lexHead_le hq' h1
      have ho : lexOne (w' ++ (s ++ z')) = .ok (t', w'.length + n) := by
        rw [lexOne_words hww' hs hs' hq' hz', h1]; rfl
      refine .token ho ht ?_
      have d1 : ∀ {w z : Str}, (w ++ (s ++ z)).drop (w.length + n) = s.drop n ++ z := by
        intro w z
        rw [← List.drop_drop, List.drop_left, List.drop_append_of_le_length hle]
      rw [d1] at ih ⊢
      have hw2 : ∀ {z : Str}, Gap z → wordsR (s.drop n ++ z) = (if s.drop n = [] then [] else [s.drop n]) ++ wordsR z := by
        intro z hz
        split
        · rename_i he; rw [he]; rfl
        · rename_i he
          rw [wordsR_append he (fun c hc => hs' c (List.mem_of_mem_drop hc)) hz]; rfl
      refine ih ?_ ?_
      · rw [hw2 hz, hw2 hz', hwz, hwz']
      · rw [hw2 hz, hwz]
        intro s' hm
        rcases List.mem_append.mp hm with hm | hm
        · split at hm
          · cases hm
          · simp at hm; rw [hm]; intro hc; exact hqs (List.mem_of_mem_drop hc)
        · exact hq s' (by rw [hws]; simp [hm])

/-! ### C70 -/

theorem split_congr {sp sp' : Char → Bool} {s : Str} (h : ∀ c ∈ s, sp c = sp' c) : ∀ cur, splitFrom sp cur s = splitFrom sp' cur s := by
  induction s with
  | nil => intro cur; cases cur <;> rfl
  | cons c s ih =>
    intro cur
    have hs := ih fun d hd => h d (by simp [hd])
    cases cur with
    | nil => rw [splitFrom, splitFrom, h c (by simp), hs, hs]
    | cons d cur => rw [splitFrom, splitFrom, h c (by simp), hs, hs] <;> simp

theorem joinWith_cons (s : Str) (ws : List Str) (hw : ws ≠ []) : joinWith (chars! " ") (s :: ws) = s ++ [' '] ++ joinWith (chars! " ") ws := by
  cases ws with
  | nil => exact absurd rfl hw
  | cons t ws => rfl

theorem wordsR_join (ws : List Str) (h : ∀ s ∈ ws, s ≠ [] ∧ ∀ c ∈ s, isWhite c = false) : wordsR (joinWith (chars! " ") ws) = ws := by
  induction ws with
  | nil => rfl
  | cons s ws ih =>
    obtain ⟨h1, h2⟩ := h s (by simp)
    by_cases hw : ws = []
    · subst hw
      have := wordsR_append (z := []) h1 h2 (by intro c hc; cases hc)
      rw [List.append_nil] at this
      exact this
    · rw [joinWith_cons s ws hw, List.append_assoc, wordsR_append h1 h2 (by intro c hc; simp at hc; rw [← hc]; decide)]
      have h3 := split_skip (sp := isWhite) (w := [' ']) (by intro d hd; simp at hd; rw [hd]; decide) (joinWith (chars! " ") ws)
      rw [wordsR, h3, ← wordsR, ih fun s hs => h s (by simp [hs])]

theorem cut_words {sp : Char → Bool} {s : Str} {ws : List Str} (h : Cut sp s ws) :
    ∀ w ∈ ws, w ≠ [] ∧ (∀ c ∈ w, sp c = false) ∧ ∀ c ∈ w, c ∈ s := by
  induction h with
  | blank _ => intro w hw; cases hw
  | last hw hs hs' ht =>
    intro x hx
    simp at hx
    rw [hx]
    exact ⟨hs, hs', fun c hc => by simp [hc]⟩
  | more hw hs hs' hn ht _ _ ih =>
    intro x hx
    rcases List.mem_cons.mp hx with rfl | hx
    · exact ⟨hs, hs', fun c hc => by simp [hc]⟩
    · obtain ⟨a, b, c⟩ := ih x hx
      exact ⟨a, b, fun d hd => by simp [c d hd]⟩

/-- The text of a command, without string literals, is a text the tokenizer takes for what it is. -/
theorem parse_same {s s' : Str} (hs : Safe s) (hs' : Safe s') (hw : wordsR s = wordsR s') (hq : ∀ w ∈ wordsR s, '"' ∉ w) :
    parseExpression s = parseExpression s' := by
  have key : ∀ {a b : Str}, Safe a → Safe b → wordsR a = wordsR b → (∀ w ∈ wordsR a, '"' ∉ w) → ∀ ts, tokenize a = .ok ts → tokenize b = .ok ts := by
    intro a b ha hb hab hq ts h
    exact (tokenize_iff hb ts).mpr (lexes_words ((tokenize_iff ha ts).mp h) hab hq)
  have h1 := key hs hs' hw hq
  have h2 := key hs' hs hw.symm (by rw [← hw]; exact hq)
  have : tokenize s = tokenize s' := by
    cases h : tokenize s with
    | ok ts => exact (h1 ts h).symm
    | panic => have := tokenize_noPanic hs; rw [h] at this; exact this.elim
    | err =>
      cases h' : tokenize s' with
      | ok ts => rw [h2 ts h'] at h; cases h
      | panic => have := tokenize_noPanic hs'; rw [h'] at this; exact this.elim
      | err => rfl
  rw [parseExpression, parseExpression, this]

/-- Whatever white space the user puts into an expression without string literals, the server parses the expression as
typed, although the line was split into words and put together again on the way. -/
theorem C70_expression_partial (t : Str) (ha : ∀ c ∈ t, Ascii c) (hq : '"' ∉ t) (hsep : ∀ c ∈ t, ¬ (0x1c ≤ c.toNat ∧ c.toNat ≤ 0x1f)) :
    parseExpression (joinWith (chars! " ") (words t)) = parseExpression t := by
  have hsame : words t = wordsR t := by
    refine split_congr (fun c hc => ?_) []
    have := hsep c hc
    simp only [isPySpace, Bool.or_eq_left_iff_imp, Bool.and_eq_true, decide_eq_true_eq]
    intro h; exact absurd h this
  have hcut := (C70_words t _).mp rfl
  have hws := cut_words hcut
  have hw' : ∀ s ∈ words t, s ≠ [] ∧ ∀ c ∈ s, isWhite c = false := by
    intro s hs
    refine ⟨(hws s hs).1, fun c hc => ?_⟩
    have := (hws s hs).2.1 c hc
    simp only [isPySpace, Bool.or_eq_false_iff] at this
    exact this.1
  have hj := wordsR_join (words t) hw'
  have hmem : ∀ (ws : List Str), (∀ s ∈ ws, ∀ c ∈ s, Ascii c) → ∀ c ∈ joinWith (chars! " ") ws, Ascii c := by
    intro ws
    induction ws with
    | nil => intro _ c hc; cases hc
    | cons s ws ih =>
      intro h c hc
      by_cases hw : ws = []
      · subst hw; exact h s (by simp) c hc
      · rw [joinWith_cons s ws hw] at hc
        simp only [List.mem_append, List.mem_singleton] at hc
        rcases hc with (hc | rfl) | hc
        · exact h s (by simp) c hc
        · decide
        · exact ih (fun s hs => h s (by simp [hs])) c hc
  refine parse_same (.inl (hmem _ fun s hs c hc => ha c ((hws s hs).2.2 c hc))) (.inl ha) (by rw [hj, hsame]) ?_
  rw [hj]
  intro w hw hc
  exact hq ((hws w hw).2.2 _ hc)

/-- What is missing in `C70_expression_partial`: white space inside a string literal is not kept. Typing `m["a  b"]`
looks up `"a b"`. -/
theorem C70_string_fails : ∃ t e e', parseExpression t = .ok e ∧ parseExpression (joinWith (chars! " ") (words t)) = .ok e' ∧
    e = .index (.var (chars! "m")) (.str (chars! "a  b")) ∧ e' = .index (.var (chars! "m")) (.str (chars! "a b")) :=
  ⟨chars! "m[\"a  b\"]", _, _, by rfl, by rfl, rfl, rfl⟩

/-- Texts in which white space is single blanks between words arrive unchanged, string literals included. -/
theorem C70_plain (ws : List Str) (h : ∀ s ∈ ws, s ≠ [] ∧ ∀ c ∈ s, isPySpace c = false) :
    joinWith (chars! " ") (words (joinWith (chars! " ") ws)) = joinWith (chars! " ") ws := by
  have hc : ∀ ws : List Str, (∀ s ∈ ws, s ≠ [] ∧ ∀ c ∈ s, isPySpace c = false) → Cut isPySpace (joinWith (chars! " ") ws) ws := by
    intro ws
    induction ws with
    | nil => intro _; exact .blank (by intro c hc; cases hc)
    | cons s ws ih =>
      intro h
      obtain ⟨h1, h2⟩ := h s (by simp)
      by_cases hw : ws = []
      · subst hw
        have := Cut.last (sp := isPySpace) (w := []) (t := []) (by intro c hc; cases hc) h1 h2 (by intro c hc; cases hc)
        exact (by simpa using this : Cut isPySpace s [s])
      · rw [joinWith_cons s ws hw]
        have := Cut.more (sp := isPySpace) (w := []) (t := [' ']) (by intro c hc; cases hc) h1 h2 (by simp)
          (by intro c hc; simp at hc; rw [hc]; decide) (ih fun s hs => h s (by simp [hs])) hw
        simpa using this
  rw [(C70_words _ ws).mpr (hc ws h)]

/-- The short forms, and nothing else, are expanded: what is sent is the command the user named. -/
theorem C70_short (conn : Option Conn) (n : Nat) (w : World) (line sub : Str) (args : List Str) (hl : words line = sub :: args)
    {c : Conn} {cmd : Str} {as : List Str} (h : (rudyCommand conn n w line).1 = .send c cmd as) :
    as = args ∧ ((sub, cmd) ∈ [(chars! "e", chars! "eval"), (chars! "f", chars! "functions"), (chars! "m", chars! "methods"),
        (chars! "p", chars! "print")] ∨ (cmd = sub ∧ sub ∉ [chars! "e", chars! "f", chars! "m", chars! "p", chars! "s"])) ∧
      cmd ≠ chars! "status" := by
  unfold rudyCommand at h
  rw [hl] at h
  simp only at h
  split at h
  · cases h
  · rename_i hst
    split at h
    · cases h
    · simp only [Action.send.injEq] at h
      obtain ⟨-, rfl, rfl⟩ := h
      refine ⟨rfl, ?_, hst⟩
      unfold expand at hst ⊢
      by_cases h1 : sub = chars! "e"
      · left; simp [h1]
      by_cases h2 : sub = chars! "f"
      · left; simp [h2]
      by_cases h3 : sub = chars! "m"
      · left; simp [h3]
      by_cases h4 : sub = chars! "p"
      · left; simp [h4]
      by_cases h5 : sub = chars! "s"
      · simp [h5] at hst
      · right
        simp [h1, h2, h3, h4, h5]

/-- Nothing but an empty line shows the help text, and nothing is sent for it. -/
theorem C70_usage (conn : Option Conn) (n : Nat) (w : World) (line : Str) :
    (rudyCommand conn n w line).1 = .usage ↔ ∀ c ∈ line, isPySpace c = true := by
  have hw := C70_words line []
  constructor
  · intro h
    have : words line = [] := by
      cases hl : words line with
      | nil => rfl
      | cons sub args =>
        rw [rudyCommand, hl] at h
        simp only at h
        split at h
        · cases h
        · split at h <;> cases h
    cases hw.mp this with
    | blank h => exact h
  · intro h
    have := hw.mpr (.blank h)
    rw [rudyCommand, this]

example : (rudyCommand (some ⟨chars! "/bin/a", 0⟩) 1 ⟨some (chars! "/bin/a"), true, true, true, true⟩ (chars! "  p   a . b[ 0 ]  ")).1 =
    .send ⟨chars! "/bin/a", 0⟩ (chars! "print") [chars! "a", chars! ".", chars! "b[", chars! "0", chars! "]"] ∧
    parseExpression (joinWith (chars! " ") (words (chars! "   a . b[ 0 ]  "))) = parseExpression (chars! "a.b[0]") := by
  refine ⟨rfl, ?_⟩
  rfl

/-! ### C69 -/

/-- The executable whose session a command goes to. -/
def Action.binary : Action → Option Str
  | .send c _ _ => some c.path
  | _ => none

theorem getConnection_some {c : Conn} {n : Nat} {w : World} (hw : w.binary ≠ none) : getConnection (some c) n w = (some c, some c) := by
  unfold getConnection
  cases h : w.binary with
  | none => exact absurd h hw
  | some p => rfl

theorem getConnection_keep {c : Conn} {n : Nat} {w : World} : (getConnection (some c) n w).2 = some c := by
  unfold getConnection
  cases w.binary <;> rfl

theorem rudyCommand_keep {c : Conn} {n : Nat} {w : World} {line : Str} : (rudyCommand (some c) n w line).2 = some c := by
  unfold rudyCommand
  split
  · rfl
  · split
    · rfl
    · have := getConnection_keep (c := c) (n := n) (w := w)
      split <;> (rename_i h; rw [h] at this; exact this)

theorem rudyCommand_path {conn : Option Conn} {n : Nat} {w : World} {line : Str} {p : Str} (hb : w.binary = some p)
    (hp : ∀ c, conn = some c → c.path = p) :
    (∀ b, (rudyCommand conn n w line).1.binary = some b → b = p) ∧ ∀ c, (rudyCommand conn n w line).2 = some c → c.path = p := by
  have hg : (∀ c, (getConnection conn n w).1 = some c → c.path = p) ∧ ∀ c, (getConnection conn n w).2 = some c → c.path = p := by
    unfold getConnection
    rw [hb]
    cases conn with
    | some c => simp only [Option.some.injEq, forall_eq']; exact ⟨hp c rfl, hp c rfl⟩
    | none =>
      simp only
      split
      · simp
      · split <;> simp
  unfold rudyCommand
  split
  · exact ⟨fun b h => by simp [Action.binary] at h, hp⟩
  · split
    · exact ⟨fun b h => by simp [Action.binary] at h, hp⟩
    · split
      · rename_i h; rw [h] at hg; exact ⟨fun b h => by simp [Action.binary] at h, hg.2⟩
      · rename_i h; rw [h] at hg
        refine ⟨fun b hb => ?_, hg.2⟩
        simp [Action.binary] at hb
        rw [← hb]; exact hg.1 _ rfl

/-- As long as the selected target keeps its executable, every command that is sent goes to a session for that executable. -/
theorem C69_same_binary_partial (p : Str) (n : Nat) (hist : List (World × Str)) (h : ∀ x ∈ hist, x.1.binary = some p) :
    ∀ a ∈ commands none n hist, ∀ b, a.binary = some b → b = p := by
  have key : ∀ (hist : List (World × Str)) (n : Nat) (conn : Option Conn), (∀ c, conn = some c → c.path = p) →
      (∀ x ∈ hist, x.1.binary = some p) → ∀ a ∈ commands conn n hist, ∀ b, a.binary = some b → b = p := by
    intro hist
    induction hist with
    | nil => intro n conn _ _ a ha; cases ha
    | cons x hist ih =>
      intro n conn hc hx a ha
      obtain ⟨w, line⟩ := x
      have hw := rudyCommand_path (n := n) (line := line) (hx (w, line) (by simp)) hc
      simp only [commands, List.mem_cons] at ha
      rcases ha with rfl | ha
      · exact hw.1
      · exact ih (n + 1) _ hw.2 (fun x hx' => hx x (by simp [hx'])) a ha
  exact key hist n none (by simp) h

/-- Once a connection exists it is used for ever: no later command ever opens another one, whatever happens to the
server. -/
theorem C69_never_reopened (c : Conn) (n : Nat) (hist : List (World × Str)) :
    ∀ a ∈ commands (some c) n hist, ∀ d cmd args, a = .send d cmd args → d = c := by
  induction hist generalizing n with
  | nil => intro a ha; cases ha
  | cons x hist ih =>
    intro a ha d cmd args he
    obtain ⟨w, line⟩ := x
    simp only [commands, List.mem_cons, rudyCommand_keep] at ha
    rcases ha with rfl | ha
    · unfold rudyCommand at he
      split at he
      · cases he
      · split at he
        · cases he
        · unfold getConnection at he
          cases hb : w.binary with
          | none => rw [hb] at he; cases he
          | some p => rw [hb] at he; cases he; rfl
    · exact ih (n + 1) a ha d cmd args he

/-- C69 fails: after the user has selected another target, commands are still answered from the debug information of the
first one. -/
theorem C69_other_target_fails (p q : Str) (hpq : p ≠ q) : ∃ hist a, a ∈ commands none 0 hist ∧ (hist.getLast?).map (·.1.binary) = some (some q) ∧
    (commands none 0 hist).getLast? = some a ∧ a.binary = some p ∧ p ≠ q :=
  ⟨[(⟨some p, true, true, true, true⟩, chars! "p x"), (⟨some q, true, true, true, true⟩, chars! "p x")],
    .send ⟨p, 0⟩ (chars! "print") [chars! "x"], by simp [commands, rudyCommand, words, splitFrom, getConnection, expand, isPySpace, isWhite],
    rfl, by simp [commands, rudyCommand, words, splitFrom, getConnection, expand, isPySpace, isWhite], rfl, hpq⟩

/-- C69 fails: a connection whose server thread is gone is never replaced, so every later command that is sent is sent to
it (and fails, C68), even when the server is running again. -/
theorem C69_dead_connection_fails (c : Conn) (n : Nat) (line : Str) (p : Str) (sub : Str) (args : List Str)
    (hl : words line = sub :: args) (hs : expand sub ≠ chars! "status") (m : Nat) :
    commands (some c) n (List.replicate m (⟨some p, true, true, true, true⟩, line)) = List.replicate m (.send c (expand sub) args) := by
  induction m generalizing n with
  | zero => rfl
  | succ m ih =>
    have : rudyCommand (some c) n ⟨some p, true, true, true, true⟩ line = (.send c (expand sub) args, some c) := by
      unfold rudyCommand
      rw [hl]
      simp only [if_neg hs]
      rfl
    rw [List.replicate_succ, List.replicate_succ, commands]
    simp only [this]
    rw [ih]

/-- With no connection yet, the first command goes to a session for the executable of the selected target if the server
runs or can be started and accepts the connection; otherwise nothing is sent and the next command tries again. -/
theorem C69_first (n : Nat) (w : World) (p : Str) (hb : w.binary = some p) (line sub : Str) (args : List Str)
    (hl : words line = sub :: args) (hs : expand sub ≠ chars! "status") :
    rudyCommand none n w line =
      if (w.running ∨ (w.autostart ∧ w.starts)) ∧ w.connects then (.send ⟨p, n⟩ (expand sub) args, some ⟨p, n⟩) else (.noConnection, none) := by
  obtain ⟨b, r, a, s, k⟩ := w
  simp only at hb
  subst hb
  unfold rudyCommand
  rw [hl]
  simp only [if_neg hs, getConnection]
  cases r <;> cases a <;> cases s <;> cases k <;> rfl

example : commands none 0 [(⟨none, true, true, true, true⟩, chars! "p x"), (⟨some (chars! "a"), false, true, true, true⟩, chars! "p x"),
      (⟨some (chars! "a"), true, true, true, true⟩, chars! "s"), (⟨some (chars! "a"), true, true, true, true⟩, chars! "f foo")] =
    [.noConnection, .send ⟨chars! "a", 1⟩ (chars! "print") [chars! "x"], .status, .send ⟨chars! "a", 1⟩ (chars! "functions") [chars! "foo"]] := rfl

end Rudy.Front
