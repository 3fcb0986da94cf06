import Verif.Model.Wire
import Verif.Proof.ExprPrint
import Verif.Proof.TypeNames
/-
Printing and parsing JSON: what is printed is read back.
-/
namespace Rudy.Wire
open Rudy Rudy.Server Rudy.Expr
open Rudy.Layout (natStr)

/-! ### Strings -/

theorem hexVal_hexDigit : ∀ n, n < 16 → hexVal (hexDigit n) = some n := by decide

theorem hexVal4_hex4 (n : Nat) (h : n < 65536) :
    hexVal4 (hexDigit (n / 4096 % 16)) (hexDigit (n / 256 % 16)) (hexDigit (n / 16 % 16)) (hexDigit (n % 16)) = some n := by
  rw [hexVal4, hexVal_hexDigit _ (by omega), hexVal_hexDigit _ (by omega), hexVal_hexDigit _ (by omega), hexVal_hexDigit _ (by omega)]
  simp only [Option.some.injEq]
  omega

theorem unescape_short {c e : Char} (h : shortEscape c = some e) : unescape e = some c ∧ e ≠ 'u' := by
  simp only [shortEscape] at h
  repeat' split at h
  all_goals first
    | (rename_i hc; subst hc; simp only [Option.some.injEq] at h; subst h; decide)
    | simp at h

theorem char_ofNat_toNat (c : Char) : Char.ofNat c.toNat = c := Char.ofNat_toNat c

/-- A style whose escapes are read back. -/
def Sound (st : Style) : Prop := ∀ c t, pString (st.escape c ++ t) = (pString t).map fun p => (c :: p.1, p.2)

theorem pString_u (n : Nat) (h : n < 65536) (t : Str) :
    pString ('\\' :: 'u' :: hex4 n ++ t) =
      match unit16 n with
      | .char ch => (pString t).map fun (s, r') => (ch :: s, r')
      | .bad => none
      | .high h =>
        match t with
        | '\\' :: 'u' :: a' :: b' :: c' :: d' :: r' =>
          match hexVal4 a' b' c' d' with
          | none => none
          | some m =>
            if 0xdc00 ≤ m ∧ m < 0xe000 then
              (pString r').map fun (s, r'') => (Char.ofNat (0x10000 + h * 0x400 + (m - 0xdc00)) :: s, r'')
            else none
        | _ => none := by
  simp only [hex4, List.cons_append, List.nil_append]
  rw [pString, hexVal4_hex4 n h]
  rfl

theorem unit16_char {n : Nat} (h : n < 0xd800 ∨ 0xe000 ≤ n) : unit16 n = .char (Char.ofNat n) := by
  rw [unit16, if_pos h]

theorem unit16_high {n : Nat} (h : 0xd800 ≤ n) (h2 : n < 0xdc00) : unit16 n = .high (n - 0xd800) := by
  rw [unit16, if_neg (by omega), if_pos h2]

theorem pString_short {c e : Char} (h : shortEscape c = some e) (t : Str) :
    pString ('\\' :: e :: t) = (pString t).map fun p => (c :: p.1, p.2) := by
  have ⟨h1, h2⟩ := unescape_short h
  rw [pString]
  · rw [h1]
  · intro a b c d r he
    exact fun _ => h2 he

theorem pString_plain {c : Char} (h : shortEscape c = none) (h2 : ¬ c.toNat < 0x20) (t : Str) :
    pString (c :: t) = (pString t).map fun p => (c :: p.1, p.2) := by
  have hq : c ≠ '"' := by rintro rfl; simp [shortEscape] at h
  have hb : c ≠ '\\' := by rintro rfl; simp [shortEscape] at h
  rw [pString]
  · rw [if_neg (by simp [h2, hb])]
  · exact fun he => hq he
  · intro a b c d r he
    exact fun _ => hb he
  · intro e r he
    exact fun _ => hb he

theorem char_range (c : Char) : c.toNat < 0xd800 ∨ (0xe000 ≤ c.toNat ∧ c.toNat < 0x110000) := by
  have := c.valid
  simp only [UInt32.isValidChar, Nat.isValidChar] at this
  rcases this with h | h
  · left; exact h
  · right; constructor
    · have : 0xdfff < c.val.toNat := h.1
      show 0xe000 ≤ c.val.toNat
      omega
    · exact h.2

theorem sound_serde : Sound serde := by
  intro c t
  show pString (serdeEscape c ++ t) = _
  unfold serdeEscape
  cases h : shortEscape c with
  | some e => exact pString_short h t
  | none =>
    simp only
    split
    · rename_i hl
      rw [pString_u _ (by omega)]
      rw [unit16_char (by omega), char_ofNat_toNat]
    · rename_i hl
      exact pString_plain h hl t

theorem pString_pair (h m : Nat) (hh : h < 0x400) (hm : m < 0x400) (t : Str) :
    pString (('\\' :: 'u' :: hex4 (0xd800 + h) ++ '\\' :: 'u' :: hex4 (0xdc00 + m)) ++ t) =
      (pString t).map fun p => (Char.ofNat (0x10000 + h * 0x400 + m) :: p.1, p.2) := by
  rw [List.append_assoc, pString_u _ (by omega), unit16_high (by omega) (by omega)]
  generalize hk : 0xdc00 + m = k
  simp only [hex4, List.cons_append, List.nil_append]
  rw [hexVal4_hex4 k (by omega)]
  have h1 : 0xd800 + h - 0xd800 = h := Nat.add_sub_cancel_left _ _
  have h2 : k - 0xdc00 = m := by rw [← hk]; exact Nat.add_sub_cancel_left _ _
  rw [h1]
  have hc : 0xdc00 ≤ k ∧ k < 0xe000 := by omega
  simp only [hc, and_self, if_true, h2]

theorem pair_value {n : Nat} (h : 0x10000 ≤ n) : 0x10000 + (n - 0x10000) / 0x400 * 0x400 + (n - 0x10000) % 0x400 = n := by omega

theorem sound_python : Sound python := by
  intro c t
  show pString (pyEscape c ++ t) = _
  unfold pyEscape
  cases h : shortEscape c with
  | some e => exact pString_short h t
  | none =>
    simp only
    split
    · exact pString_plain h (by omega) t
    · split
      · rename_i h1 h2
        rw [pString_u _ h2, unit16_char (by have := char_range c; omega), char_ofNat_toNat]
      · rename_i h1 h2
        have hr := char_range c
        have hp := pString_pair ((c.toNat - 0x10000) / 0x400) ((c.toNat - 0x10000) % 0x400) (by omega) (by omega) t
        rw [pair_value (by omega), char_ofNat_toNat] at hp
        exact hp

theorem pString_quote {st : Style} (hs : Sound st) (s t : Str) : pString (s.flatMap st.escape ++ '"' :: t) = some (s, t) := by
  induction s with
  | nil => simp [pString]
  | cons c s ih => rw [List.flatMap_cons, List.append_assoc, hs, ih]; rfl

/-! ### Numbers -/

theorem natStr_head (n : Nat) : natStr n = ['0'] ∨ (natStr n).head? ≠ some '0' := by
  unfold natStr
  induction n using Nat.strongRecOn with
  | _ n ih =>
    by_cases h : n < 10
    · rw [Nat.toDigits_of_lt_base h]
      revert h
      revert n
      intro n _ h
      have : ∀ k, k < 10 → [Nat.digitChar k] = ['0'] ∨ [Nat.digitChar k].head? ≠ some '0' := by decide
      exact this n h
    · rw [Nat.toDigits_of_base_le (by omega) (by omega)]
      right
      rcases ih (n / 10) (by omega) with h0 | h0
      · exfalso
        have hv := Nat.ofDigitChars_ten_toDigits (n := n / 10)
        rw [h0] at hv
        have : Nat.ofDigitChars 10 ['0'] 0 = 0 := by decide
        omega
      · cases hd : Nat.toDigits 10 (n / 10) with
        | nil => exact absurd hd Nat.toDigits_ne_nil
        | cons c cs => rw [hd] at h0; simpa using h0

/-- What may follow a number. -/
def NumEnd (r : Str) : Prop := ∀ c, r.head? = some c → isDigit c = false ∧ c ≠ '.' ∧ c ≠ 'e' ∧ c ≠ 'E'

theorem takeWhile_natStr (n : Nat) {r : Str} (hr : NumEnd r) :
    (natStr n ++ r).takeWhile isDigit = natStr n ∧ (natStr n ++ r).dropWhile isDigit = r := by
  have hd := natStr_digits n
  have h0 : r.takeWhile isDigit = [] ∧ r.dropWhile isDigit = r := by
    cases r with
    | nil => simp
    | cons c r => simp [(hr c rfl).1]
  constructor
  · rw [List.takeWhile_append_of_pos hd, h0.1, List.append_nil]
  · rw [List.dropWhile_append_of_pos hd, h0.2]

theorem foldl_natStr (n : Nat) : (natStr n).foldl (fun n c => n * 10 + (c.toNat - 48)) 0 = n := by
  have := TypeNames.litVal_natStr n
  exact this

theorem pNumber_natStr (n : Nat) {r : Str} (hr : NumEnd r) : pNumber (natStr n ++ r) = some (n, r) := by
  have ⟨h1, h2⟩ := takeWhile_natStr n hr
  simp only [pNumber, h1, h2]
  rw [if_neg (natStr_ne n), if_neg ?_, foldl_natStr]
  · cases hh : r.head? with
    | none => rfl
    | some c =>
      have := hr c hh
      split
      · rename_i he; simp at he; exact absurd he this.2.1
      · rename_i he; simp at he; exact absurd he this.2.2.1
      · rename_i he; simp at he; exact absurd he this.2.2.2
      · rfl
  · rintro ⟨ha, hb⟩
    rcases natStr_head n with h | h
    · exact hb h
    · exact h ha

/-! ### Values -/

/-- Characters that are not blanks. -/
def NotBlank (c : Char) : Prop := c ≠ ' ' ∧ c ≠ '\t' ∧ c ≠ '\n' ∧ c ≠ '\r'

instance (c : Char) : Decidable (NotBlank c) := by unfold NotBlank; infer_instance

theorem skipWs_cons {c : Char} {r : Str} (h : NotBlank c) : skipWs (c :: r) = c :: r := by
  obtain ⟨h1, h2, h3, h4⟩ := h
  simp [skipWs, h1, h2, h3, h4]

theorem skipWs_space (r : Str) : skipWs (' ' :: r) = skipWs r := by
  simp [skipWs]

mutual
/-- The fuel a value needs. -/
def Json.need : Json → Nat
  | .arr xs => 1 + xs.need
  | .obj fs => 1 + fs.need
  | _ => 1
/-- The fuel the elements need. -/
def Jsons.need : Jsons → Nat
  | .nil => 0
  | .cons v r => 1 + max v.need r.need
/-- The fuel the fields need. -/
def Fields.need : Fields → Nat
  | .nil => 0
  | .cons _ v r => 1 + max v.need r.need
end

/-- A style that puts separators the grammar allows. -/
structure Good (st : Style) : Prop where
  sound : Sound st
  comma : st.comma = [','] ∨ st.comma = [',', ' ']
  colon : st.colon = [':'] ∨ st.colon = [':', ' ']

theorem good_serde : Good serde := ⟨sound_serde, .inl rfl, .inl rfl⟩
theorem good_python : Good python := ⟨sound_python, .inr rfl, .inr rfl⟩

theorem skipWs_comma {st : Style} (h : Good st) (r : Str) : ∃ r', skipWs (st.comma ++ r) = ',' :: r' ∧ skipWs r' = skipWs r := by
  rcases h.comma with e | e <;> rw [e]
  · exact ⟨r, by simp [skipWs], rfl⟩
  · exact ⟨' ' :: r, by simp [skipWs], skipWs_space r⟩

theorem skipWs_colon {st : Style} (h : Good st) (r : Str) : ∃ r', skipWs (st.colon ++ r) = ':' :: r' ∧ skipWs r' = skipWs r := by
  rcases h.colon with e | e <;> rw [e]
  · exact ⟨r, by simp [skipWs], rfl⟩
  · exact ⟨' ' :: r, by simp [skipWs], skipWs_space r⟩

/-- A value begins with one of these characters. -/
theorem print_head {st : Style} (v : Json) : ∃ c r, v.print st = c :: r ∧ NotBlank c ∧ c ≠ ']' ∧ c ≠ '}' := by
  cases v with
  | null => exact ⟨_, _, rfl, by decide⟩
  | bool b => cases b <;> exact ⟨_, _, rfl, by decide⟩
  | num n =>
    simp only [Json.print]
    cases h : natStr n with
    | nil => exact absurd h (natStr_ne n)
    | cons c r =>
      refine ⟨c, r, rfl, ?_⟩
      have hd := natStr_digits n c (by rw [h]; simp)
      refine ⟨⟨?_, ?_, ?_, ?_⟩, ?_, ?_⟩ <;> (rintro rfl; revert hd; decide)
  | str s => exact ⟨_, _, rfl, by decide⟩
  | arr xs => exact ⟨_, _, by rw [Json.print], by decide⟩
  | obj fs => exact ⟨_, _, by rw [Json.print], by decide⟩

theorem pValue_skip (n : Nat) {a b : Str} (h : skipWs a = skipWs b) : pValue n a = pValue n b := by
  cases n with
  | zero => rfl
  | succ n => simp only [pValue, h]

theorem pElems_skip (n : Nat) {a b : Str} (h : skipWs a = skipWs b) : pElems n a = pElems n b := by
  cases n with
  | zero => rfl
  | succ n => simp only [pElems, pValue_skip n h]

theorem pFields_skip (n : Nat) {a b : Str} (h : skipWs a = skipWs b) : pFields n a = pFields n b := by
  cases n with
  | zero => rfl
  | succ n => simp only [pFields, h]

theorem pValue_num (n m : Nat) {r : Str} (hr : NumEnd r) : pValue (n + 1) (natStr m ++ r) = some (.num m, r) := by
  have hp := pNumber_natStr m hr
  cases h : natStr m with
  | nil => exact absurd h (natStr_ne m)
  | cons c cs =>
    have hd := natStr_digits m c (by rw [h]; simp)
    rw [h] at hp
    have nb : NotBlank c := by refine ⟨?_, ?_, ?_, ?_⟩ <;> (rintro rfl; revert hd; decide)
    have h1 : c ≠ '"' := by rintro rfl; revert hd; decide
    have h2 : c ≠ '[' := by rintro rfl; revert hd; decide
    have h3 : c ≠ '{' := by rintro rfl; revert hd; decide
    have h4 : c ≠ 't' := by rintro rfl; revert hd; decide
    have h5 : c ≠ 'f' := by rintro rfl; revert hd; decide
    have h6 : c ≠ 'n' := by rintro rfl; revert hd; decide
    rw [pValue, List.cons_append, skipWs_cons nb]
    split
    · rename_i he; cases he
    · rename_i he; simp at he; exact absurd he.1 h1
    · rename_i he; simp at he; exact absurd he.1 h2
    · rename_i he; simp at he; exact absurd he.1 h3
    · rename_i he; simp at he; exact absurd he.1 h4
    · rename_i he; simp at he; exact absurd he.1 h5
    · rename_i he; simp at he; exact absurd he.1 h6
    · rw [← List.cons_append, hp]; rfl

theorem numEnd_cons {c : Char} {r : Str} (h : isDigit c = false ∧ c ≠ '.' ∧ c ≠ 'e' ∧ c ≠ 'E') : NumEnd (c :: r) := by
  intro d hd
  simp at hd
  subst hd
  exact h

theorem numEnd_comma {st : Style} (h : Good st) (r : Str) : NumEnd (st.comma ++ r) := by
  rcases h.comma with e | e <;> rw [e] <;> exact numEnd_cons (by decide)

mutual
theorem pValue_print {st : Style} (hst : Good st) (v : Json) (n : Nat) (hn : v.need ≤ n) {r : Str} (hr : NumEnd r) :
    pValue n (v.print st ++ r) = some (v, r) := by
  cases n with
  | zero => cases v <;> simp [Json.need] at hn <;> omega
  | succ n =>
    match v with
    | .null => simp [Json.print, pValue, skipWs]
    | .bool true => simp [Json.print, pValue, skipWs]
    | .bool false => simp [Json.print, pValue, skipWs]
    | .num m => exact pValue_num n m hr
    | .str s =>
      simp only [Json.print, quote, List.cons_append, pValue]
      rw [skipWs_cons (by decide)]
      simp only [List.append_assoc, List.cons_append, List.nil_append]
      rw [pString_quote hst.sound]; rfl
    | .arr .nil => simp [Json.print, Jsons.print, pValue, skipWs]
    | .arr (.cons v xs) =>
      simp only [Json.need] at hn
      have ih := pElems_print hst v xs n (by omega) r
      rw [Json.print, pValue, List.cons_append, skipWs_cons (by decide)]
      simp only [List.append_assoc, List.cons_append, List.nil_append]
      obtain ⟨c, cs, hc, nb, nb1, nb2⟩ := print_head (st := st) v
      have hh : ∃ t, (Jsons.cons v xs).print st ++ ']' :: r = c :: t := by
        cases xs <;> (rw [Jsons.print, hc]; exact ⟨_, rfl⟩)
      obtain ⟨t, ht⟩ := hh
      rw [ht] at ih ⊢
      rw [skipWs_cons nb]
      split
      · rename_i he; simp at he; exact absurd he.1 nb1
      · rw [ih]; rfl
    | .obj .nil => simp [Json.print, Fields.print, pValue, skipWs]
    | .obj (.cons k v fs) =>
      simp only [Json.need] at hn
      have ih := pFields_print hst k v fs n (by omega) r
      rw [Json.print, pValue, List.cons_append, skipWs_cons (by decide)]
      simp only [List.append_assoc, List.cons_append, List.nil_append]
      have hh : ∃ t, (Fields.cons k v fs).print st ++ '}' :: r = '"' :: t := by
        cases fs <;> (rw [Fields.print, quote]; exact ⟨_, rfl⟩)
      obtain ⟨t, ht⟩ := hh
      rw [ht] at ih ⊢
      rw [skipWs_cons (by decide)]
      show Option.map _ (pFields n ('"' :: t)) = _
      rw [ih]; rfl
termination_by n
theorem pElems_print {st : Style} (hst : Good st) (v : Json) (xs : Jsons) (n : Nat) (hn : (Jsons.cons v xs).need ≤ n) (r : Str) :
    pElems n ((Jsons.cons v xs).print st ++ ']' :: r) = some (.cons v xs, r) := by
  simp only [Jsons.need] at hn
  cases n with
  | zero => omega
  | succ n =>
    match xs with
    | .nil =>
      have ih := pValue_print hst v n (by omega) (r := ']' :: r) (numEnd_cons (by decide))
      rw [Jsons.print, pElems, ih]
      simp only
      rw [skipWs_cons (by decide)]
      rfl
    | .cons w xs =>
      have ih := pValue_print hst v n (by omega) (r := st.comma ++ ((Jsons.cons w xs).print st ++ ']' :: r)) (numEnd_comma hst _)
      have ih2 := pElems_print hst w xs n (by omega) r
      rw [Jsons.print, pElems, List.append_assoc, List.append_assoc, ih]
      simp only
      obtain ⟨r', h1, h2⟩ := skipWs_comma hst ((Jsons.cons w xs).print st ++ ']' :: r)
      rw [h1]
      simp only
      rw [pElems_skip n h2, ih2]; rfl
termination_by n
theorem pFields_print {st : Style} (hst : Good st) (k : Str) (v : Json) (fs : Fields) (n : Nat) (hn : (Fields.cons k v fs).need ≤ n) (r : Str) :
    pFields n ((Fields.cons k v fs).print st ++ '}' :: r) = some (.cons k v fs, r) := by
  simp only [Fields.need] at hn
  cases n with
  | zero => omega
  | succ n =>
    match fs with
    | .nil =>
      have ih := pValue_print hst v n (by omega) (r := '}' :: r) (numEnd_cons (by decide))
      rw [Fields.print, pFields, quote]
      simp only [List.append_assoc, List.cons_append, List.nil_append]
      rw [skipWs_cons (by decide)]
      simp only
      rw [pString_quote hst.sound]
      simp only
      obtain ⟨r', h1, h2⟩ := skipWs_colon hst (v.print st ++ '}' :: r)
      rw [h1]
      simp only
      rw [pValue_skip n h2, ih]
      simp only
      rw [skipWs_cons (by decide)]
      rfl
    | .cons k' v' fs =>
      have ih := pValue_print hst v n (by omega) (r := st.comma ++ ((Fields.cons k' v' fs).print st ++ '}' :: r)) (numEnd_comma hst _)
      have ih2 := pFields_print hst k' v' fs n (by omega) r
      rw [Fields.print, pFields, quote]
      simp only [List.append_assoc, List.cons_append, List.nil_append]
      rw [skipWs_cons (by decide)]
      simp only
      rw [pString_quote hst.sound]
      simp only
      obtain ⟨r', h1, h2⟩ := skipWs_colon hst (v.print st ++ (st.comma ++ ((Fields.cons k' v' fs).print st ++ '}' :: r)))
      rw [h1]
      simp only
      rw [pValue_skip n h2, ih]
      simp only
      obtain ⟨r', h1, h2⟩ := skipWs_comma hst ((Fields.cons k' v' fs).print st ++ '}' :: r)
      rw [h1]
      simp only
      rw [pFields_skip n h2, ih2]; rfl
termination_by n
end

mutual
theorem need_le {st : Style} (hst : Good st) (v : Json) : v.need ≤ (v.print st).length := by
  match v with
  | .null => simp [Json.need, Json.print]
  | .bool true => simp [Json.need, Json.print]
  | .bool false => simp [Json.need, Json.print]
  | .num m =>
    have := List.length_pos_iff.mpr (natStr_ne m)
    simp only [Json.need, Json.print]; omega
  | .str s => simp [Json.need, Json.print, quote]
  | .arr xs =>
    have := needs_le hst xs
    simp only [Json.need, Json.print, List.length_cons, List.length_append, List.length_nil]; omega
  | .obj fs =>
    have := needf_le hst fs
    simp only [Json.need, Json.print, List.length_cons, List.length_append, List.length_nil]; omega
theorem needs_le {st : Style} (hst : Good st) (xs : Jsons) : xs.need ≤ (xs.print st).length + 1 := by
  match xs with
  | .nil => simp [Jsons.need]
  | .cons v .nil =>
    have := need_le hst v
    simp only [Jsons.need, Jsons.print]; omega
  | .cons v (.cons w r) =>
    have h1 := need_le hst v
    have h2 := needs_le hst (.cons w r)
    have h3 : 1 ≤ st.comma.length := by rcases hst.comma with e | e <;> simp [e]
    rw [Jsons.need, Jsons.print, List.length_append, List.length_append]; omega
theorem needf_le {st : Style} (hst : Good st) (fs : Fields) : fs.need ≤ (fs.print st).length + 1 := by
  match fs with
  | .nil => simp [Fields.need]
  | .cons k v .nil =>
    have := need_le hst v
    simp only [Fields.need, Fields.print, List.length_append]; omega
  | .cons k v (.cons k' v' r) =>
    have h1 := need_le hst v
    have h2 := needf_le hst (.cons k' v' r)
    have h3 : 1 ≤ st.comma.length := by rcases hst.comma with e | e <;> simp [e]
    rw [Fields.need, Fields.print]; simp only [List.length_append]; omega
end

theorem parse_print {st : Style} (hst : Good st) (v : Json) : parse (v.print st) = some v := by
  have h := pValue_print hst v ((v.print st).length + 1) (by have := need_le hst v; omega) (r := []) (by intro c hc; cases hc)
  rw [List.append_nil] at h
  simp only [parse, h]
  rfl

/-! ### Lines -/

/-- The text holds no end of line. -/
def OneLine (s : Str) : Prop := ∀ c ∈ s, 0x20 ≤ c.toNat

theorem oneLine_append {a b : Str} (ha : OneLine a) (hb : OneLine b) : OneLine (a ++ b) := by
  intro c hc
  rcases List.mem_append.mp hc with h | h
  · exact ha c h
  · exact hb c h

theorem oneLine_cons {c : Char} {b : Str} (ha : 0x20 ≤ c.toNat) (hb : OneLine b) : OneLine (c :: b) := by
  intro d hd
  rcases List.mem_cons.mp hd with h | h
  · rw [h]; exact ha
  · exact hb d h

theorem oneLine_nil : OneLine [] := fun _ h => by cases h

theorem hexDigit_ge : ∀ n, n < 16 → 0x20 ≤ (hexDigit n).toNat := by decide

theorem oneLine_hex4 (n : Nat) : OneLine (hex4 n) := by
  unfold hex4
  refine oneLine_cons (hexDigit_ge _ (by omega)) (oneLine_cons (hexDigit_ge _ (by omega)) (oneLine_cons (hexDigit_ge _ (by omega))
    (oneLine_cons (hexDigit_ge _ (by omega)) oneLine_nil)))

theorem short_ge {c e : Char} (h : shortEscape c = some e) : 0x20 ≤ e.toNat := by
  simp only [shortEscape] at h
  repeat' split at h
  all_goals first
    | (simp only [Option.some.injEq] at h; subst h; decide)
    | simp at h

/-- A style that writes on one line. -/
structure Flat (st : Style) : Prop where
  escape : ∀ c, OneLine (st.escape c)
  comma : OneLine st.comma
  colon : OneLine st.colon

theorem flat_serde : Flat serde := by
  refine ⟨?_, by intro c hc; simp [serde] at hc; subst hc; decide, by intro c hc; simp [serde] at hc; subst hc; decide⟩
  intro c
  show OneLine (serdeEscape c)
  unfold serdeEscape
  cases h : shortEscape c with
  | some e => exact oneLine_cons (by decide) (oneLine_cons (short_ge h) oneLine_nil)
  | none =>
    simp only
    split
    · exact oneLine_cons (by decide) (oneLine_cons (by decide) (oneLine_hex4 _))
    · exact oneLine_cons (by omega) oneLine_nil

theorem flat_python : Flat python := by
  refine ⟨?_, by intro c hc; simp [python] at hc; rcases hc with rfl | rfl <;> decide,
    by intro c hc; simp [python] at hc; rcases hc with rfl | rfl <;> decide⟩
  intro c
  show OneLine (pyEscape c)
  unfold pyEscape
  cases h : shortEscape c with
  | some e => exact oneLine_cons (by decide) (oneLine_cons (short_ge h) oneLine_nil)
  | none =>
    simp only
    split
    · exact oneLine_cons (by omega) oneLine_nil
    · split
      · exact oneLine_cons (by decide) (oneLine_cons (by decide) (oneLine_hex4 _))
      · exact oneLine_append (oneLine_cons (by decide) (oneLine_cons (by decide) (oneLine_hex4 _)))
          (oneLine_cons (by decide) (oneLine_cons (by decide) (oneLine_hex4 _)))

theorem oneLine_quote {st : Style} (h : Flat st) (s : Str) : OneLine (quote st s) := by
  refine oneLine_cons (by decide) (oneLine_append ?_ (oneLine_cons (by decide) oneLine_nil))
  intro c hc
  obtain ⟨d, _, hd⟩ := List.mem_flatMap.mp hc
  exact h.escape d c hd

theorem digit_ge {c : Char} (h : isDigit c = true) : 0x20 ≤ c.toNat := by
  simp only [isDigit, Bool.and_eq_true, decide_eq_true_eq] at h
  have : '0'.toNat ≤ c.toNat := h.1
  have h0 : '0'.toNat = 48 := rfl
  omega

mutual
theorem oneLine_print {st : Style} (h : Flat st) (v : Json) : OneLine (v.print st) := by
  match v with
  | .null => rw [Json.print]; unfold OneLine; decide
  | .bool true => rw [Json.print]; unfold OneLine; decide
  | .bool false => rw [Json.print]; unfold OneLine; decide
  | .num m => rw [Json.print]; exact fun c hc => digit_ge (natStr_digits m c hc)
  | .str s => rw [Json.print]; exact oneLine_quote h s
  | .arr xs =>
    rw [Json.print]
    exact oneLine_cons (by decide) (oneLine_append (oneLine_prints h xs) (oneLine_cons (by decide) oneLine_nil))
  | .obj fs =>
    rw [Json.print]
    exact oneLine_cons (by decide) (oneLine_append (oneLine_printf h fs) (oneLine_cons (by decide) oneLine_nil))
theorem oneLine_prints {st : Style} (h : Flat st) (xs : Jsons) : OneLine (xs.print st) := by
  match xs with
  | .nil => exact oneLine_nil
  | .cons v .nil => rw [Jsons.print]; exact oneLine_print h v
  | .cons v (.cons w r) =>
    rw [Jsons.print]
    exact oneLine_append (oneLine_append (oneLine_print h v) h.comma) (oneLine_prints h (.cons w r))
theorem oneLine_printf {st : Style} (h : Flat st) (fs : Fields) : OneLine (fs.print st) := by
  match fs with
  | .nil => exact oneLine_nil
  | .cons k v .nil => rw [Fields.print]; exact oneLine_append (oneLine_append (oneLine_quote h k) h.colon) (oneLine_print h v)
  | .cons k v (.cons k' v' r) =>
    rw [Fields.print]
    exact oneLine_append (oneLine_append (oneLine_append (oneLine_append (oneLine_quote h k) h.colon) (oneLine_print h v)) h.comma)
      (oneLine_printf h (.cons k' v' r))
end

theorem lines_line {s : Str} (h : OneLine s) (acc rest : Str) : lines (s ++ '\n' :: rest) acc = (acc ++ s) :: lines rest [] := by
  induction s generalizing acc with
  | nil => simp [lines]
  | cons c s ih =>
    have hc : c ≠ '\n' := by rintro rfl; have := h '\n' (by simp); revert this; decide
    rw [List.cons_append, lines, if_neg hc, ih (fun d hd => h d (by simp [hd]))]
    simp

theorem trim_object (fs : List (Str × Json)) (st : Style) : Symbols.trim ((object fs).print st) = (object fs).print st := by
  rw [object, Json.print, Symbols.trim]
  rw [List.dropWhile_cons_of_neg (by decide)]
  simp only [List.reverse_cons, List.reverse_append, List.append_assoc]
  rw [show (([] : Str).reverse ++ (['}'] ++ (List.reverse (Fields.print st (Fields.ofList fs)) ++ ['{']))) =
    '}' :: (List.reverse (Fields.print st (Fields.ofList fs)) ++ ['{']) from rfl]
  rw [List.dropWhile_cons_of_neg (by decide)]
  simp

end Rudy.Wire
