import Verif.Proof.Wire
/-
The grammar of JSON (RFC 8259), restricted to natural numbers, as a relation between texts and values: the
specification the readers of both sides are compared with.
-/
namespace Rudy.Wire
open Rudy Rudy.Server Rudy.Expr

/-- Blanks. -/
def Blank (w : Str) : Prop := ∀ c ∈ w, c = ' ' ∨ c = '\t' ∨ c = '\n' ∨ c = '\r'

/-- The escapes of one letter. -/
def escapes : List (Char × Char) :=
  [('"', '"'), ('\\', '\\'), ('/', '/'), ('b', '\x08'), ('f', '\x0c'), ('n', '\n'), ('r', '\r'), ('t', '\t')]

/-- The sixteen hexadecimal digits, in either case. -/
def hexDigits : List (Char × Nat) :=
  [('0', 0), ('1', 1), ('2', 2), ('3', 3), ('4', 4), ('5', 5), ('6', 6), ('7', 7), ('8', 8), ('9', 9),
   ('a', 10), ('b', 11), ('c', 12), ('d', 13), ('e', 14), ('f', 15), ('A', 10), ('B', 11), ('C', 12), ('D', 13), ('E', 14), ('F', 15)]

/-- Four digits and their value. -/
def IsHex4 (a b c d : Char) (n : Nat) : Prop :=
  ∃ w x y z, (a, w) ∈ hexDigits ∧ (b, x) ∈ hexDigits ∧ (c, y) ∈ hexDigits ∧ (d, z) ∈ hexDigits ∧ n = ((w * 16 + x) * 16 + y) * 16 + z

/-- The text between the quotes of a literal, and the string it means. -/
inductive IsString : Str → Str → Prop
  | nil : IsString [] []
  | plain {c t s} : 0x20 ≤ c.toNat → c ≠ '"' → c ≠ '\\' → IsString t s → IsString (c :: t) (c :: s)
  | short {e c t s} : (e, c) ∈ escapes → IsString t s → IsString ('\\' :: e :: t) (c :: s)
  | unit {a b c d n t s} : IsHex4 a b c d n → n < 0xd800 ∨ 0xe000 ≤ n → IsString t s →
      IsString ('\\' :: 'u' :: a :: b :: c :: d :: t) (Char.ofNat n :: s)
  | pair {a b c d a' b' c' d' n m t s} : IsHex4 a b c d n → 0xd800 ≤ n → n < 0xdc00 → IsHex4 a' b' c' d' m → 0xdc00 ≤ m → m < 0xe000 →
      IsString t s →
      IsString ('\\' :: 'u' :: a :: b :: c :: d :: '\\' :: 'u' :: a' :: b' :: c' :: d' :: t)
        (Char.ofNat (0x10000 + (n - 0xd800) * 0x400 + (m - 0xdc00)) :: s)

/-- Decimal notation without leading zeros. -/
def IsNumber (t : Str) (n : Nat) : Prop :=
  t ≠ [] ∧ (∀ c ∈ t, '0' ≤ c ∧ c ≤ '9') ∧ (t.head? = some '0' → t = ['0']) ∧ n = t.foldl (fun n c => n * 10 + (c.toNat - 48)) 0

mutual
/-- The text of a value. -/
inductive IsValue : Str → Json → Prop
  | null : IsValue (chars! "null") .null
  | true : IsValue (chars! "true") (.bool true)
  | false : IsValue (chars! "false") (.bool false)
  | num {t n} : IsNumber t n → IsValue t (.num n)
  | str {t s} : IsString t s → IsValue ('"' :: (t ++ ['"'])) (.str s)
  | noElems {w} : Blank w → IsValue ('[' :: (w ++ [']'])) (.arr .nil)
  | arr {t xs} : IsElems t xs → IsValue ('[' :: (t ++ [']'])) (.arr xs)
  | noFields {w} : Blank w → IsValue ('{' :: (w ++ ['}'])) (.obj .nil)
  | obj {t fs} : IsFields t fs → IsValue ('{' :: (t ++ ['}'])) (.obj fs)
/-- The text of the elements of an array. -/
inductive IsElems : Str → Jsons → Prop
  | one {a t b v} : Blank a → IsValue t v → Blank b → IsElems (a ++ (t ++ b)) (.cons v .nil)
  | more {a t b v r vs} : Blank a → IsValue t v → Blank b → IsElems r vs → IsElems (a ++ (t ++ (b ++ (',' :: r)))) (.cons v vs)
/-- The text of the fields of an object. -/
inductive IsFields : Str → Fields → Prop
  | one {a k' k b c t d v} : Blank a → IsString k' k → Blank b → Blank c → IsValue t v → Blank d →
      IsFields (a ++ ('"' :: (k' ++ ('"' :: (b ++ (':' :: (c ++ (t ++ d)))))))) (.cons k v .nil)
  | more {a k' k b c t d v r fs} : Blank a → IsString k' k → Blank b → Blank c → IsValue t v → Blank d → IsFields r fs →
      IsFields (a ++ ('"' :: (k' ++ ('"' :: (b ++ (':' :: (c ++ (t ++ (d ++ (',' :: r)))))))))) (.cons k v fs)
end

/-- A text that is one JSON value. -/
def IsText (s : Str) (v : Json) : Prop := ∃ a t b, s = a ++ (t ++ b) ∧ Blank a ∧ Blank b ∧ IsValue t v

/-! ### Strings -/

theorem hexVal_iff (c : Char) (n : Nat) : hexVal c = some n ↔ (c, n) ∈ hexDigits := by
  have hle : ∀ a b : Char, a ≤ b ↔ a.toNat ≤ b.toNat := fun a b => by
    show a.val ≤ b.val ↔ _
    rw [UInt32.le_iff_toNat_le]; rfl
  constructor
  · intro h
    unfold hexVal at h
    have hc : Char.ofNat c.toNat = c := Char.ofNat_toNat c
    simp only [hle] at h
    split at h
    · rename_i hh
      have : 48 ≤ c.toNat ∧ c.toNat ≤ 57 := hh
      obtain ⟨h1, h2⟩ := this
      cases h
      rw [← hc]
      generalize c.toNat = k at h1 h2
      have : k = 48 ∨ k = 49 ∨ k = 50 ∨ k = 51 ∨ k = 52 ∨ k = 53 ∨ k = 54 ∨ k = 55 ∨ k = 56 ∨ k = 57 := by omega
      rcases this with e | e | e | e | e | e | e | e | e | e <;> cases e <;> decide
    · split at h
      · rename_i hh
        have : 97 ≤ c.toNat ∧ c.toNat ≤ 102 := hh
        obtain ⟨h1, h2⟩ := this
        cases h
        rw [← hc]
        generalize c.toNat = k at h1 h2
        have : k = 97 ∨ k = 98 ∨ k = 99 ∨ k = 100 ∨ k = 101 ∨ k = 102 := by omega
        rcases this with e | e | e | e | e | e <;> cases e <;> decide
      · split at h
        · rename_i hh
          have : 65 ≤ c.toNat ∧ c.toNat ≤ 70 := hh
          obtain ⟨h1, h2⟩ := this
          cases h
          rw [← hc]
          generalize c.toNat = k at h1 h2
          have : k = 65 ∨ k = 66 ∨ k = 67 ∨ k = 68 ∨ k = 69 ∨ k = 70 := by omega
          rcases this with e | e | e | e | e | e <;> cases e <;> decide
        · cases h
  · intro h
    have : ∀ p ∈ hexDigits, hexVal p.1 = some p.2 := by decide
    exact this _ h

theorem hexVal4_iff (a b c d : Char) (n : Nat) : hexVal4 a b c d = some n ↔ IsHex4 a b c d n := by
  unfold hexVal4 IsHex4
  constructor
  · intro h
    split at h
    · rename_i w x y z h1 h2 h3 h4
      cases h
      exact ⟨w, x, y, z, (hexVal_iff _ _).1 h1, (hexVal_iff _ _).1 h2, (hexVal_iff _ _).1 h3, (hexVal_iff _ _).1 h4, by omega⟩
    · cases h
  · rintro ⟨w, x, y, z, h1, h2, h3, h4, rfl⟩
    rw [(hexVal_iff _ _).2 h1, (hexVal_iff _ _).2 h2, (hexVal_iff _ _).2 h3, (hexVal_iff _ _).2 h4]
    simp only [Option.some.injEq]; omega

theorem unescape_iff (e c : Char) : unescape e = some c ↔ (e, c) ∈ escapes := by
  constructor
  · intro h
    unfold unescape at h
    repeat' (split at h)
    all_goals first | (cases h; done) | (cases h; subst_vars; decide)
  · intro h
    have : ∀ p ∈ escapes, unescape p.1 = some p.2 := by decide
    exact this _ h

theorem unit16_inv {n : Nat} {ch : Char} (h : unit16 n = .char ch) : (n < 0xd800 ∨ 0xe000 ≤ n) ∧ ch = Char.ofNat n := by
  unfold unit16 at h
  split at h
  · rename_i hh; cases h; exact ⟨hh, rfl⟩
  · split at h <;> cases h

theorem unit16_inv_high {n m : Nat} (h : unit16 n = .high m) : 0xd800 ≤ n ∧ n < 0xdc00 ∧ m = n - 0xd800 := by
  unfold unit16 at h
  split at h
  · cases h
  · split at h
    · have := Unit16.high.inj h; omega
    · cases h

theorem map_cons_some {o : Option (Str × Str)} {c : Char} {v r : Str} (h : (o.map fun (s, r') => (c :: s, r')) = some (v, r)) :
    ∃ s, o = some (s, r) ∧ v = c :: s := by
  cases o with
  | none => cases h
  | some p => obtain ⟨s, r'⟩ := p; cases h; exact ⟨s, rfl, rfl⟩

theorem pString_sound (s v r : Str) (h : pString s = some (v, r)) : ∃ t, s = t ++ '"' :: r ∧ IsString t v := by
  induction s using pString.induct generalizing v with
  | case1 => simp [pString] at h
  | case2 r' => rw [pString] at h; cases h; exact ⟨[], rfl, .nil⟩
  | case3 a b c d r' h4 => rw [pString, h4] at h; cases h
  | case4 a b c d r' n h4 ch hu ih =>
    rw [pString, h4] at h; simp only [hu] at h
    obtain ⟨s, e1, rfl⟩ := map_cons_some h
    obtain ⟨t, rfl, ht⟩ := ih s e1
    obtain ⟨hn, rfl⟩ := unit16_inv hu
    exact ⟨_, rfl, .unit ((hexVal4_iff ..).1 h4) hn ht⟩
  | case5 a b c d r' n h4 hu => rw [pString, h4] at h; simp only [hu] at h; cases h
  | case6 a b c d n h4 k hu a' b' c' d' r' h5 => rw [pString, h4] at h; simp only [hu, h5] at h; cases h
  | case7 a b c d n h4 k hu a' b' c' d' r' m h5 hm ih =>
    rw [pString, h4] at h; simp only [hu, h5, hm, and_self, if_true] at h
    obtain ⟨s, e1, rfl⟩ := map_cons_some h
    obtain ⟨t, rfl, ht⟩ := ih s e1
    obtain ⟨h1, h2, hk⟩ := unit16_inv_high hu
    rw [hk]
    exact ⟨_, rfl, .pair ((hexVal4_iff ..).1 h4) h1 h2 ((hexVal4_iff ..).1 h5) hm.1 hm.2 ht⟩
  | case8 a b c d n h4 k hu a' b' c' d' r' m h5 hm =>
    rw [pString, h4] at h; simp only [hu, h5, hm, if_false] at h; cases h
  | case9 a b c d r' n h4 k hu hx =>
    rw [pString, h4] at h; simp only [hu] at h
    cases h
  | case10 e r' hx hu =>
    rw [pString] at h
    · simp only [hu] at h; cases h
    · exact hx
  | case11 e r' hx c hu ih =>
    rw [pString] at h
    · simp only [hu] at h
      obtain ⟨s, e1, rfl⟩ := map_cons_some h
      obtain ⟨t, rfl, ht⟩ := ih s e1
      exact ⟨_, rfl, .short ((unescape_iff ..).1 hu) ht⟩
    · exact hx
  | case12 c r' h1 h2 h3 hc =>
    rw [pString] at h
    · simp only [hc, if_true] at h; cases h
    all_goals assumption
  | case13 c r' h1 h2 h3 hc ih =>
    rw [pString] at h
    · simp only [hc, if_false] at h
      obtain ⟨s, e1, rfl⟩ := map_cons_some h
      obtain ⟨t, rfl, ht⟩ := ih s e1
      exact ⟨_, rfl, .plain (by omega) (fun e => h1 e) (fun e => hc (.inr e)) ht⟩
    all_goals assumption

theorem esc_ne_u {e c : Char} (h : (e, c) ∈ escapes) : e ≠ 'u' := by
  have : ∀ p ∈ escapes, p.1 ≠ 'u' := by decide
  exact this _ h

theorem pString_complete {t v : Str} (h : IsString t v) (r : Str) : pString (t ++ '"' :: r) = some (v, r) := by
  induction h with
  | nil => rw [List.nil_append, pString]
  | @plain c t s h1 h2 h3 _ ih =>
    rw [List.cons_append, pString, ih]
    · have : ¬ (c.toNat < 0x20 ∨ c = '\\') := by rintro (h | h); omega; exact h3 h
      simp only [this, if_false]; rfl
    · exact h2
    · intro a b c' d r' e; exact absurd e h3
    · intro e r' e'; exact absurd e' h3
  | short he _ ih =>
    rw [List.cons_append, List.cons_append, pString, (unescape_iff ..).2 he]
    · simp only [ih]; rfl
    · intro a b c d r' e; exact absurd e (esc_ne_u he)
  | unit h4 hn _ ih =>
    simp only [List.cons_append]
    rw [pString, (hexVal4_iff ..).2 h4]
    simp only [unit16_char hn, ih]; rfl
  | pair h4 h1 h2 h5 h6 h7 _ ih =>
    simp only [List.cons_append]
    rw [pString, (hexVal4_iff ..).2 h4]
    simp only [unit16_high h1 h2, (hexVal4_iff ..).2 h5, h6, h7, and_self, if_true, ih]; rfl

/-! ### Blanks and numbers -/

theorem mem_takeWhile_true {α : Type} {p : α → Bool} {l : List α} {a : α} (h : a ∈ l.takeWhile p) : p a = true := by
  induction l with
  | nil => cases h
  | cons b l ih =>
    rw [List.takeWhile_cons] at h
    split at h
    · rcases List.mem_cons.1 h with rfl | h
      · assumption
      · exact ih h
    · cases h

theorem skipWs_split (s : Str) : ∃ w, s = w ++ skipWs s ∧ Blank w := by
  unfold skipWs
  refine ⟨s.takeWhile fun c => c == ' ' || c == '\t' || c == '\n' || c == '\r', (List.takeWhile_append_dropWhile).symm, ?_⟩
  intro c hc
  have := mem_takeWhile_true hc
  simpa [or_assoc] using this

theorem skipWs_blank {w : Str} (h : Blank w) (r : Str) : skipWs (w ++ r) = skipWs r := by
  unfold skipWs
  induction w with
  | nil => rfl
  | cons c w ih =>
    have hc := h c (List.mem_cons_self ..)
    rw [List.cons_append, List.dropWhile_cons_of_pos]
    · exact ih fun c' h' => h c' (List.mem_cons_of_mem _ h')
    · simpa [or_assoc] using hc

theorem skipWs_all {w : Str} (h : skipWs w = []) : Blank w := by
  obtain ⟨a, e, ha⟩ := skipWs_split w
  rw [h, List.append_nil] at e; rw [e]; exact ha

theorem skipWs_idem (s : Str) : skipWs (skipWs s) = skipWs s := by
  obtain ⟨w, e, hw⟩ := skipWs_split s
  have := skipWs_blank hw (skipWs s)
  rw [← e] at this; exact this.symm

theorem isDigit_iff (c : Char) : isDigit c = true ↔ '0' ≤ c ∧ c ≤ '9' := by
  unfold isDigit; simp

theorem pNumber_sound (s r : Str) (n : Nat) (h : pNumber s = some (n, r)) : ∃ t, s = t ++ r ∧ IsNumber t n := by
  unfold pNumber at h
  simp only at h
  split at h
  · cases h
  · split at h
    · cases h
    · rename_i h1 h2
      have hk : some (List.foldl (fun n c => n * 10 + (c.toNat - 48)) 0 (List.takeWhile isDigit s), List.dropWhile isDigit s) = some (n, r) := by
        split at h <;> first | (cases h; done) | exact h
      cases hk
      refine ⟨s.takeWhile isDigit, (List.takeWhile_append_dropWhile).symm, h1, fun c hc => (isDigit_iff c).1 (mem_takeWhile_true hc), ?_, rfl⟩
      intro hd
      exact Classical.byContradiction fun hne => h2 ⟨hd, hne⟩

theorem number_digits {t : Str} {n : Nat} (h : IsNumber t n) : ∀ c ∈ t, isDigit c = true := fun c hc => (isDigit_iff c).2 (h.2.1 c hc)

theorem pNumber_complete {t r : Str} {n : Nat} (h : IsNumber t n) (hr : NumEnd r) : pNumber (t ++ r) = some (n, r) := by
  have h0 : r.takeWhile isDigit = [] ∧ r.dropWhile isDigit = r := by
    cases r with
    | nil => simp
    | cons c r => simp [(hr c rfl).1]
  have hd := number_digits h
  have h1 : (t ++ r).takeWhile isDigit = t := by rw [List.takeWhile_append_of_pos hd, h0.1, List.append_nil]
  have h2 : (t ++ r).dropWhile isDigit = r := by rw [List.dropWhile_append_of_pos hd, h0.2]
  simp only [pNumber, h1, h2]
  rw [if_neg h.1, if_neg ?_, ← h.2.2.2]
  · cases hh : r.head? with
    | none => rfl
    | some c =>
      have := hr c hh
      split
      · rename_i he; simp at he; exact absurd he this.2.1
      · rename_i he; simp at he; exact absurd he this.2.2.1
      · rename_i he; simp at he; exact absurd he this.2.2.2
      · rfl
  · rintro ⟨ha, hb⟩; exact hb (h.2.2.1 ha)

theorem pValue_number (k : Nat) {t r : Str} {n : Nat} (h : IsNumber t n) (hr : NumEnd r) : pValue (k + 1) (t ++ r) = some (.num n, r) := by
  have hp := pNumber_complete h hr
  have hd := number_digits h
  cases t with
  | nil => exact absurd rfl h.1
  | cons c cs =>
    have hd := hd c (by simp)
    have nb : NotBlank c := by refine ⟨?_, ?_, ?_, ?_⟩ <;> (rintro rfl; revert hd; decide)
    have h1 : c ≠ '"' := by rintro rfl; revert hd; decide
    have h2 : c ≠ '[' := by rintro rfl; revert hd; decide
    have h3 : c ≠ '{' := by rintro rfl; revert hd; decide
    have h4 : c ≠ 't' := by rintro rfl; revert hd; decide
    have h5 : c ≠ 'f' := by rintro rfl; revert hd; decide
    have h6 : c ≠ 'n' := by rintro rfl; revert hd; decide
    rw [pValue, List.cons_append, skipWs_cons nb]
    split
    · rename_i he; cases he
    · rename_i he; simp at he; exact absurd he.1 h1
    · rename_i he; simp at he; exact absurd he.1 h2
    · rename_i he; simp at he; exact absurd he.1 h3
    · rename_i he; simp at he; exact absurd he.1 h4
    · rename_i he; simp at he; exact absurd he.1 h5
    · rename_i he; simp at he; exact absurd he.1 h6
    · rw [← List.cons_append, hp]; rfl

/-! ### Values: what is read is in the grammar -/

/-- Soundness of the reader at a given fuel. -/
structure SoundAt (n : Nat) : Prop where
  value : ∀ s v r, pValue n s = some (v, r) → ∃ w t, s = w ++ (t ++ r) ∧ Blank w ∧ IsValue t v
  elems : ∀ s vs r, pElems n s = some (vs, r) → ∃ t, s = t ++ ']' :: r ∧ IsElems t vs
  fields : ∀ s fs r, pFields n s = some (fs, r) → ∃ t, s = t ++ '}' :: r ∧ IsFields t fs

theorem map_some {α β γ : Type} {o : Option (α × γ)} {f : α → β} {v : β} {r : γ} (h : (o.map fun (a, r') => (f a, r')) = some (v, r)) :
    ∃ a, o = some (a, r) ∧ v = f a := by
  cases o with
  | none => cases h
  | some p => obtain ⟨a, r'⟩ := p; cases h; exact ⟨a, rfl, rfl⟩

theorem value_sound {n : Nat} (ih : SoundAt n) (s : Str) (v : Json) (r : Str) (h : pValue (n + 1) s = some (v, r)) :
    ∃ w t, s = w ++ (t ++ r) ∧ Blank w ∧ IsValue t v := by
  obtain ⟨w, e, hw⟩ := skipWs_split s
  rw [pValue] at h
  generalize skipWs s = k at e h
  subst e
  split at h
  · cases h
  · obtain ⟨t, e, rfl⟩ := map_some (f := Json.str) h
    obtain ⟨b, rfl, hb⟩ := pString_sound _ _ _ e
    exact ⟨w, '"' :: (b ++ ['"']), by simp, hw, .str hb⟩
  · rename_i q
    obtain ⟨w2, e2, hw2⟩ := skipWs_split q
    split at h
    · rename_i q' hq; cases h; rw [hq] at e2
      exact ⟨w, '[' :: (w2 ++ [']']), by simp [e2], hw, .noElems hw2⟩
    · obtain ⟨vs, e, rfl⟩ := map_some (f := Json.arr) h
      rw [pElems_skip n (b := q) (skipWs_idem q)] at e
      obtain ⟨t, rfl, ht⟩ := ih.elems _ _ _ e
      exact ⟨w, '[' :: (t ++ [']']), by simp, hw, .arr ht⟩
  · rename_i q
    obtain ⟨w2, e2, hw2⟩ := skipWs_split q
    split at h
    · rename_i q' hq; cases h; rw [hq] at e2
      exact ⟨w, '{' :: (w2 ++ ['}']), by simp [e2], hw, .noFields hw2⟩
    · obtain ⟨vs, e, rfl⟩ := map_some (f := Json.obj) h
      rw [pFields_skip n (b := q) (skipWs_idem q)] at e
      obtain ⟨t, rfl, ht⟩ := ih.fields _ _ _ e
      exact ⟨w, '{' :: (t ++ ['}']), by simp, hw, .obj ht⟩
  · cases h; exact ⟨w, _, rfl, hw, .true⟩
  · cases h; exact ⟨w, _, rfl, hw, .false⟩
  · cases h; exact ⟨w, _, rfl, hw, .null⟩
  · obtain ⟨m, e, rfl⟩ := map_some (f := Json.num) h
    obtain ⟨t, rfl, ht⟩ := pNumber_sound _ _ _ e
    exact ⟨w, t, rfl, hw, .num ht⟩

theorem elems_sound {n : Nat} (ih : SoundAt n) (s : Str) (vs : Jsons) (r : Str) (h : pElems (n + 1) s = some (vs, r)) :
    ∃ t, s = t ++ ']' :: r ∧ IsElems t vs := by
  rw [pElems] at h
  split at h
  · cases h
  · rename_i v q hv
    obtain ⟨w, t, rfl, hw, ht⟩ := ih.value _ _ _ hv
    obtain ⟨b, e, hb⟩ := skipWs_split q
    generalize skipWs q = k at e h
    subst e
    split at h
    · obtain ⟨vs', e, rfl⟩ := map_some (f := Jsons.cons v) h
      obtain ⟨t', rfl, ht'⟩ := ih.elems _ _ _ e
      exact ⟨w ++ (t ++ (b ++ (',' :: t'))), by simp, .more hw ht hb ht'⟩
    · cases h; exact ⟨w ++ (t ++ b), by simp, .one hw ht hb⟩
    · cases h

theorem fields_sound {n : Nat} (ih : SoundAt n) (s : Str) (fs : Fields) (r : Str) (h : pFields (n + 1) s = some (fs, r)) :
    ∃ t, s = t ++ '}' :: r ∧ IsFields t fs := by
  rw [pFields] at h
  obtain ⟨a, e, ha⟩ := skipWs_split s
  generalize skipWs s = k at e h
  subst e
  split at h
  · split at h
    · cases h
    · rename_i k r1 hk
      obtain ⟨kt, rfl, hkt⟩ := pString_sound _ _ _ hk
      obtain ⟨b, e, hb⟩ := skipWs_split r1
      generalize skipWs r1 = q at e h
      subst e
      split at h
      · split at h
        · cases h
        · rename_i v r3 hv
          obtain ⟨c, t, rfl, hc, ht⟩ := ih.value _ _ _ hv
          obtain ⟨d, e, hd⟩ := skipWs_split r3
          generalize skipWs r3 = q at e h
          subst e
          split at h
          · obtain ⟨fs', e, rfl⟩ := map_some (f := Fields.cons k v) h
            obtain ⟨t', rfl, ht'⟩ := ih.fields _ _ _ e
            exact ⟨_, by simp, .more ha hkt hb hc ht hd ht'⟩
          · cases h; exact ⟨_, by simp, .one ha hkt hb hc ht hd⟩
          · cases h
      · cases h
  · cases h

theorem sound_at (n : Nat) : SoundAt n := by
  induction n with
  | zero => exact ⟨fun _ _ _ h => by simp [pValue] at h, fun _ _ _ h => by simp [pElems] at h, fun _ _ _ h => by simp [pFields] at h⟩
  | succ n ih => exact ⟨value_sound ih, elems_sound ih, fields_sound ih⟩

/-! ### Values: what is in the grammar is read -/

theorem value_head {t : Str} {v : Json} (h : IsValue t v) : ∃ c r, t = c :: r ∧ NotBlank c ∧ c ≠ ']' ∧ c ≠ '}' := by
  cases h with
  | null => exact ⟨_, _, rfl, by decide⟩
  | true => exact ⟨_, _, rfl, by decide⟩
  | false => exact ⟨_, _, rfl, by decide⟩
  | num h =>
    cases t with
    | nil => exact absurd rfl h.1
    | cons c r =>
      refine ⟨c, r, rfl, ?_⟩
      have hd := number_digits h c (by simp)
      refine ⟨⟨?_, ?_, ?_, ?_⟩, ?_, ?_⟩ <;> (rintro rfl; revert hd; decide)
  | str h => exact ⟨_, _, rfl, by decide⟩
  | noElems h => exact ⟨_, _, rfl, by decide⟩
  | arr h => exact ⟨_, _, rfl, by decide⟩
  | noFields h => exact ⟨_, _, rfl, by decide⟩
  | obj h => exact ⟨_, _, rfl, by decide⟩

theorem numEnd_blank {b r : Str} (hb : Blank b) (hr : NumEnd r) : NumEnd (b ++ r) := by
  cases b with
  | nil => exact hr
  | cons c b =>
    rw [List.cons_append]
    apply numEnd_cons
    rcases hb c (List.mem_cons_self ..) with h | h | h | h <;> subst h <;> decide

theorem skip_to {w r : Str} {c : Char} (hw : Blank w) (hc : NotBlank c) : skipWs (w ++ c :: r) = c :: r := by
  rw [skipWs_blank hw, skipWs_cons hc]

theorem elems_head {t : Str} {vs : Jsons} (h : IsElems t vs) (r : Str) : ∃ c q, skipWs (t ++ r) = c :: q ∧ NotBlank c ∧ c ≠ ']' := by
  cases h with
  | one ha hv hb =>
    obtain ⟨c, q, rfl, h1, h2, _⟩ := value_head hv
    exact ⟨c, _, by rw [List.append_assoc, List.append_assoc, skipWs_blank ha, List.cons_append, skipWs_cons h1], h1, h2⟩
  | more ha hv hb hs =>
    obtain ⟨c, q, rfl, h1, h2, _⟩ := value_head hv
    exact ⟨c, _, by rw [List.append_assoc, List.append_assoc, skipWs_blank ha, List.cons_append, skipWs_cons h1], h1, h2⟩

theorem fields_head {t : Str} {fs : Fields} (h : IsFields t fs) (r : Str) : ∃ q, skipWs (t ++ r) = '"' :: q := by
  cases h with
  | one ha hk hb hc hv hd => exact ⟨_, by rw [List.append_assoc, List.cons_append, skip_to ha (by decide)]⟩
  | more ha hk hb hc hv hd hf => exact ⟨_, by rw [List.append_assoc, List.cons_append, skip_to ha (by decide)]⟩

mutual
theorem value_complete {t : Str} {v : Json} (h : IsValue t v) (n : Nat) (hn : t.length ≤ n) {r : Str} (hr : NumEnd r) :
    pValue n (t ++ r) = some (v, r) := by
  obtain ⟨c, t', hc, _⟩ := value_head h
  cases n with
  | zero => rw [hc] at hn; simp at hn
  | succ n =>
    cases h with
    | null => simp [pValue, skipWs]
    | true => simp [pValue, skipWs]
    | false => simp [pValue, skipWs]
    | num h => exact pValue_number n h hr
    | str h =>
      simp only [List.cons_append, pValue, List.append_assoc, List.nil_append]
      rw [skipWs_cons (by decide)]
      simp only [pString_complete h]; rfl
    | noElems h =>
      simp only [List.cons_append, pValue, List.append_assoc, List.nil_append]
      rw [skipWs_cons (by decide)]
      simp only [skip_to h (c := ']') (by decide)]
    | @arr t xs h =>
      simp only [List.length_cons, List.length_append, List.length_nil] at hn
      have ih := elems_complete h n (by omega) r
      obtain ⟨d, q, hq, nb⟩ := elems_head h (']' :: r)
      simp only [List.cons_append, pValue, List.append_assoc, List.nil_append]
      rw [skipWs_cons (by decide)]
      simp only
      rw [pElems_skip n (b := skipWs (t ++ ']' :: r)) (by rw [hq, skipWs_cons nb.1])] at ih
      split
      · rename_i he; rw [hq] at he; simp at he; exact absurd he.1 nb.2
      · rw [ih]; rfl
    | noFields h =>
      simp only [List.cons_append, pValue, List.append_assoc, List.nil_append]
      rw [skipWs_cons (by decide)]
      simp only [skip_to h (c := '}') (by decide)]
    | @obj t fs h =>
      simp only [List.length_cons, List.length_append, List.length_nil] at hn
      have ih := fields_complete h n (by omega) r
      obtain ⟨q, hq⟩ := fields_head h ('}' :: r)
      simp only [List.cons_append, pValue, List.append_assoc, List.nil_append]
      rw [skipWs_cons (by decide)]
      simp only
      rw [pFields_skip n (b := skipWs (t ++ '}' :: r)) (by rw [hq, skipWs_cons (by decide)])] at ih
      split
      · rename_i he; rw [hq] at he; simp at he
      · rw [ih]; rfl
termination_by n
theorem elems_complete {t : Str} {vs : Jsons} (h : IsElems t vs) (n : Nat) (hn : t.length + 1 ≤ n) (r : Str) :
    pElems n (t ++ ']' :: r) = some (vs, r) := by
  cases n with
  | zero => omega
  | succ n =>
    cases h with
    | @one a t b v ha hv hb =>
      simp only [List.length_append] at hn
      have ih := value_complete hv n (by omega) (r := b ++ ']' :: r) (numEnd_blank hb (numEnd_cons (by decide)))
      rw [pElems, List.append_assoc, List.append_assoc, pValue_skip n (skipWs_blank ha _), ih]
      simp only [skip_to hb (c := ']') (by decide)]
    | @more a t b v q vs ha hv hb hs =>
      simp only [List.length_append, List.length_cons] at hn
      have ih := value_complete hv n (by omega) (r := b ++ ',' :: (q ++ ']' :: r)) (numEnd_blank hb (numEnd_cons (by decide)))
      have ih2 := elems_complete hs n (by omega) r
      simp only [List.append_assoc, List.cons_append]
      rw [pElems, pValue_skip n (skipWs_blank ha _), ih]
      simp only [skip_to hb (c := ',') (by decide), ih2]; rfl
termination_by n
theorem fields_complete {t : Str} {fs : Fields} (h : IsFields t fs) (n : Nat) (hn : t.length + 1 ≤ n) (r : Str) :
    pFields n (t ++ '}' :: r) = some (fs, r) := by
  cases n with
  | zero => omega
  | succ n =>
    cases h with
    | @one a k' k b c t d v ha hk hb hc hv hd =>
      simp only [List.length_append, List.length_cons] at hn
      have ih := value_complete hv n (by omega) (r := d ++ '}' :: r) (numEnd_blank hd (numEnd_cons (by decide)))
      simp only [List.append_assoc, List.cons_append]
      rw [pFields, skip_to ha (by decide)]
      simp only [pString_complete hk, skip_to hb (c := ':') (by decide)]
      rw [pValue_skip n (skipWs_blank hc _), ih]
      simp only [skip_to hd (c := '}') (by decide)]
    | @more a k' k b c t d v q fs ha hk hb hc hv hd hf =>
      simp only [List.length_append, List.length_cons] at hn
      have ih := value_complete hv n (by omega) (r := d ++ ',' :: (q ++ '}' :: r)) (numEnd_blank hd (numEnd_cons (by decide)))
      have ih2 := fields_complete hf n (by omega) r
      simp only [List.append_assoc, List.cons_append]
      rw [pFields, skip_to ha (by decide)]
      simp only [pString_complete hk, skip_to hb (c := ':') (by decide)]
      rw [pValue_skip n (skipWs_blank hc _), ih]
      simp only [skip_to hd (c := ',') (by decide), ih2]; rfl
termination_by n
end

theorem numEnd_all {b : Str} (hb : Blank b) : NumEnd b := by
  have := numEnd_blank (r := []) hb (fun c hc => by cases hc)
  rwa [List.append_nil] at this

/-- The readers of both sides accept exactly the texts of the grammar, with their meaning. -/
theorem parse_iff (s : Str) (v : Json) : parse s = some v ↔ IsText s v := by
  constructor
  · intro h
    unfold parse at h
    split at h
    · rename_i j r hp
      split at h
      · rename_i hr
        cases h
        obtain ⟨w, t, rfl, hw, ht⟩ := (sound_at _).value _ _ _ hp
        exact ⟨w, t, r, rfl, hw, skipWs_all hr, ht⟩
      · cases h
    · cases h
  · rintro ⟨a, t, b, rfl, ha, hb, ht⟩
    have := value_complete ht ((a ++ (t ++ b)).length + 1) (by simp; omega) (numEnd_all hb)
    unfold parse
    rw [pValue_skip _ (skipWs_blank ha _), this]
    have hs : skipWs b = [] := by
      have := skipWs_blank hb []
      rwa [List.append_nil] at this
    simp only [hs, if_true]

end Rudy.Wire
