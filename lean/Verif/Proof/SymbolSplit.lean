import Verif.Model.Symbols
set_option linter.unusedSimpArgs false
/- Specification vocabulary and helper lemmas for symbol splitting (Verif.Props.Symbols). -/
namespace Rudy.Symbols
open Rudy

/-! ### Specification vocabulary (independent of the scanner) -/

/-- Bracket depth of a text: number of `<` minus number of `>`. -/
def depth : Str → Int
  | [] => 0
  | c :: cs => (if c = '<' then 1 else if c = '>' then -1 else 0) + depth cs

/-- The text contains no `::` outside brackets. -/
def NoTopSep (p : Str) : Prop := ∀ a b, p = a ++ ':' :: ':' :: b → depth a ≠ 0

/-- Pieces joined by `::`. -/
def joinSep : List Str → Str
  | [] => []
  | [p] => p
  | p :: q :: ps => p ++ ':' :: ':' :: joinSep (q :: ps)

/-- The maximal runs of non-blank characters. -/
def wordsAux : Str → Str → List Str
  | [], cur => if cur.isEmpty then [] else [cur]
  | c :: cs, cur =>
    if isBlank c then (if cur.isEmpty then wordsAux cs [] else cur :: wordsAux cs [])
    else wordsAux cs (cur ++ [c])

/-- The blank-separated words of a text. -/
def words (s : Str) : List Str := wordsAux s []

/-- Words joined by single spaces. -/
def joinWords : List Str → Str
  | [] => []
  | [w] => w
  | w :: v :: ws => w ++ ' ' :: joinWords (v :: ws)

/-- A piece has some non-blank character. -/
def hasText (p : Str) : Bool := p.any (fun c => !isBlank c)

/-- White-space normal form of a piece: words separated by single spaces, ends trimmed. -/
def normalise (p : Str) : Str := trim (joinWords (words p))

/-- `pieces` is the (leftmost) decomposition of `s` at the top-level `::` separators: joined they
give `s`; no piece contains a top-level separator, not even together with the first colon of the
separator that follows it; every separator is at bracket depth 0. -/
structure IsTopSplit (s : Str) (pieces : List Str) : Prop where
  ne : pieces ≠ []
  join : joinSep pieces = s
  noSep : ∀ p ∈ pieces, NoTopSep p
  closed : ∀ p ∈ pieces.dropLast, depth p = 0 ∧ NoTopSep (p ++ [':'])

/-! ### Lemmas -/

theorem depth_append (a b : Str) : depth (a ++ b) = depth a + depth b := by
  induction a with
  | nil => simp [depth]
  | cons c cs ih => simp only [List.cons_append, depth, ih]; omega

theorem noTopSep_nil : NoTopSep [] := by
  intro a b h; cases a <;> simp at h

theorem noTopSep_append_singleton (p : Str) (c : Char) :
    NoTopSep (p ++ [c]) ↔ NoTopSep p ∧ (c = ':' → ∀ a, p = a ++ [':'] → depth a ≠ 0) := by
  constructor
  · intro h
    refine ⟨?_, ?_⟩
    · intro a b hp
      exact h a (b ++ [c]) (by simp [hp])
    · rintro rfl a rfl
      exact h a [] (by simp)
  · rintro ⟨h1, h2⟩ a b hp
    rcases List.eq_nil_or_concat b with rfl | ⟨b', x, rfl⟩
    · have hp' : p ++ [c] = (a ++ [':']) ++ [':'] := by simpa using hp
      obtain ⟨e1, e2⟩ := List.append_inj' hp' rfl
      simp at e2
      exact h2 e2 a e1
    · have hp' : p ++ [c] = (a ++ ':' :: ':' :: b') ++ [x] := by simpa using hp
      obtain ⟨e1, _⟩ := List.append_inj' hp' rfl
      exact h1 a b' e1

theorem NoTopSep.prefix {p : Str} (q : Str) (h : NoTopSep (p ++ q)) : NoTopSep p := by
  intro a b hp
  exact h a (b ++ q) (by simp [hp])

/-- The scanner's normalisation of one piece. -/
def collapse (p : Str) : Str :=
  p.foldl (fun cur c => if isBlank c then pushBlank cur else cur ++ [c]) []

theorem collapse_append_singleton (p : Str) (c : Char) :
    collapse (p ++ [c]) = if isBlank c then pushBlank (collapse p) else collapse p ++ [c] := by
  simp [collapse, List.foldl_append]

theorem collapse_isEmpty (p : Str) : (collapse p).isEmpty = !hasText p := by
  rcases List.eq_nil_or_concat p with rfl | ⟨l, c, rfl⟩
  · simp [collapse, hasText]
  · have ih := collapse_isEmpty l
    have h : l.concat c = l ++ [c] := by simp
    rw [h, collapse_append_singleton]
    by_cases hb : isBlank c
    · simp only [hb, if_true, pushBlank]
      simp only [hasText, List.any_append, List.any_cons, List.any_nil, hb] at ih ⊢
      split
      · rename_i h2
        simp only [Bool.and_eq_true, Bool.not_eq_true'] at h2
        rw [ih] at h2
        rw [show (l.any fun c => !isBlank c) = true by simpa using h2.1]; simp
      · simpa using ih
    · simp [hb, hasText]
termination_by p.length

def segsOf (pieces : List Str) : List Str :=
  (pieces.filter hasText).map (fun p => trim (collapse p))

theorem scan_lt (cs : Str) (segs : List Str) (cur : Str) (d : Int) :
    scan ('<' :: cs) segs cur d = scan cs segs (cur ++ ['<']) (d + 1) := by
  rw [scan.eq_def]; simp

theorem scan_gt (cs : Str) (segs : List Str) (cur : Str) (d : Int) :
    scan ('>' :: cs) segs cur d = scan cs segs (cur ++ ['>']) (d - 1) := by
  rw [scan.eq_def]; simp

theorem scan_sep (cs : Str) (segs : List Str) (cur : Str) :
    scan (':' :: ':' :: cs) segs cur 0 =
      if cur.isEmpty then scan cs segs cur 0 else scan cs (segs ++ [trim cur]) [] 0 := by
  rw [scan.eq_def]; simp

theorem scan_other (c : Char) (cs : Str) (segs : List Str) (cur : Str) (d : Int)
    (h1 : ¬ c = '<') (h2 : ¬ c = '>') (h3 : ¬ (c = ':' ∧ d = 0 ∧ cs.head? = some ':')) :
    scan (c :: cs) segs cur d =
      scan cs segs (if isBlank c then pushBlank cur else cur ++ [c]) d := by
  rw [scan.eq_def]; simp only [h1, h2, h3, if_false]; split <;> rfl

theorem scan_spec (cs : List Char) :
    ∀ (segs : List Str) (p : Str), NoTopSep p → (cs.head? = some ':' → NoTopSep (p ++ [':'])) →
    ∃ pieces, IsTopSplit (p ++ cs) pieces ∧
      scan cs segs (collapse p) (depth p) = segs ++ segsOf pieces := by
  generalize hn : cs.length = n
  induction n using Nat.strongRecOn generalizing cs with
  | _ n ih =>
    intro segs p h1 h2
    cases cs with
    | nil =>
      refine ⟨[p], ⟨by simp, by simp [joinSep], by simpa using h1, by simp⟩, ?_⟩
      simp only [scan, collapse_isEmpty, segsOf]
      cases hh : hasText p <;> simp [hh]
    | cons c cs =>
      have hlen : cs.length < n := by simp at hn; omega
      -- pushing `c` onto the current piece
      have push : ∀ d', depth (p ++ [c]) = d' →
          (¬ (c = ':' ∧ depth p = 0 ∧ cs.head? = some ':')) →
          ∃ pieces, IsTopSplit (p ++ c :: cs) pieces ∧
            scan cs segs (collapse (p ++ [c])) d' = segs ++ segsOf pieces := by
        intro d' hd hns
        have g1 : NoTopSep (p ++ [c]) := by
          rw [noTopSep_append_singleton]
          refine ⟨h1, ?_⟩
          rintro rfl
          exact ((noTopSep_append_singleton p ':').1 (h2 rfl)).2 rfl
        have g2 : cs.head? = some ':' → NoTopSep ((p ++ [c]) ++ [':']) := by
          intro hh
          rw [noTopSep_append_singleton]
          refine ⟨g1, ?_⟩
          intro _ a ha
          obtain ⟨e1, e2⟩ := List.append_inj' ha rfl
          simp at e2
          subst e1 e2
          intro hz
          exact hns ⟨rfl, hz, hh⟩
        obtain ⟨pieces, hp, he⟩ := ih cs.length hlen cs rfl segs (p ++ [c]) g1 g2
        subst hd
        refine ⟨pieces, ?_, he⟩
        simpa using hp
      by_cases hlt : c = '<'
      · subst hlt
        have := push (depth p + 1) (by simp [depth_append, depth]) (by simp)
        simpa [scan_lt, collapse_append_singleton, isBlank] using this
      by_cases hgt : c = '>'
      · subst hgt
        have := push (depth p - 1) (by simp [depth_append, depth]; omega) (by simp)
        simpa [scan_gt, collapse_append_singleton, isBlank] using this
      by_cases hsep : c = ':' ∧ depth p = 0 ∧ cs.head? = some ':'
      · obtain ⟨rfl, hd, hh⟩ := hsep
        cases cs with
        | nil => simp at hh
        | cons c2 cs' =>
          simp at hh
          subst hh
          have hlen' : cs'.length < n := by simp at hlen; omega
          have h2' := h2 (by simp)
          have g2 : cs'.head? = some ':' → NoTopSep ([] ++ [':']) := by
            intro _ a b hab
            have := congrArg List.length hab
            simp at this; omega
          obtain ⟨pieces, hp, he⟩ := ih cs'.length hlen' cs' rfl
            (if (collapse p).isEmpty then segs else segs ++ [trim (collapse p)]) [] noTopSep_nil g2
          refine ⟨p :: pieces, ⟨by simp, ?_, ?_, ?_⟩, ?_⟩
          · cases pieces with
            | nil => exact absurd rfl hp.ne
            | cons q qs =>
              simp only [joinSep, hp.join]; simp
          · intro q hq
            rcases List.mem_cons.1 hq with rfl | hq
            · exact h1
            · exact hp.noSep q hq
          · intro q hq
            cases pieces with
            | nil => exact absurd rfl hp.ne
            | cons r rs =>
              rw [List.dropLast_cons_of_ne_nil (by simp)] at hq
              rcases List.mem_cons.1 hq with rfl | hq
              · exact ⟨hd, h2'⟩
              · exact hp.closed q hq
          · have hs : scan (':' :: ':' :: cs') segs (collapse p) (depth p) =
                scan cs' (if (collapse p).isEmpty then segs else segs ++ [trim (collapse p)]) [] 0 := by
              rw [hd]
              rw [scan_sep]
              by_cases hcol : (collapse p).isEmpty
              · have : collapse p = [] := by simpa using hcol
                simp [this]
              · simp [hcol]
            have he' : scan cs' (if (collapse p).isEmpty then segs else segs ++ [trim (collapse p)]) [] 0
                = (if (collapse p).isEmpty then segs else segs ++ [trim (collapse p)]) ++ segsOf pieces := by
              simpa [collapse, depth] using he
            rw [hs, he', collapse_isEmpty]
            cases hh : hasText p <;> simp [segsOf, hh]
      · have hd : depth (p ++ [c]) = depth p := by simp [depth_append, depth, hlt, hgt]
        obtain ⟨pieces, hp, he⟩ := push (depth p) hd hsep
        refine ⟨pieces, hp, ?_⟩
        rw [← he, collapse_append_singleton, scan_other c cs segs _ _ hlt hgt hsep]

/-- The leftmost decomposition is unique. -/
theorem topSplit_unique : ∀ (P Q : List Str) (s : Str), IsTopSplit s P → IsTopSplit s Q → P = Q := by
  -- heads agree
  have key : ∀ (p q : Str) (ps qs : List Str) (s : Str), IsTopSplit s (p :: ps) →
      IsTopSplit s (q :: qs) → ¬ p.length < q.length := by
    intro p q ps qs s hP hQ hlt
    cases ps with
    | nil =>
      have e1 : p = s := hP.join
      have e2 := hQ.join
      cases qs with
      | nil => simp [joinSep] at e2; subst e1 e2; omega
      | cons r rs => simp only [joinSep] at e2; rw [← e2] at e1; rw [e1] at hlt; simp at hlt; omega
    | cons r rs =>
      have e1 : p ++ ':' :: ':' :: joinSep (r :: rs) = s := hP.join
      obtain ⟨hd, hns⟩ := hP.closed p (by simp [List.dropLast])
      have hqs : q <+: s := by
        cases qs with
        | nil => have := hQ.join; simp [joinSep] at this; rw [this]; exact List.prefix_refl _
        | cons x xs => exact ⟨_, hQ.join⟩
      obtain ⟨t, ht⟩ := hqs
      have hpq : p <+: q := List.prefix_of_prefix_length_le ⟨_, e1⟩ ⟨t, ht⟩ (by omega)
      obtain ⟨u, hu⟩ := hpq
      subst hu
      have e3 : u ++ t = ':' :: ':' :: joinSep (r :: rs) := by
        have : p ++ (u ++ t) = p ++ ':' :: ':' :: joinSep (r :: rs) := by
          rw [e1, ← ht]; simp
        exact List.append_cancel_left this
      cases u with
      | nil => simp at hlt
      | cons u1 u' =>
        cases u' with
        | nil =>
          simp at e3
          obtain ⟨rfl, e3⟩ := e3
          cases qs with
          | nil =>
            have := hQ.join
            simp only [joinSep] at this
            have hl := congrArg List.length ht
            have hl2 := congrArg List.length this
            have hl3 := congrArg List.length e1
            simp at hl hl2 hl3
            have : t.length = 0 := by omega
            subst e3; simp at this
          | cons x xs =>
            have := (hQ.closed (p ++ [':']) (by simp [List.dropLast])).2
            exact this p [] (by simp) hd
        | cons u2 u'' =>
          simp at e3
          obtain ⟨rfl, rfl, e3⟩ := e3
          exact hQ.noSep _ (by simp) p u'' rfl hd
  intro P
  induction P with
  | nil => intro Q s hP; exact absurd rfl hP.ne
  | cons p ps ih =>
    intro Q s hP hQ
    cases Q with
    | nil => exact absurd rfl hQ.ne
    | cons q qs =>
      have l1 := key p q ps qs s hP hQ
      have l2 := key q p qs ps s hQ hP
      have hlen : p.length = q.length := by omega
      have ep : ∃ t, p ++ t = s := by
        cases ps with
        | nil => exact ⟨[], by simpa [joinSep] using hP.join⟩
        | cons x xs => exact ⟨_, hP.join⟩
      have eq : ∃ t, q ++ t = s := by
        cases qs with
        | nil => exact ⟨[], by simpa [joinSep] using hQ.join⟩
        | cons x xs => exact ⟨_, hQ.join⟩
      obtain ⟨t1, h1⟩ := ep
      obtain ⟨t2, h2⟩ := eq
      have : p = q := (List.append_inj (h1.trans h2.symm) hlen).1
      subst this
      cases ps with
      | nil =>
        cases qs with
        | nil => rfl
        | cons x xs =>
          have e1 := hP.join; have e2 := hQ.join
          simp only [joinSep] at e1 e2
          rw [← e1] at e2
          have := congrArg List.length e2
          simp at this
      | cons y ys =>
        cases qs with
        | nil =>
          have e1 := hP.join; have e2 := hQ.join
          simp only [joinSep] at e1 e2
          rw [← e2] at e1
          have := congrArg List.length e1
          simp at this
        | cons x xs =>
          have e1 := hP.join; have e2 := hQ.join
          simp only [joinSep] at e1 e2
          rw [← e2] at e1
          have e3 : joinSep (y :: ys) = joinSep (x :: xs) := by
            have := List.append_cancel_left e1
            simpa using this
          have c1 := hP.closed
          have c2 := hQ.closed
          rw [List.dropLast_cons_of_ne_nil (by simp)] at c1 c2
          have := ih (x :: xs) (joinSep (y :: ys))
            ⟨by simp, rfl, fun r hr => hP.noSep r (List.mem_cons_of_mem _ hr),
              fun r hr => c1 r (List.mem_cons_of_mem _ hr)⟩
            ⟨by simp, e3.symm, fun r hr => hQ.noSep r (List.mem_cons_of_mem _ hr),
              fun r hr => c2 r (List.mem_cons_of_mem _ hr)⟩
          rw [this]

end Rudy.Symbols
