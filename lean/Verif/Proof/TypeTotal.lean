import Verif.Model.TypeNames
/-
Reading a type name ends without a crash, and what it consumes: helper lemmas for Verif.Props.OddNames.
-/
namespace Rudy.TypeNames
open Rudy Rudy.Layout Rudy.Expr

/-- How many angle brackets are left open after a token. -/
def Tok.net : Tok → Int
  | .punct c _ => if c = '<' then 1 else if c = '>' then -1 else 0
  | _ => 0

/-- How many angle brackets are left open after some tokens; those inside other brackets are not counted. -/
def netOf : List Tok → Int
  | [] => 0
  | t :: ts => t.net + netOf ts

theorem netOf_append (a b : List Tok) : netOf (a ++ b) = netOf a + netOf b := by
  induction a with
  | nil => simp [netOf]
  | cons x a ih => simp [netOf, ih]; omega

theorem toksSize_append (a b : List Tok) : toksSize (a ++ b) = toksSize a + toksSize b := by
  induction a with
  | nil => simp [toksSize]
  | cons x a ih => simp [toksSize, ih]; omega

theorem Tok.size_pos (t : Tok) : 0 < t.size := by cases t <;> simp only [Tok.size] <;> omega

theorem length_le_size (ts : List Tok) : ts.length ≤ toksSize ts := by
  induction ts with
  | nil => simp [toksSize]
  | cons t ts ih => have := t.size_pos; simp only [toksSize, List.length_cons]; omega

/-- From `ts` to `r`: some tokens were consumed, with at most as many opening as closing brackets. -/
def Eats (ts r : List Tok) : Prop := ∃ u, ts = u ++ r ∧ netOf u ≤ 0

theorem Eats.refl (ts : List Tok) : Eats ts ts := ⟨[], rfl, by simp [netOf]⟩

theorem Eats.trans {a b c : List Tok} (h1 : Eats a b) (h2 : Eats b c) : Eats a c := by
  obtain ⟨u, rfl, hu⟩ := h1
  obtain ⟨v, rfl, hv⟩ := h2
  exact ⟨u ++ v, by simp, by rw [netOf_append]; omega⟩

theorem Eats.cons {t : Tok} {a b : List Tok} (ht : t.net ≤ 0) (h : Eats a b) : Eats (t :: a) b := by
  obtain ⟨u, rfl, hu⟩ := h
  exact ⟨t :: u, rfl, by simp only [netOf]; omega⟩

theorem Eats.size {a b : List Tok} (h : Eats a b) : toksSize b ≤ toksSize a := by
  obtain ⟨u, rfl, _⟩ := h
  rw [toksSize_append]; omega

theorem Eats.length {a b : List Tok} (h : Eats a b) : b.length ≤ a.length := by
  obtain ⟨u, rfl, _⟩ := h
  simp

/-- A parser result on `ts`: no crash, and the tokens left are the end of `ts`. -/
def Fine {α : Type} (ts : List Tok) (x : Res (α × List Tok)) : Prop :=
  x ≠ .panic ∧ ∀ a r, x = .ok (a, r) → Eats ts r

theorem Fine.err {α : Type} (ts : List Tok) : Fine ts (.err : Res (α × List Tok)) := ⟨by simp, by simp⟩

theorem Fine.ok {α : Type} {ts r : List Tok} (a : α) (h : Eats ts r) : Fine ts (.ok (a, r)) :=
  ⟨by simp, by rintro _ _ ⟨⟩; exact h⟩

theorem Fine.orTry {α : Type} {ts : List Tok} {a : Res (α × List Tok)} {b : Unit → Res (α × List Tok)} (ha : Fine ts a) (hb : Fine ts (b ())) :
    Fine ts (orTry a b) := by
  cases a with
  | ok x => exact ha
  | err => exact hb
  | panic => exact absurd rfl ha.1

theorem Fine.bind {α β : Type} {ts ts' : List Tok} {x : Res (α × List Tok)} {f : α × List Tok → Res (β × List Tok)} (h : Fine ts' x)
    (hf : ∀ a r, Eats ts' r → Fine ts (f (a, r))) : Fine ts (x.bind f) := by
  cases x with
  | ok p => exact hf p.1 p.2 (h.2 p.1 p.2 rfl)
  | err => exact Fine.err _
  | panic => exact absurd rfl h.1

/-- The parser is fine on all token lists up to a size. -/
def FineTo {α : Type} (m : Nat) (p : P α) : Prop := ∀ ts, toksSize ts ≤ m → Fine ts (p ts)

/-- A separator. -/
def Separates (sep : List Tok → Option (List Tok)) : Prop :=
  ∀ ts r, sep ts = some r → Eats ts r ∧ r.length < ts.length

theorem separates_comma : Separates comma := by
  intro ts r h
  unfold comma at h
  split at h
  · cases h; exact ⟨(Eats.refl _).cons (by simp [Tok.net]), by simp⟩
  · cases h

theorem separates_plus : Separates plus := by
  intro ts r h
  unfold plus at h
  split at h
  · cases h; exact ⟨(Eats.refl _).cons (by simp [Tok.net]), by simp⟩
  · cases h

theorem separates_pathSep : Separates pathSep := by
  intro ts r h
  unfold pathSep at h
  split at h
  · cases h; exact ⟨((Eats.refl _).cons (by simp [Tok.net])).cons (by simp [Tok.net]), by simp; omega⟩
  · cases h

theorem fine_delimited {α : Type} {elem : P α} {sep : List Tok → Option (List Tok)} {m : Nat} (he : FineTo m elem) (hs : Separates sep) :
    ∀ k ts, ts.length < k → toksSize ts ≤ m → Fine ts (delimited elem sep k ts)
  | 0, _, h, _ => absurd h (by simp)
  | k + 1, ts, h, hm => by
    have h1 := he ts hm
    simp only [delimited]
    cases hx : elem ts with
    | panic => exact absurd hx h1.1
    | err => exact Fine.ok _ (Eats.refl _)
    | ok p =>
      obtain ⟨a, r⟩ := p
      have h2 := h1.2 a r hx
      simp only
      cases hr : sep r with
      | none => exact Fine.ok _ h2
      | some r' =>
        obtain ⟨h3, h4⟩ := hs r r' hr
        have := h2.length
        have := h2.size
        have := h3.size
        simp only
        exact Fine.bind (fine_delimited he hs k r' (by omega) (by omega)) fun as r'' h5 => Fine.ok _ ((h2.trans h3).trans h5)

theorem fine_delimitedVec {α : Type} (lib : Lib) {elem : P α} {sep : List Tok → Option (List Tok)} {m : Nat} (he : FineTo m elem)
    (hs : Separates sep) : FineTo m (delimitedVec lib elem sep) := by
  intro ts hm
  simp only [delimitedVec]
  refine Fine.bind (fine_delimited he hs _ ts (by omega) hm) fun as r h => ?_
  simp only
  split
  · exact Fine.err _
  · exact Fine.ok _ h

theorem whole_fine {α : Type} {x : Res (α × List Tok)} {ts : List Tok} (h : Fine ts x) : whole x ≠ .panic := by
  unfold whole
  split <;> simp_all [Fine]

/-- What the end of an angle bracket leaves. -/
theorem angle_some : ∀ d ts inner r, angle d ts = some (inner, r) → ts = inner ++ r ∧ netOf inner = -(d : Int) - 1
  | d, [], inner, r, h => by simp [angle] at h
  | d, t :: ts, inner, r, h => by
    by_cases h1 : ∃ j, t = .punct '>' j
    · obtain ⟨j, rfl⟩ := h1
      cases d with
      | zero =>
        simp only [angle, Option.some.injEq, Prod.mk.injEq] at h
        obtain ⟨rfl, rfl⟩ := h
        exact ⟨rfl, by simp [netOf, Tok.net]⟩
      | succ d =>
        simp only [angle, Option.map_eq_some_iff, Prod.exists, Prod.mk.injEq] at h
        obtain ⟨a, b, h2, rfl, rfl⟩ := h
        obtain ⟨h3, h4⟩ := angle_some d ts a b h2
        exact ⟨by rw [h3]; rfl, by simp [netOf, Tok.net, h4]; omega⟩
    · by_cases h2 : ∃ j, t = .punct '<' j
      · obtain ⟨j, rfl⟩ := h2
        simp only [angle, Option.map_eq_some_iff, Prod.exists, Prod.mk.injEq] at h
        obtain ⟨a, b, h2, rfl, rfl⟩ := h
        obtain ⟨h3, h4⟩ := angle_some (d + 1) ts a b h2
        exact ⟨by rw [h3]; rfl, by simp [netOf, Tok.net, h4]; omega⟩
      · have hn : t.net = 0 := by
          cases t with
          | punct c j =>
            have a1 : c ≠ '>' := fun e => h1 ⟨j, by rw [e]⟩
            have a2 : c ≠ '<' := fun e => h2 ⟨j, by rw [e]⟩
            simp [Tok.net, a1, a2]
          | _ => rfl
        have h' : (angle d ts).map (fun x => (t :: x.1, x.2)) = some (inner, r) := by
          rw [angle.eq_def] at h
          split at h
          · cases ‹_ :: _ = []›
          · rename_i heq; cases heq; exact absurd ⟨_, rfl⟩ h1
          · rename_i heq; cases heq; exact absurd ⟨_, rfl⟩ h2
          · rename_i heq; cases heq; exact h
        simp only [Option.map_eq_some_iff, Prod.exists, Prod.mk.injEq] at h'
        obtain ⟨a, b, h2, rfl, rfl⟩ := h'
        obtain ⟨h3, h4⟩ := angle_some d ts a b h2
        exact ⟨by rw [h3]; rfl, by simp [netOf, hn, h4]⟩

theorem fine_angle {ts inner r : List Tok} {j : Bool} (h : angle 0 ts = some (inner, r)) : Eats (.punct '<' j :: ts) r := by
  obtain ⟨h1, h2⟩ := angle_some 0 ts inner r h
  exact ⟨.punct '<' j :: inner, by rw [h1]; rfl, by simp [netOf, Tok.net, h2]⟩

theorem fine_shim {ts r : List Tok} (h : Eats ts r) : Eats ts (vtableShim r).2 := by
  unfold vtableShim
  split
  · split
    · exact h.trans ((Eats.refl _).cons (by simp [Tok.net]))
    · exact h
  · exact h

section
variable (lib : Lib) {ty : P Ty} {m : Nat} (ht : FineTo m ty)
include ht

theorem fine_generics : FineTo (m + 1) (generics lib ty) := by
  intro ts hm
  unfold generics
  split
  · rename_i j r
    have hr : toksSize r ≤ m := by simp only [toksSize, Tok.size] at hm; omega
    have h1 := fine_delimitedVec lib ht separates_comma r hr
    cases hx : delimitedVec lib ty comma r with
    | panic => exact absurd hx h1.1
    | err =>
      simp only [Res.bind]
      split
      · exact Fine.ok _ (fine_angle ‹_›)
      · exact Fine.ok _ (Eats.refl _)
    | ok p =>
      obtain ⟨as, r'⟩ := p
      have h2 := h1.2 _ _ hx
      simp only [Res.bind]
      split
      · rename_i heq
        split at heq
        · rename_i h3
          cases h3
          cases heq
          obtain ⟨u, rfl, hu⟩ := h2
          refine Fine.ok _ ⟨.punct '<' j :: u ++ [.punct '>' _], by simp; rfl, ?_⟩
          rw [netOf_append]
          simp only [netOf, Tok.net]
          simp
          omega
        · cases heq
      · rename_i heq
        split at heq <;> cases heq
      · split
        · exact Fine.ok _ (fine_angle ‹_›)
        · exact Fine.ok _ (Eats.refl _)
  · exact Fine.ok _ (Eats.refl _)

theorem fine_segment : FineTo (m + 1) (segment lib ty) := by
  intro ts hm
  unfold segment
  split
  · rename_i s r
    refine Fine.bind (fine_generics lib ht r (by simp only [toksSize, Tok.size] at hm; omega)) fun g r' h => ?_
    exact Fine.ok _ (fine_shim (h.cons (by simp [Tok.net])))
  · split
    · exact Fine.ok _ (fine_angle ‹_›)
    · exact Fine.err _
  · split
    · exact Fine.ok _ ((Eats.refl _).cons (by simp [Tok.net]))
    · exact Fine.err _
  · split
    · rename_i n r _
      have : whole (number n) ≠ .panic := by
        apply whole_fine (ts := n)
        unfold number
        split
        · split
          · exact Fine.ok _ ((Eats.refl _).cons (by simp [Tok.net]))
          · exact Fine.err _
        · exact Fine.err _
      cases hx : whole (number n) with
      | panic => exact absurd hx this
      | err => exact Fine.err _
      | ok a => exact Fine.ok _ ((Eats.refl _).cons (by simp [Tok.net]))
    · exact Fine.err _
  · exact Fine.err _

omit ht in
theorem fine_group {α : Type} {p : P α} {f : α → Ty} (hp : FineTo m p) (d : Delim) (g r : List Tok) (hm : toksSize (.group d g :: r) ≤ m + 1) :
    Fine (.group d g :: r) ((whole (p g)).bind fun t => .ok (f t, r)) := by
  have h1 := hp g (by simp only [toksSize, Tok.size] at hm; omega)
  have h2 := whole_fine h1
  cases hx : whole (p g) with
  | panic => exact absurd hx h2
  | err => exact Fine.err _
  | ok a => exact Fine.ok _ ((Eats.refl _).cons (by simp [Tok.net]))

theorem fine_optSize : FineTo m (optSize ty) := by
  intro ts hm
  unfold optSize
  split
  · rename_i j r
    have hr : toksSize r ≤ m := by simp only [toksSize, Tok.size] at hm; omega
    refine Fine.orTry ?_ (Fine.ok _ (Eats.refl _))
    unfold arraySize
    refine Fine.orTry ?_ ?_
    · unfold number
      split
      · split
        · exact Fine.ok _ (((Eats.refl _).cons (by simp [Tok.net])).cons (by simp [Tok.net]))
        · exact Fine.err _
      · exact Fine.err _
    · exact Fine.bind (ht r hr) fun t r' h => Fine.ok _ (h.cons (by simp [Tok.net]))
  · exact Fine.ok _ (Eats.refl _)

theorem fine_fnRet : FineTo m (fnRet ty) := by
  intro ts hm
  unfold fnRet
  split
  · rename_i j r
    have hr : toksSize r ≤ m := by simp only [toksSize, Tok.size] at hm; omega
    refine Fine.orTry ?_ (Fine.ok _ (Eats.refl _))
    exact Fine.bind (ht r hr) fun t r' h => Fine.ok _ ((h.cons (by simp [Tok.net])).cons (by simp [Tok.net]))
  · exact Fine.ok _ (Eats.refl _)

theorem fine_manyTypes : ∀ k ts, ts.length < k → toksSize ts ≤ m → Fine ts (manyTypes ty k ts)
  | 0, _, h, _ => absurd h (by simp)
  | k + 1, ts, h, hm => by
    have h1 := ht ts hm
    simp only [manyTypes]
    cases hx : ty ts with
    | panic => exact absurd hx h1.1
    | err => exact Fine.ok _ (Eats.refl _)
    | ok p =>
      obtain ⟨a, r⟩ := p
      have h2 := h1.2 a r hx
      simp only
      cases hr : comma r with
      | none => exact Fine.ok _ (Eats.refl _)
      | some r' =>
        obtain ⟨h3, h4⟩ := separates_comma r r' hr
        have := h2.length
        have := h2.size
        have := h3.size
        simp only
        exact Fine.bind (fine_manyTypes k r' (by omega) (by omega)) fun as r'' h5 => Fine.ok _ ((h2.trans h3).trans h5)

theorem fine_tuple : FineTo (m + 1) (tupleTy ty) := by
  intro ts hm
  unfold tupleTy
  split
  · rename_i g r
    have hg : toksSize g ≤ m := by simp only [toksSize, Tok.size] at hm; omega
    have he : Eats (.group .paren g :: r) r := (Eats.refl _).cons (by simp [Tok.net])
    split
    · exact Fine.ok _ he
    · have key : orTry ((ty g).bind fun (t, g') => if lastComma g' then .ok [t] else .err) (fun _ =>
        (manyTypes ty (g.length + 1) g).bind fun (as, g') =>
          if as.isEmpty then .err
          else (ty g').bind fun (t, g'') => if lastComma g'' then .ok (as ++ [t]) else .err) ≠ .panic := by
        have h1 := ht g hg
        have h2 := fine_manyTypes ht (g.length + 1) g (by omega) hg
        have second : ((manyTypes ty (g.length + 1) g).bind fun (as, g') =>
          if as.isEmpty then .err
          else (ty g').bind fun (t, g'') => if lastComma g'' then .ok (as ++ [t]) else .err) ≠ .panic := by
          cases hx : manyTypes ty (g.length + 1) g with
          | panic => exact absurd hx h2.1
          | err => simp [Res.bind]
          | ok p =>
            obtain ⟨as, g'⟩ := p
            have h3 := (h2.2 _ _ hx).size
            have h4 := ht g' (by omega)
            simp only [Res.bind]
            split
            · simp
            · cases hy : ty g' with
              | panic => exact absurd hy h4.1
              | err => simp
              | ok q => simp only; split <;> simp
        cases hx : ty g with
        | panic => exact absurd hx h1.1
        | err => simpa only [Res.bind, orTry] using second
        | ok p =>
          simp only [Res.bind]
          split
          · simp [orTry]
          · simpa only [Res.bind, orTry] using second
      revert key
      generalize orTry _ _ = x
      intro key
      cases x with
      | panic => exact absurd rfl key
      | err => exact Fine.err _
      | ok as => exact Fine.ok _ he
  · exact Fine.err _

omit ht in
theorem fine_optMut {ts r : List Tok} (h : Eats (optMut ts).2 r) : Eats ts r := by
  unfold optMut at h
  split at h
  · split at h
    · exact h.cons (by simp [Tok.net])
    · exact h
  · exact h

omit ht in
theorem optMut_size (ts : List Tok) : toksSize (optMut ts).2 ≤ toksSize ts := by
  unfold optMut
  split
  · split <;> simp [toksSize]
  · exact Nat.le_refl _

omit ht in
theorem optUnsafe_eats (ts : List Tok) : Eats ts (optUnsafe ts).2 := by
  unfold optUnsafe
  split
  · split
    · exact (Eats.refl _).cons (by simp [Tok.net])
    · exact Eats.refl _
  · exact Eats.refl _

theorem fine_alternatives : FineTo (m + 1) (alternatives lib ty) := by
  intro ts hm
  unfold alternatives
  refine Fine.orTry ?_ (Fine.orTry ?_ (Fine.orTry ?_ (Fine.orTry ?_ (Fine.orTry ?_ (Fine.orTry ?_ (Fine.orTry ?_ (Fine.orTry ?_ (Fine.orTry ?_ ?_))))))))
  · unfold sliceTy
    split
    · rename_i j g r
      have h := fine_group ht (f := Ty.slice) .bracket g r (by simp only [toksSize, Tok.size] at hm ⊢; omega)
      exact ⟨h.1, fun a r' h' => (h.2 a r' h').cons (by simp [Tok.net])⟩
    · exact Fine.err _
  · unfold strTy
    split
    · split
      · exact Fine.ok _ (((Eats.refl _).cons (by simp [Tok.net])).cons (by simp [Tok.net]))
      · exact Fine.err _
    · exact Fine.err _
  · unfold refTy
    split
    · rename_i j r
      have := optMut_size r
      exact Fine.bind (ht _ (by simp only [toksSize, Tok.size] at hm; omega)) fun t r' h =>
        Fine.ok _ ((fine_optMut h).cons (by simp [Tok.net]))
    · exact Fine.err _
  · unfold neverTy
    split
    · exact Fine.ok _ ((Eats.refl _).cons (by simp [Tok.net]))
    · exact Fine.err _
  · unfold arrayTy
    split
    · rename_i g r
      have hp : FineTo m (fun g => (ty g).bind fun (t, g') => (optSize ty g').bind fun (n, g'') => .ok (Ty.array t n, g'')) := by
        intro g hg
        refine Fine.bind (ht g hg) fun t g' h => ?_
        have := h.size
        exact Fine.bind (fine_optSize ht g' (by omega)) fun n g'' h' => Fine.ok _ (h.trans h')
      exact fine_group hp (f := id) .bracket g r hm
    · exact Fine.err _
  · unfold fnTy
    have h0 := optUnsafe_eats ts
    have h0s := h0.size
    revert h0 h0s
    generalize (optUnsafe ts).2 = us
    intro h0 h0s
    split
    · rename_i s g r
      split
      · simp only [toksSize, Tok.size] at h0s
        have h1 := whole_fine (fine_delimitedVec lib ht separates_comma g (by omega))
        cases hx : whole (delimitedVec lib ty comma g) with
        | panic => exact absurd hx h1
        | err => exact Fine.err _
        | ok as =>
          exact Fine.bind (fine_fnRet ht r (by omega)) fun ret r' h => Fine.ok _ (h0.trans ((h.cons (by simp [Tok.net])).cons (by simp [Tok.net])))
      · exact Fine.err _
    · exact Fine.err _
  · unfold dynTy
    split
    · rename_i s r
      split
      · exact Fine.bind (fine_delimitedVec lib ht separates_plus r (by simp only [toksSize, Tok.size] at hm; omega)) fun as r' h =>
          Fine.ok _ (h.cons (by simp [Tok.net]))
      · exact Fine.err _
    · exact Fine.err _
  · exact fine_tuple ht ts hm
  · unfold ptrTy
    split
    · rename_i j s r
      have hr : toksSize r ≤ m := by simp only [toksSize, Tok.size] at hm; omega
      split
      · exact Fine.bind (ht r hr) fun t r' h => Fine.ok _ ((h.cons (by simp [Tok.net])).cons (by simp [Tok.net]))
      · split
        · exact Fine.bind (ht r hr) fun t r' h => Fine.ok _ ((h.cons (by simp [Tok.net])).cons (by simp [Tok.net]))
        · exact Fine.err _
    · exact Fine.err _
  · unfold pathTy
    exact Fine.bind (fine_delimitedVec lib (fine_segment lib ht) separates_pathSep ts hm) fun as r' h => Fine.ok _ h

end

theorem typeP_nil (lib : Lib) : Fine [] (typeP lib 1 []) := by
  obtain ⟨lx, e, r⟩ := lib
  cases e
  · exact Fine.err _
  · exact Fine.ok (Ty.path .nil) (Eats.refl _)

theorem fine_typeP (lib : Lib) : ∀ n, FineTo n (typeP lib (n + 1))
  | 0 => by
    intro ts hm
    cases ts with
    | nil => exact typeP_nil lib
    | cons t ts => have := t.size_pos; simp only [toksSize] at hm; omega
  | n + 1 => fine_alternatives lib (fine_typeP lib n)

theorem dropWhile_length {α : Type} (p : α → Bool) (l : List α) : (l.dropWhile p).length ≤ l.length :=
  (List.dropWhile_sublist p).length_le

/-- A text has at least as many characters as tokens. -/
theorem lex_size : ∀ n s ts rest, lex n s = some (ts, rest) → toksSize ts + rest.length ≤ s.length
  | 0, _, _, _, h => by simp [lex] at h
  | n + 1, s, ts, rest, h => by
    have hd := dropWhile_length isWhite s
    simp only [lex] at h
    split at h
    · cases h; simp [toksSize]
    · rename_i c cs hc
      rw [hc] at hd
      simp only [List.length_cons] at hd
      have hw := dropWhile_length isWord cs
      split at h
      · cases h; simp only [toksSize, List.length_cons]; omega
      · split at h
        · rename_i d hd'
          split at h
          · rename_i inner c' rest' hi
            have h1 := lex_size n _ _ _ hi
            split at h
            · simp only [Option.map_eq_some_iff, Prod.exists, Prod.mk.injEq] at h
              obtain ⟨a, b, h2, rfl, rfl⟩ := h
              have h3 := lex_size n _ _ _ h2
              simp only [List.length_cons] at h1
              simp only [toksSize, Tok.size]
              omega
            · cases h
          · cases h
        · split at h
          · split at h
            · cases h
            · simp only [Option.map_eq_some_iff, Prod.exists, Prod.mk.injEq] at h
              obtain ⟨a, b, h2, rfl, rfl⟩ := h
              have h3 := lex_size n _ _ _ h2
              simp only [toksSize, Tok.size]
              omega
          · split at h
            · split at h
              · simp only [Option.map_eq_some_iff, Prod.exists, Prod.mk.injEq] at h
                obtain ⟨a, b, h2, rfl, rfl⟩ := h
                have h3 := lex_size n _ _ _ h2
                simp only [toksSize, Tok.size]
                omega
              · cases h
            · split at h
              · simp only [Option.map_eq_some_iff, Prod.exists, Prod.mk.injEq] at h
                obtain ⟨a, b, h2, rfl, rfl⟩ := h
                have h3 := lex_size n _ _ _ h2
                simp only [toksSize, Tok.size]
                omega
              · cases h

theorem lexPlain_size {s : Str} {ts : List Tok} (h : lexPlain s = some ts) : toksSize ts ≤ s.length := by
  unfold lexPlain at h
  split at h
  · rename_i heq
    cases h
    have := lex_size _ _ _ _ heq
    simpa using this
  · cases h

/-- No more closing than opening angle brackets up to any point, and as many at the end. -/
def Balanced (g : List Tok) : Prop := netOf g = 0 ∧ ∀ a b, g = a ++ b → 0 ≤ netOf a

/-- The bracket that closes an angle bracket is the first that leaves less open than before. -/
theorem angle_end (g r : List Tok) (j : Bool) (d : Nat) (hg : netOf g = -(d : Int)) (hp : ∀ a b, g = a ++ b → -(d : Int) ≤ netOf a) :
    angle d (g ++ .punct '>' j :: r) = some (g ++ [.punct '>' j], r) := by
  induction g generalizing d with
  | nil =>
    have : d = 0 := by simp [netOf] at hg; omega
    subst this
    rfl
  | cons t g ih =>
    have step : ∀ d' : Nat, (d' : Int) = d + t.net →
        angle d' (g ++ .punct '>' j :: r) = some (g ++ [.punct '>' j], r) := by
      intro d' hd'
      apply ih
      · simp only [netOf] at hg; omega
      · intro a b hab
        have := hp (t :: a) b (by rw [hab]; rfl)
        simp only [netOf] at this
        omega
    by_cases h1 : ∃ j, t = .punct '>' j
    · obtain ⟨j', rfl⟩ := h1
      cases d with
      | zero =>
        have := hp [.punct '>' j'] g rfl
        simp [netOf, Tok.net] at this
      | succ d =>
        simp only [List.cons_append, angle]
        rw [step d (by simp [Tok.net]; omega)]
        rfl
    · by_cases h2 : ∃ j, t = .punct '<' j
      · obtain ⟨j', rfl⟩ := h2
        simp only [List.cons_append, angle]
        rw [step (d + 1) (by simp [Tok.net])]
        rfl
      · have hn : t.net = 0 := by
          cases t with
          | punct c j =>
            have a1 : c ≠ '>' := fun e => h1 ⟨j, by rw [e]⟩
            have a2 : c ≠ '<' := fun e => h2 ⟨j, by rw [e]⟩
            simp [Tok.net, a1, a2]
          | _ => rfl
        rw [List.cons_append, angle.eq_def]
        split
        · cases ‹_ :: _ = []›
        · rename_i heq; cases heq; exact absurd ⟨_, rfl⟩ h1
        · rename_i heq; cases heq; exact absurd ⟨_, rfl⟩ h2
        · rename_i heq; cases heq
          rw [step _ (by omega)]
          rfl

/-- Generic arguments end at the bracket that closes them, whatever they are. -/
theorem generics_balanced (lib : Lib) {ty : P Ty} {m : Nat} (ht : FineTo m ty) (g : List Tok) (j j' : Bool) (hg : Balanced g)
    (hm : toksSize g + 1 ≤ m) :
    ∃ G, generics lib ty (.punct '<' j :: (g ++ [.punct '>' j'])) = .ok (G, []) := by
  have hm' : toksSize (g ++ [.punct '>' j']) ≤ m := by rw [toksSize_append]; simp only [toksSize, Tok.size]; omega
  have h1 := fine_delimitedVec lib ht separates_comma _ hm'
  have ha : angle 0 (g ++ [.punct '>' j']) = some (g ++ [.punct '>' j'], []) :=
    angle_end g [] j' 0 (by simpa using hg.1) (by simpa using hg.2)
  simp only [generics]
  cases hx : delimitedVec lib ty comma (g ++ [.punct '>' j']) with
  | panic => exact absurd hx h1.1
  | err => simp only [Res.bind, ha]; exact ⟨_, rfl⟩
  | ok p =>
    obtain ⟨as, r'⟩ := p
    obtain ⟨u, hu, hn⟩ := h1.2 _ _ hx
    by_cases h2 : ∃ jj r'', r' = .punct '>' jj :: r''
    · obtain ⟨jj, r'', rfl⟩ := h2
      have : r'' = [] := by
        rcases List.eq_nil_or_concat r'' with h3 | ⟨L, x, rfl⟩
        · exact h3
        · exfalso
          have h4 : g = (u ++ [.punct '>' jj]) ++ L := by
            have : g ++ [Tok.punct '>' j'] = ((u ++ [.punct '>' jj]) ++ L) ++ [x] := by rw [hu]; simp
            exact (List.append_inj' this (by simp)).1
          have := hg.2 _ _ h4
          rw [netOf_append] at this
          simp [netOf, Tok.net] at this
          omega
      subst this
      exact ⟨.args (Tys.ofList as), rfl⟩
    · refine ⟨.raw (.punct '<' j :: (g ++ [.punct '>' j'])), ?_⟩
      simp only [Res.bind, ha]
      split
      · rename_i heq
        split at heq
        · rename_i h3; cases h3; exact absurd ⟨_, _, rfl⟩ h2
        · cases heq
      · rename_i heq; split at heq <;> cases heq
      · rfl

/-- Tokenizing (the external library) does not crash. -/
def Lib.Tokenizes (lib : Lib) : Prop := ∀ s, lib.lex s ≠ .panic

theorem bind_ne {α β : Type} {a : Res α} {f : α → Res β} (h1 : a ≠ .panic) (h2 : ∀ x, a = .ok x → f x ≠ .panic) : a.bind f ≠ .panic := by
  cases a with
  | ok x => exact h2 x rfl
  | err => simp [Res.bind]
  | panic => exact absurd rfl h1

theorem parseType_ne (lib : Lib) (s : Str) (h : lib.lex s ≠ .panic) : parseType lib s ≠ .panic :=
  bind_ne h fun ts _ => whole_fine (fine_typeP lib (s.length + toksSize ts + 1) ts (by omega))

end Rudy.TypeNames
