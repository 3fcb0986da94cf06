import Verif.Model.Expr
/-
The grammar of expressions (specification) and the parser against it: what the parser accepts is a
phrase of the grammar (soundness), every phrase is parsed back (completeness), and the bound on the
nesting used by the model is never reached.
-/
namespace Rudy.Expr
open Rudy Rudy.Data Rudy.Layout

/-- What a sequence of tokens can stand for. -/
inductive Phrase where
  /-- an expression -/
  | unary (e : Expr)
  /-- an expression without leading `*` or `&` -/
  | postfix (e : Expr)
  /-- an expression that also does not end in `.field`, `.method(..)` or `[index]` -/
  | primary (e : Expr)
  /-- the arguments between the parentheses of a call -/
  | args (es : List Expr)
  /-- the arguments after the first one, each with a comma before it -/
  | more (es : List Expr)
  /-- a type name -/
  | typ (s : Str)
  /-- the type names between angle brackets -/
  | typs (ss : List Str)
  /-- the type names after the first one -/
  | moreTyps (ss : List Str)

/-- `a::b::c`. -/
def pathToks (s : Str) (ss : List Str) : List Token :=
  .ident s :: ss.flatMap fun x => [.pathSep, .ident x]

/-- The text `a::b::c`. -/
def pathText (s : Str) (ss : List Str) : Str := joinWith (chars! "::") (s :: ss)

/-- The grammar of expressions: prefix operators bind weaker than field access, calls and indexing, which
associate to the left. -/
inductive Spells : Phrase → List Token → Prop
  | deref {e u} : Spells (.unary e) u → Spells (.unary (.deref e)) (.star :: u)
  | addr {e u} : Spells (.unary e) u → Spells (.unary (.addrOf false e)) (.amp :: u)
  | addrMut {e u} : Spells (.unary e) u → Spells (.unary (.addrOf true e)) (.amp :: .mut :: u)
  | postfix {e u} : Spells (.postfix e) u → Spells (.unary e) u
  | primary {e u} : Spells (.primary e) u → Spells (.postfix e) u
  | field {e u f} : Spells (.postfix e) u → Spells (.postfix (.field e f)) (u ++ [.dot, .ident f])
  | method {e u f as v} : Spells (.postfix e) u → Spells (.args as) v →
      Spells (.postfix (.method e f as)) (u ++ .dot :: .ident f :: .lparen :: (v ++ [.rparen]))
  | index {e u i v} : Spells (.postfix e) u → Spells (.unary i) v →
      Spells (.postfix (.index e i)) (u ++ .lbracket :: (v ++ [.rbracket]))
  | var {s} : Spells (.primary (.var s)) [.ident s]
  | path {s t ss} : Spells (.primary (.path (s :: t :: ss))) (pathToks s (t :: ss))
  | generic {s ss ts u} : Spells (.typs ts) u →
      Spells (.primary (.generic (pathText s ss) ts)) (pathToks s ss ++ .langle :: (u ++ [.rangle]))
  | call {s ss as u} : Spells (.args as) u →
      Spells (.primary (.call (pathText s ss) as)) (pathToks s ss ++ .lparen :: (u ++ [.rparen]))
  | num {n} : Spells (.primary (.num n)) [.number n]
  | str {s} : Spells (.primary (.str s)) [.string s]
  | paren {e u} : Spells (.unary e) u → Spells (.primary (.paren e)) (.lparen :: (u ++ [.rparen]))
  | noArgs : Spells (.args []) []
  | args {a as u v} : Spells (.unary a) u → Spells (.more as) v → Spells (.args (a :: as)) (u ++ v)
  | noMore : Spells (.more []) []
  | more {a as u v} : Spells (.unary a) u → Spells (.more as) v → Spells (.more (a :: as)) (.comma :: (u ++ v))
  | typ {s ss} : Spells (.typ (pathText s ss)) (pathToks s ss)
  | typGeneric {s ss ts u} : Spells (.typs ts) u →
      Spells (.typ (pathText s ss ++ chars! "<" ++ joinWith (chars! ", ") ts ++ chars! ">"))
        (pathToks s ss ++ .langle :: (u ++ [.rangle]))
  | noTyps : Spells (.typs []) []
  | typs {a as u v} : Spells (.typ a) u → Spells (.moreTyps as) v → Spells (.typs (a :: as)) (u ++ v)
  | noMoreTyps : Spells (.moreTyps []) []
  | moreTyps {a as u v} : Spells (.typ a) u → Spells (.moreTyps as) v →
      Spells (.moreTyps (a :: as)) (.comma :: (u ++ v))

/-! ### Soundness -/

theorem expect_ok {t : Token} {ts r : List Token} (ht : t ≠ .eof) : expect t ts = .ok r ↔ ts = t :: r := by
  cases ts with
  | nil => simp [expect, ht]
  | cons u v =>
    simp only [expect]
    by_cases h : u = t <;> simp [h]

theorem pathLoop_ok : ∀ (ts : List Token) (ss : List Str) (r : List Token), pathLoop ts = .ok (ss, r) →
    ts = (ss.flatMap fun x => [.pathSep, .ident x]) ++ r ∧ r.head? ≠ some .pathSep := by
  intro ts
  induction ts using pathLoop.induct with
  | case1 s r ih =>
    intro ss r' h
    simp only [pathLoop, Res.bind_eq_ok] at h
    obtain ⟨⟨ss1, r1⟩, h1, h2⟩ := h
    cases h2
    obtain ⟨e1, e2⟩ := ih _ _ h1
    exact ⟨by simp [e1], e2⟩
  | case2 tail h =>
    intro ss r' h'
    rw [pathLoop] at h'
    · cases h'
    · intro s r e; exact h s r (by rw [e])
  | case3 ts h1 h2 =>
    intro ss r' h'
    rw [pathLoop] at h'
    · cases h'
      refine ⟨by simp, ?_⟩
      intro he
      cases ts with
      | nil => cases he
      | cons a b => simp at he; exact h2 b (by rw [he])
    · intro s r e; exact h1 s r e
    · intro t e; exact h2 t e

theorem type_sound (n : Nat) :
    (∀ ts s r, parseTypeName n ts = .ok (s, r) → ∃ u, ts = u ++ r ∧ Spells (.typ s) u) ∧
    (∀ ts ss r, parseTypeArgs n ts = .ok (ss, r) → ∃ u, ts = u ++ r ∧ Spells (.typs ss) u) ∧
    (∀ ts ss r, typeArgsLoop n ts = .ok (ss, r) → ∃ u, ts = u ++ r ∧ Spells (.moreTyps ss) u) := by
  induction n with
  | zero => simp [parseTypeName, parseTypeArgs, typeArgsLoop]
  | succ n ih =>
    obtain ⟨ih1, ih2, ih3⟩ := ih
    refine ⟨?_, ?_, ?_⟩
    · intro ts s r h
      unfold parseTypeName at h
      split at h
      · rename_i s0 ts
        rw [Res.bind_eq_ok] at h
        obtain ⟨⟨ss, ts'⟩, h1, h⟩ := h
        obtain ⟨e1, -⟩ := pathLoop_ok _ _ _ h1
        dsimp only at h
        split at h
        · rename_i r0
          simp only [Res.bind_eq_ok, Prod.exists] at h
          obtain ⟨args, r1, h2, r2, h3, h4⟩ := h
          rw [expect_ok (by simp)] at h3
          obtain ⟨u, e2, h5⟩ := ih2 _ _ _ h2
          cases h4
          exact ⟨pathToks s0 ss ++ Token.langle :: (u ++ [Token.rangle]), by simp [pathToks, e1, e2, h3], .typGeneric h5⟩
        · cases h
          exact ⟨pathToks s0 ss, by simp [pathToks, e1], .typ⟩
      · cases h
    · intro ts ss r h
      unfold parseTypeArgs at h
      split at h
      · cases h; exact ⟨[], rfl, .noTyps⟩
      · simp only [Res.bind_eq_ok, Prod.exists] at h
        obtain ⟨a, ts1, h1, as, ts2, h2, h3⟩ := h
        obtain ⟨u, e1, g1⟩ := ih1 _ _ _ h1
        obtain ⟨v, e2, g2⟩ := ih3 _ _ _ h2
        cases h3
        exact ⟨u ++ v, by simp [e1, e2], .typs g1 g2⟩
    · intro ts ss r h
      unfold typeArgsLoop at h
      split at h
      · simp only [Res.bind_eq_ok, Prod.exists] at h
        obtain ⟨a, ts1, h1, as, ts2, h2, h3⟩ := h
        obtain ⟨u, e1, g1⟩ := ih1 _ _ _ h1
        obtain ⟨v, e2, g2⟩ := ih3 _ _ _ h2
        cases h3
        exact ⟨Token.comma :: (u ++ v), by simp [e1, e2], .moreTyps g1 g2⟩
      · cases h; exact ⟨[], rfl, .noMoreTyps⟩

theorem parse_sound (n : Nat) :
    (∀ ts e r, parseUnary n ts = .ok (e, r) → ∃ u, ts = u ++ r ∧ Spells (.unary e) u) ∧
    (∀ ts e r, parsePostfix n ts = .ok (e, r) → ∃ u, ts = u ++ r ∧ Spells (.postfix e) u) ∧
    (∀ e0 ts e r, postfixLoop n e0 ts = .ok (e, r) →
      ∃ v, ts = v ++ r ∧ ∀ u, Spells (.postfix e0) u → Spells (.postfix e) (u ++ v)) ∧
    (∀ ts e r, parsePrimary n ts = .ok (e, r) → ∃ u, ts = u ++ r ∧ Spells (.primary e) u) ∧
    (∀ ts es r, parseArgs n ts = .ok (es, r) → ∃ u, ts = u ++ r ∧ Spells (.args es) u) ∧
    (∀ ts es r, argsLoop n ts = .ok (es, r) → ∃ u, ts = u ++ r ∧ Spells (.more es) u) := by
  induction n with
  | zero => simp [parseUnary, parsePostfix, postfixLoop, parsePrimary, parseArgs, argsLoop]
  | succ n ih =>
    obtain ⟨ih1, ih2, ih3, ih4, ih5, ih6⟩ := ih
    refine ⟨?_, ?_, ?_, ?_, ?_, ?_⟩
    · intro ts e r h
      unfold parseUnary at h
      split at h
      · simp only [Res.bind_eq_ok, Prod.exists] at h
        obtain ⟨a, ts1, h1, h3⟩ := h
        obtain ⟨u, e1, g1⟩ := ih1 _ _ _ h1
        cases h3
        exact ⟨_ :: u, by simp [e1], .deref g1⟩
      · simp only [Res.bind_eq_ok, Prod.exists] at h
        obtain ⟨a, ts1, h1, h3⟩ := h
        obtain ⟨u, e1, g1⟩ := ih1 _ _ _ h1
        cases h3
        exact ⟨_ :: _ :: u, by simp [e1], .addrMut g1⟩
      · simp only [Res.bind_eq_ok, Prod.exists] at h
        obtain ⟨a, ts1, h1, h3⟩ := h
        obtain ⟨u, e1, g1⟩ := ih1 _ _ _ h1
        cases h3
        exact ⟨_ :: u, by simp [e1], .addr g1⟩
      · obtain ⟨u, e1, g1⟩ := ih2 _ _ _ h
        exact ⟨u, e1, .postfix g1⟩
    · intro ts e r h
      unfold parsePostfix at h
      simp only [Res.bind_eq_ok, Prod.exists] at h
      obtain ⟨a, ts1, h1, h2⟩ := h
      obtain ⟨u, e1, g1⟩ := ih4 _ _ _ h1
      obtain ⟨v, e2, g2⟩ := ih3 _ _ _ _ h2
      exact ⟨u ++ v, by simp [e1, e2], g2 u (.primary g1)⟩
    · intro e0 ts e r h
      unfold postfixLoop at h
      split at h
      · rename_i f r0
        simp only [Res.bind_eq_ok, Prod.exists] at h
        obtain ⟨args, r1, h2, r2, h3, h4⟩ := h
        rw [expect_ok (by simp)] at h3
        obtain ⟨v, e2, g2⟩ := ih5 _ _ _ h2
        obtain ⟨w, e3, g3⟩ := ih3 _ _ _ _ h4
        refine ⟨Token.dot :: .ident f :: .lparen :: (v ++ [.rparen]) ++ w, by simp [e2, h3, e3], ?_⟩
        intro u g
        have := g3 _ (.method (f := f) g g2)
        simpa using this
      · rename_i f r0 _
        obtain ⟨w, e3, g3⟩ := ih3 _ _ _ _ h
        refine ⟨[.dot, .ident f] ++ w, by simp [e3], ?_⟩
        intro u g
        have := g3 _ (.field (f := f) g)
        simpa using this
      · cases h
      · rename_i r0
        simp only [Res.bind_eq_ok, Prod.exists] at h
        obtain ⟨i, r1, h2, r2, h3, h4⟩ := h
        rw [expect_ok (by simp)] at h3
        obtain ⟨v, e2, g2⟩ := ih1 _ _ _ h2
        obtain ⟨w, e3, g3⟩ := ih3 _ _ _ _ h4
        refine ⟨Token.lbracket :: (v ++ [.rbracket]) ++ w, by simp [e2, h3, e3], ?_⟩
        intro u g
        have := g3 _ (.index g g2)
        simpa using this
      · cases h
        exact ⟨[], rfl, fun u g => by simpa using g⟩
    · intro ts e r h
      unfold parsePrimary at h
      split at h
      · rename_i s0 ts
        rw [Res.bind_eq_ok] at h
        obtain ⟨⟨ss, ts'⟩, h1, h⟩ := h
        obtain ⟨e1, -⟩ := pathLoop_ok _ _ _ h1
        dsimp only at h
        split at h
        · rename_i r0
          simp only [Res.bind_eq_ok, Prod.exists] at h
          obtain ⟨args, r1, h2, r2, h3, h4⟩ := h
          rw [expect_ok (by simp)] at h3
          obtain ⟨u, e2, h5⟩ := (type_sound n).2.1 _ _ _ h2
          cases h4
          exact ⟨pathToks s0 ss ++ Token.langle :: (u ++ [Token.rangle]), by simp [pathToks, e1, e2, h3], .generic h5⟩
        · rename_i r0
          simp only [Res.bind_eq_ok, Prod.exists] at h
          obtain ⟨args, r1, h2, r2, h3, h4⟩ := h
          rw [expect_ok (by simp)] at h3
          obtain ⟨u, e2, h5⟩ := ih5 _ _ _ h2
          cases h4
          exact ⟨pathToks s0 ss ++ Token.lparen :: (u ++ [Token.rparen]), by simp [pathToks, e1, e2, h3], .call h5⟩
        · cases h
          cases ss with
          | nil => exact ⟨[.ident s0], by simp [e1], .var⟩
          | cons t ss => exact ⟨pathToks s0 (t :: ss), by simp [pathToks, e1], .path⟩
      · cases h; exact ⟨[_], rfl, .num⟩
      · cases h; exact ⟨[_], rfl, .str⟩
      · simp only [Res.bind_eq_ok, Prod.exists] at h
        obtain ⟨i, r1, h2, r2, h3, h4⟩ := h
        rw [expect_ok (by simp)] at h3
        obtain ⟨v, e2, g2⟩ := ih1 _ _ _ h2
        cases h4
        exact ⟨Token.lparen :: (v ++ [.rparen]), by simp [e2, h3], .paren g2⟩
      · cases h
    · intro ts ss r h
      unfold parseArgs at h
      split at h
      · cases h; exact ⟨[], rfl, .noArgs⟩
      · simp only [Res.bind_eq_ok, Prod.exists] at h
        obtain ⟨a, ts1, h1, as, ts2, h2, h3⟩ := h
        obtain ⟨u, e1, g1⟩ := ih1 _ _ _ h1
        obtain ⟨v, e2, g2⟩ := ih6 _ _ _ h2
        cases h3
        exact ⟨u ++ v, by simp [e1, e2], .args g1 g2⟩
    · intro ts ss r h
      unfold argsLoop at h
      split at h
      · simp only [Res.bind_eq_ok, Prod.exists] at h
        obtain ⟨a, ts1, h1, as, ts2, h2, h3⟩ := h
        obtain ⟨u, e1, g1⟩ := ih1 _ _ _ h1
        obtain ⟨v, e2, g2⟩ := ih6 _ _ _ h2
        cases h3
        exact ⟨Token.comma :: (u ++ v), by simp [e1, e2], .more g1 g2⟩
      · cases h; exact ⟨[], rfl, .noMore⟩

/-! ### The bound on the nesting is never reached -/

/-- The phrases that cannot be empty. -/
def NonEmpty (p : Phrase) (u : List Token) : Prop :=
    (match p with
     | .unary _ | .postfix _ | .primary _ | .typ _ => u ≠ []
     | _ => True)

theorem spells_ne_nil {p : Phrase} {u : List Token} (h : Spells p u) : NonEmpty p u := by
  induction h <;> simp_all [pathToks, NonEmpty]

theorem expect_noPanic (t : Token) (ts : List Token) : (expect t ts).NoPanic := by
  cases ts <;> (simp only [expect]; split <;> simp)

theorem bind_noPanic {α β : Type} {x : Res α} {f : α → Res β} (hx : x.NoPanic)
    (hf : ∀ a, x = .ok a → (f a).NoPanic) : (x.bind f).NoPanic := by
  cases x with
  | ok a => exact hf a rfl
  | err => trivial
  | panic => exact hx

theorem pathLoop_noPanic : ∀ ts : List Token, (pathLoop ts).NoPanic := by
  intro ts
  induction ts using pathLoop.induct with
  | case1 s r ih =>
    rw [pathLoop]
    exact bind_noPanic ih fun _ _ => trivial
  | case2 tail h =>
    rw [pathLoop]
    · trivial
    · intro s r e; exact h s r (by rw [e])
  | case3 ts h1 h2 =>
    rw [pathLoop]
    · trivial
    · intro s r e; exact h1 s r e
    · intro t e; exact h2 t e

theorem type_fuel (n : Nat) :
    (∀ ts, 2 * ts.length + 2 ≤ n → (parseTypeName n ts).NoPanic) ∧
    (∀ ts, 2 * ts.length + 3 ≤ n → (parseTypeArgs n ts).NoPanic) ∧
    (∀ ts, 2 * ts.length + 1 ≤ n → (typeArgsLoop n ts).NoPanic) := by
  induction n with
  | zero => exact ⟨by omega, by omega, by omega⟩
  | succ n ih =>
    obtain ⟨ih1, ih2, ih3⟩ := ih
    have name_lt : ∀ ts s r, parseTypeName n ts = .ok (s, r) → r.length < ts.length := by
      intro ts s r h
      obtain ⟨u, e, g⟩ := (type_sound n).1 _ _ _ h
      have := spells_ne_nil g
      cases u with
      | nil => simp [NonEmpty] at this
      | cons a b => simp [e]; omega
    refine ⟨?_, ?_, ?_⟩
    · intro ts hn
      unfold parseTypeName
      split
      · rename_i s0 ts
        refine bind_noPanic (pathLoop_noPanic _) ?_
        rintro ⟨ss, ts'⟩ h1
        obtain ⟨e1, -⟩ := pathLoop_ok _ _ _ h1
        have hl := congrArg List.length e1
        simp only [List.length_append, List.length_cons] at hl hn
        dsimp only
        split
        · simp only [List.length_cons] at hl
          refine bind_noPanic (ih2 _ (by omega)) fun _ _ => bind_noPanic (expect_noPanic _ _) fun _ _ => trivial
        · trivial
      · trivial
    · intro ts hn
      unfold parseTypeArgs
      split
      · trivial
      · refine bind_noPanic (ih1 _ (by omega)) ?_
        rintro ⟨a, ts1⟩ h1
        have := name_lt _ _ _ h1
        exact bind_noPanic (ih3 _ (by omega)) fun _ _ => trivial
    · intro ts hn
      unfold typeArgsLoop
      split
      · simp only [List.length_cons] at hn
        refine bind_noPanic (ih1 _ (by omega)) ?_
        rintro ⟨a, ts1⟩ h1
        have := name_lt _ _ _ h1
        exact bind_noPanic (ih3 _ (by omega)) fun _ _ => trivial
      · trivial

theorem parse_fuel (n : Nat) :
    (∀ ts, 4 * ts.length + 4 ≤ n → (parseUnary n ts).NoPanic) ∧
    (∀ ts, 4 * ts.length + 3 ≤ n → (parsePostfix n ts).NoPanic) ∧
    (∀ e ts, 4 * ts.length + 1 ≤ n → (postfixLoop n e ts).NoPanic) ∧
    (∀ ts, 4 * ts.length + 2 ≤ n → (parsePrimary n ts).NoPanic) ∧
    (∀ ts, 4 * ts.length + 5 ≤ n → (parseArgs n ts).NoPanic) ∧
    (∀ ts, 4 * ts.length + 1 ≤ n → (argsLoop n ts).NoPanic) := by
  induction n with
  | zero => exact ⟨by omega, by omega, by omega, by omega, by omega, by omega⟩
  | succ n ih =>
    obtain ⟨ih1, ih2, ih3, ih4, ih5, ih6⟩ := ih
    have len1 : ∀ ts e r, parseUnary n ts = .ok (e, r) → r.length < ts.length := by
      intro ts s r h
      obtain ⟨u, e, g⟩ := (parse_sound n).1 _ _ _ h
      have := spells_ne_nil g
      cases u with
      | nil => simp [NonEmpty] at this
      | cons a b => simp [e]; omega
    have len4 : ∀ ts e r, parsePrimary n ts = .ok (e, r) → r.length < ts.length := by
      intro ts s r h
      obtain ⟨u, e, g⟩ := (parse_sound n).2.2.2.1 _ _ _ h
      have := spells_ne_nil g
      cases u with
      | nil => simp [NonEmpty] at this
      | cons a b => simp [e]; omega
    have len5 : ∀ ts e r, parseArgs n ts = .ok (e, r) → r.length ≤ ts.length := by
      intro ts s r h
      obtain ⟨u, e, g⟩ := (parse_sound n).2.2.2.2.1 _ _ _ h
      simp [e]
    have lenE : ∀ t ts r, t ≠ Token.eof → expect t ts = .ok r → r.length < ts.length := by
      intro t ts r ht h
      rw [expect_ok ht] at h; simp [h]
    refine ⟨?_, ?_, ?_, ?_, ?_, ?_⟩
    · intro ts hn
      unfold parseUnary
      split
      · simp only [List.length_cons] at hn
        exact bind_noPanic (ih1 _ (by omega)) fun _ _ => trivial
      · simp only [List.length_cons] at hn
        exact bind_noPanic (ih1 _ (by omega)) fun _ _ => trivial
      · simp only [List.length_cons] at hn
        exact bind_noPanic (ih1 _ (by omega)) fun _ _ => trivial
      · exact ih2 _ (by omega)
    · intro ts hn
      unfold parsePostfix
      refine bind_noPanic (ih4 _ (by omega)) ?_
      rintro ⟨e, r⟩ h
      have := len4 _ _ _ h
      exact ih3 _ _ (by omega)
    · intro e ts hn
      unfold postfixLoop
      split
      · simp only [List.length_cons] at hn
        refine bind_noPanic (ih5 _ (by omega)) ?_
        rintro ⟨as, r⟩ h
        have h1 := len5 _ _ _ h
        refine bind_noPanic (expect_noPanic _ _) ?_
        intro r' h'
        have h2 := lenE _ _ _ (by simp) h'
        exact ih3 _ _ (by omega)
      · simp only [List.length_cons] at hn
        exact ih3 _ _ (by omega)
      · trivial
      · simp only [List.length_cons] at hn
        refine bind_noPanic (ih1 _ (by omega)) ?_
        rintro ⟨as, r⟩ h
        have h1 := len1 _ _ _ h
        refine bind_noPanic (expect_noPanic _ _) ?_
        intro r' h'
        have h2 := lenE _ _ _ (by simp) h'
        exact ih3 _ _ (by omega)
      · trivial
    · intro ts hn
      unfold parsePrimary
      split
      · rename_i s0 ts
        refine bind_noPanic (pathLoop_noPanic _) ?_
        rintro ⟨ss, ts'⟩ h1
        obtain ⟨e1, -⟩ := pathLoop_ok _ _ _ h1
        have hl := congrArg List.length e1
        simp only [List.length_append, List.length_cons] at hl hn
        dsimp only
        split
        · simp only [List.length_cons] at hl
          refine bind_noPanic ((type_fuel n).2.1 _ (by omega)) fun _ _ => bind_noPanic (expect_noPanic _ _) fun _ _ => trivial
        · simp only [List.length_cons] at hl
          refine bind_noPanic (ih5 _ (by omega)) fun _ _ => bind_noPanic (expect_noPanic _ _) fun _ _ => trivial
        · trivial
      · trivial
      · trivial
      · simp only [List.length_cons] at hn
        exact bind_noPanic (ih1 _ (by omega)) fun _ _ => bind_noPanic (expect_noPanic _ _) fun _ _ => trivial
      · trivial
    · intro ts hn
      unfold parseArgs
      split
      · trivial
      · refine bind_noPanic (ih1 _ (by omega)) ?_
        rintro ⟨a, ts1⟩ h1
        have := len1 _ _ _ h1
        exact bind_noPanic (ih6 _ (by omega)) fun _ _ => trivial
    · intro ts hn
      unfold argsLoop
      split
      · simp only [List.length_cons] at hn
        refine bind_noPanic (ih1 _ (by omega)) ?_
        rintro ⟨a, ts1⟩ h1
        have := len1 _ _ _ h1
        exact bind_noPanic (ih6 _ (by omega)) fun _ _ => trivial
      · trivial

theorem parseTokens_noPanic (ts : List Token) : (parseTokens ts).NoPanic :=
  bind_noPanic ((parse_fuel _).1 ts (Nat.le_refl _)) fun _ _ => trivial

/-! ### More nesting allowed never changes a result -/

/-- `b` is `a` unless `a` ran out of nesting. -/
def Above {α : Type} (a b : Res α) : Prop := a ≠ .panic → b = a

theorem Above.refl {α : Type} (a : Res α) : Above a a := fun _ => rfl

theorem Above.bind {α β : Type} {a b : Res α} {f g : α → Res β} (h : Above a b) (hf : ∀ x, Above (f x) (g x)) :
    Above (a.bind f) (b.bind g) := by
  intro hp
  have ha : a ≠ .panic := by intro e; rw [e] at hp; exact hp rfl
  rw [h ha]
  cases a with
  | ok x => exact hf x hp
  | err => rfl
  | panic => exact absurd rfl ha

theorem type_mono (n : Nat) :
    (∀ ts, Above (parseTypeName n ts) (parseTypeName (n + 1) ts)) ∧
    (∀ ts, Above (parseTypeArgs n ts) (parseTypeArgs (n + 1) ts)) ∧
    (∀ ts, Above (typeArgsLoop n ts) (typeArgsLoop (n + 1) ts)) := by
  induction n with
  | zero => exact ⟨fun _ h => absurd rfl h, fun _ h => absurd rfl h, fun _ h => absurd rfl h⟩
  | succ n ih =>
    obtain ⟨ih1, ih2, ih3⟩ := ih
    refine ⟨fun ts => ?_, fun ts => ?_, fun ts => ?_⟩
    · unfold parseTypeName
      split
      · refine Above.bind (.refl _) ?_
        rintro ⟨ss, ts⟩
        dsimp only
        split
        · exact Above.bind (ih2 _) fun _ => .refl _
        · exact .refl _
      · exact .refl _
    · unfold parseTypeArgs
      split
      · exact .refl _
      · exact Above.bind (ih1 _) fun _ => Above.bind (ih3 _) fun _ => .refl _
    · unfold typeArgsLoop
      split
      · exact Above.bind (ih1 _) fun _ => Above.bind (ih3 _) fun _ => .refl _
      · exact .refl _

theorem parse_mono (n : Nat) :
    (∀ ts, Above (parseUnary n ts) (parseUnary (n + 1) ts)) ∧
    (∀ ts, Above (parsePostfix n ts) (parsePostfix (n + 1) ts)) ∧
    (∀ e ts, Above (postfixLoop n e ts) (postfixLoop (n + 1) e ts)) ∧
    (∀ ts, Above (parsePrimary n ts) (parsePrimary (n + 1) ts)) ∧
    (∀ ts, Above (parseArgs n ts) (parseArgs (n + 1) ts)) ∧
    (∀ ts, Above (argsLoop n ts) (argsLoop (n + 1) ts)) := by
  induction n with
  | zero =>
    exact ⟨fun _ h => absurd rfl h, fun _ h => absurd rfl h, fun _ _ h => absurd rfl h, fun _ h => absurd rfl h,
      fun _ h => absurd rfl h, fun _ h => absurd rfl h⟩
  | succ n ih =>
    obtain ⟨ih1, ih2, ih3, ih4, ih5, ih6⟩ := ih
    refine ⟨fun ts => ?_, fun ts => ?_, fun e ts => ?_, fun ts => ?_, fun ts => ?_, fun ts => ?_⟩
    · unfold parseUnary
      split
      · exact Above.bind (ih1 _) fun _ => .refl _
      · exact Above.bind (ih1 _) fun _ => .refl _
      · exact Above.bind (ih1 _) fun _ => .refl _
      · exact ih2 _
    · unfold parsePostfix
      exact Above.bind (ih4 _) fun _ => ih3 _ _
    · unfold postfixLoop
      split
      · exact Above.bind (ih5 _) fun _ => Above.bind (.refl _) fun _ => ih3 _ _
      · exact ih3 _ _
      · exact .refl _
      · exact Above.bind (ih1 _) fun _ => Above.bind (.refl _) fun _ => ih3 _ _
      · exact .refl _
    · unfold parsePrimary
      split
      · refine Above.bind (.refl _) ?_
        rintro ⟨ss, ts⟩
        dsimp only
        split
        · exact Above.bind ((type_mono n).2.1 _) fun _ => .refl _
        · exact Above.bind (ih5 _) fun _ => .refl _
        · exact .refl _
      · exact .refl _
      · exact .refl _
      · exact Above.bind (ih1 _) fun _ => .refl _
      · exact .refl _
    · unfold parseArgs
      split
      · exact .refl _
      · exact Above.bind (ih1 _) fun _ => Above.bind (ih6 _) fun _ => .refl _
    · unfold argsLoop
      split
      · exact Above.bind (ih1 _) fun _ => Above.bind (ih6 _) fun _ => .refl _
      · exact .refl _

theorem parseUnary_mono {n m : Nat} (h : n ≤ m) (ts : List Token) : Above (parseUnary n ts) (parseUnary m ts) := by
  induction h with
  | refl => exact .refl _
  | @step m _ ih =>
    intro hp
    have e := ih hp
    have := (parse_mono m).1 ts (by rw [e]; exact hp)
    rw [this, e]

/-! ### Completeness -/

/-- The outcome for every large enough bound on the nesting. -/
def Ev {α : Type} (f : Nat → Res α) (r : Res α) : Prop := ∃ n0, ∀ n, n0 ≤ n → f n = r

theorem Ev.step {α : Type} {f g : Nat → Res α} {r : Res α} (h : Ev g r) (e : ∀ n, f (n + 1) = g n) : Ev f r := by
  obtain ⟨n0, h⟩ := h
  refine ⟨n0 + 1, fun n hn => ?_⟩
  obtain ⟨k, rfl⟩ : ∃ k, n = k + 1 := ⟨n - 1, by omega⟩
  rw [e]; exact h k (by omega)

theorem Ev.bind {α β : Type} {f : Nat → Res α} {a : α} {g : Nat → α → Res β} {r : Res β} (h : Ev f (.ok a))
    (hg : Ev (fun n => g n a) r) : Ev (fun n => (f n).bind (g n)) r := by
  obtain ⟨n0, h⟩ := h
  obtain ⟨n1, hg⟩ := hg
  refine ⟨max n0 n1, fun n hn => ?_⟩
  dsimp only
  rw [h n (by omega), Res.bind_ok]
  exact hg n (by omega)

theorem Ev.const {α : Type} (r : Res α) : Ev (fun _ => r) r := ⟨0, fun _ _ => rfl⟩

/-- The tokens that would continue an identifier or path. -/
def Opens : Option Token → Prop
  | some .lparen | some .langle | some .pathSep => True
  | _ => False

/-- The tokens that would continue any expression. -/
def Continues : Option Token → Prop
  | some .dot | some .lbracket => True
  | t => Opens t

theorem pathLoop_path (ss : List Str) (r : List Token) (h : r.head? ≠ some .pathSep) :
    pathLoop ((ss.flatMap fun x => [.pathSep, .ident x]) ++ r) = .ok (ss, r) := by
  induction ss with
  | nil =>
    simp only [List.flatMap_nil, List.nil_append]
    cases r with
    | nil => rfl
    | cons a b => cases a <;> first | rfl | exact absurd rfl h
  | cons s ss ih => simp [pathLoop, ih]

/-- The first token of an expression without prefix operator. -/
def Starts (p : Phrase) (u : List Token) : Prop :=
  match p with
  | .primary _ | .postfix _ =>
    ∃ t r, u = t :: r ∧ (t = .lparen ∨ (∃ s, t = .ident s) ∨ (∃ n, t = .number n) ∨ ∃ s, t = .string s)
  | .unary _ =>
    ∃ t r, u = t :: r ∧ (t = .star ∨ t = .amp ∨ t = .lparen ∨ (∃ s, t = .ident s) ∨ (∃ n, t = .number n) ∨ ∃ s, t = .string s)
  | .typ _ => ∃ s r, u = .ident s :: r
  | _ => True

theorem spells_starts {p : Phrase} {u : List Token} (h : Spells p u) : Starts p u := by
  induction h with
  | deref _ _ => exact ⟨_, _, rfl, by simp⟩
  | addr _ _ => exact ⟨_, _, rfl, by simp⟩
  | addrMut _ _ => exact ⟨_, _, rfl, by simp⟩
  | «postfix» _ ih => obtain ⟨t, r, e, h⟩ := ih; exact ⟨t, r, e, Or.inr (Or.inr h)⟩
  | primary _ ih => exact ih
  | field _ ih => obtain ⟨t, r, e, h⟩ := ih; exact ⟨t, _, by rw [e]; rfl, h⟩
  | method _ _ ih => obtain ⟨t, r, e, h⟩ := ih; exact ⟨t, _, by rw [e]; rfl, h⟩
  | index _ _ ih => obtain ⟨t, r, e, h⟩ := ih; exact ⟨t, _, by rw [e]; rfl, h⟩
  | var => exact ⟨_, _, rfl, by simp⟩
  | path => exact ⟨_, _, rfl, by simp⟩
  | generic _ => exact ⟨_, _, rfl, by simp⟩
  | call _ => exact ⟨_, _, rfl, by simp⟩
  | num => exact ⟨_, _, rfl, by simp⟩
  | str => exact ⟨_, _, rfl, by simp⟩
  | paren _ => exact ⟨_, _, rfl, by simp⟩
  | typ => exact ⟨_, _, rfl⟩
  | typGeneric _ => exact ⟨_, _, rfl⟩
  | _ => trivial

/-- What parsing a phrase gives back. -/
def Parses (p : Phrase) (u : List Token) : Prop :=
  match p with
  | .unary e => ∀ rest, ¬ Continues rest.head? → Ev (fun n => parseUnary n (u ++ rest)) (.ok (e, rest))
  | .postfix e => ∀ rest res, ¬ Opens rest.head? → Ev (fun n => postfixLoop n e rest) res →
      Ev (fun n => parsePostfix n (u ++ rest)) res
  | .primary e => ∀ rest, ¬ Opens rest.head? → Ev (fun n => parsePrimary n (u ++ rest)) (.ok (e, rest))
  | .args es => ∀ rest, Ev (fun n => parseArgs n (u ++ .rparen :: rest)) (.ok (es, .rparen :: rest))
  | .more es => ∀ rest, Ev (fun n => argsLoop n (u ++ .rparen :: rest)) (.ok (es, .rparen :: rest))
  | .typ s => ∀ rest, ¬ Opens rest.head? → Ev (fun n => parseTypeName n (u ++ rest)) (.ok (s, rest))
  | .typs ss => ∀ rest, Ev (fun n => parseTypeArgs n (u ++ .rangle :: rest)) (.ok (ss, .rangle :: rest))
  | .moreTyps ss => ∀ rest, Ev (fun n => typeArgsLoop n (u ++ .rangle :: rest)) (.ok (ss, .rangle :: rest))

theorem more_head {as : List Expr} {v : List Token} (h : Spells (.more as) v) (rest : List Token) :
    ¬ Continues (v ++ .rparen :: rest).head? := by
  cases h <;> simp [Continues, Opens]

theorem moreTyps_head {as : List Str} {v : List Token} (h : Spells (.moreTyps as) v) (rest : List Token) :
    ¬ Opens (v ++ .rangle :: rest).head? := by
  cases h <;> simp [Opens]

theorem parse_complete {p : Phrase} {u : List Token} (h : Spells p u) : Parses p u := by
  induction h with
  | deref _ ih =>
    intro rest hr
    exact Ev.step ((ih rest hr).bind (Ev.const _)) fun n => rfl
  | @addr e u hs ih =>
    intro rest hr
    obtain ⟨t, r, e, ht⟩ := spells_starts hs
    refine Ev.step (g := fun n => _) ((ih rest hr).bind (g := fun _ x => .ok (.addrOf false x.1, x.2)) (Ev.const _)) fun n => ?_
    subst e
    rcases ht with rfl | rfl | rfl | ⟨_, rfl⟩ | ⟨_, rfl⟩ | ⟨_, rfl⟩ <;> rfl
  | addrMut _ ih =>
    intro rest hr
    exact Ev.step ((ih rest hr).bind (Ev.const _)) fun n => rfl
  | @«postfix» e u hs ih =>
    intro rest hr
    have hno : ¬ Opens rest.head? := by
      intro h; apply hr; revert h; cases rest with
      | nil => exact id
      | cons a b => cases a <;> simp [Opens, Continues]
    have := ih rest (.ok (e, rest)) hno (by
      refine Ev.step (g := fun _ => .ok (e, rest)) (Ev.const _) fun n => ?_
      cases rest with
      | nil => rfl
      | cons a b => cases a <;> first | rfl | (simp [Continues] at hr))
    refine Ev.step this fun n => ?_
    obtain ⟨t, r, e, ht⟩ := spells_starts hs
    subst e
    rcases ht with rfl | ⟨_, rfl⟩ | ⟨_, rfl⟩ | ⟨_, rfl⟩ <;> rfl
  | primary _ ih =>
    intro rest res hr hl
    exact Ev.step ((ih rest hr).bind hl) fun n => rfl
  | @field e u f _ ih =>
    intro rest res hr hl
    rw [List.append_assoc]
    refine ih _ _ (by simp [Opens]) ?_
    refine Ev.step hl fun n => ?_
    cases rest with
    | nil => rfl
    | cons a b => cases a <;> first | rfl | (simp [Opens] at hr)
  | @method e u f as v _ _ ih1 ih2 =>
    intro rest res hr hl
    rw [List.append_assoc]
    refine ih1 _ _ (by simp [Opens]) ?_
    refine Ev.step (g := fun n => _) ((ih2 rest).bind (g := fun n x => (expect .rparen x.2).bind fun r => postfixLoop n (.method e f x.1) r) ?_) fun n => ?_
    · simpa [expect] using hl
    · simp [postfixLoop]
  | @index e u i v _ _ ih1 ih2 =>
    intro rest res hr hl
    rw [List.append_assoc]
    refine ih1 _ _ (by simp [Opens]) ?_
    refine Ev.step (g := fun n => _) ((ih2 (.rbracket :: rest) (by simp [Continues, Opens])).bind (g := fun n x => (expect .rbracket x.2).bind fun r => postfixLoop n (.index e x.1) r) ?_) fun n => ?_
    · simpa [expect] using hl
    · simp [postfixLoop]
  | @var s =>
    intro rest hr
    refine Ev.step (Ev.const _) fun n => ?_
    have h1 : pathLoop rest = .ok ([], rest) := by
      cases rest with
      | nil => rfl
      | cons a b => cases a <;> first | rfl | (simp [Opens] at hr)
    rw [List.cons_append, List.nil_append, parsePrimary, h1, Res.bind_ok]
    cases rest with
    | nil => rfl
    | cons a b => cases a <;> first | rfl | (simp [Opens] at hr)
  | @path s t ss =>
    intro rest hr
    refine Ev.step (Ev.const _) fun n => ?_
    have h1 := pathLoop_path (t :: ss) rest (by intro h; rw [h] at hr; exact hr trivial)
    rw [pathToks, List.cons_append, parsePrimary, h1, Res.bind_ok]
    cases rest with
    | nil => rfl
    | cons a b => cases a <;> first | rfl | (simp [Opens] at hr)
  | @generic s ss ts u _ ih =>
    intro rest hr
    refine Ev.step (g := fun n => _) ((ih rest).bind (g := fun n x => (expect .rangle x.2).bind fun r => .ok (.generic (pathText s ss) x.1, r)) (by simpa [expect] using Ev.const _)) fun n => ?_
    have h1 := pathLoop_path ss (.langle :: (u ++ .rangle :: rest)) (by simp)
    simp only [pathToks, List.append_assoc, List.cons_append, List.nil_append]
    rw [parsePrimary, h1, Res.bind_ok]
    rfl
  | @call s ss as u _ ih =>
    intro rest hr
    refine Ev.step (g := fun n => _) ((ih rest).bind (g := fun n x => (expect .rparen x.2).bind fun r => .ok (.call (pathText s ss) x.1, r)) (by simpa [expect] using Ev.const _)) fun n => ?_
    have h1 := pathLoop_path ss (.lparen :: (u ++ .rparen :: rest)) (by simp)
    simp only [pathToks, List.append_assoc, List.cons_append, List.nil_append]
    rw [parsePrimary, h1, Res.bind_ok]
    rfl
  | num => intro rest hr; exact Ev.step (Ev.const _) fun n => rfl
  | str => intro rest hr; exact Ev.step (Ev.const _) fun n => rfl
  | @paren e u _ ih =>
    intro rest hr
    refine Ev.step (g := fun n => _) ((ih (.rparen :: rest) (by simp [Continues, Opens])).bind (g := fun n x => (expect .rparen x.2).bind fun r => .ok (.paren x.1, r)) (by simpa [expect] using Ev.const _)) fun n => ?_
    simp [parsePrimary]
  | noArgs => intro rest; exact Ev.step (Ev.const _) fun n => rfl
  | @args a as u v h1 h2 ih1 ih2 =>
    intro rest
    refine Ev.step (g := fun n => _) ((ih1 (v ++ .rparen :: rest) (more_head h2 rest)).bind
      (g := fun n x => (argsLoop n x.2).bind fun y => .ok (x.1 :: y.1, y.2)) ((ih2 rest).bind (Ev.const _))) fun n => ?_
    rw [List.append_assoc]
    obtain ⟨t, r, e, ht⟩ := spells_starts h1
    subst e
    rcases ht with rfl | rfl | rfl | ⟨_, rfl⟩ | ⟨_, rfl⟩ | ⟨_, rfl⟩ <;> rfl
  | noMore => intro rest; exact Ev.step (Ev.const _) fun n => rfl
  | @more a as u v h1 h2 ih1 ih2 =>
    intro rest
    refine Ev.step (g := fun n => _) ((ih1 (v ++ .rparen :: rest) (more_head h2 rest)).bind
      (g := fun n x => (argsLoop n x.2).bind fun y => .ok (x.1 :: y.1, y.2)) ((ih2 rest).bind (Ev.const _))) fun n => ?_
    rw [List.cons_append, List.append_assoc]
    rfl
  | @typ s ss =>
    intro rest hr
    refine Ev.step (Ev.const _) fun n => ?_
    have h1 := pathLoop_path ss rest (by intro h; rw [h] at hr; exact hr trivial)
    rw [pathToks, List.cons_append, parseTypeName, h1, Res.bind_ok]
    cases rest with
    | nil => rfl
    | cons a b => cases a <;> first | rfl | (simp [Opens] at hr)
  | @typGeneric s ss ts u _ ih =>
    intro rest hr
    refine Ev.step (g := fun n => _) ((ih rest).bind (g := fun n x => (expect .rangle x.2).bind fun r => .ok (pathText s ss ++ chars! "<" ++ joinWith (chars! ", ") x.1 ++ chars! ">", r)) (by simpa [expect] using Ev.const _)) fun n => ?_
    have h1 := pathLoop_path ss (.langle :: (u ++ .rangle :: rest)) (by simp)
    simp only [pathToks, List.append_assoc, List.cons_append, List.nil_append]
    rw [parseTypeName, h1, Res.bind_ok]
    simp [pathText]
  | noTyps => intro rest; exact Ev.step (Ev.const _) fun n => rfl
  | @typs a as u v h1 h2 ih1 ih2 =>
    intro rest
    refine Ev.step (g := fun n => _) ((ih1 (v ++ .rangle :: rest) (moreTyps_head h2 rest)).bind
      (g := fun n x => (typeArgsLoop n x.2).bind fun y => .ok (x.1 :: y.1, y.2)) ((ih2 rest).bind (Ev.const _))) fun n => ?_
    rw [List.append_assoc]
    obtain ⟨t, r, e⟩ := spells_starts h1
    subst e
    rfl
  | noMoreTyps => intro rest; exact Ev.step (Ev.const _) fun n => rfl
  | @moreTyps a as u v h1 h2 ih1 ih2 =>
    intro rest
    refine Ev.step (g := fun n => _) ((ih1 (v ++ .rangle :: rest) (moreTyps_head h2 rest)).bind
      (g := fun n x => (typeArgsLoop n x.2).bind fun y => .ok (x.1 :: y.1, y.2)) ((ih2 rest).bind (Ev.const _))) fun n => ?_
    rw [List.cons_append, List.append_assoc]
    rfl

/-- A phrase followed by anything that does not continue it is parsed to its expression. -/
theorem parseTokens_complete {e : Expr} {u rest : List Token} (h : Spells (.unary e) u)
    (hr : ¬ Continues rest.head?) : parseTokens (u ++ rest) = .ok e := by
  obtain ⟨n0, hn⟩ := parse_complete h rest hr
  have h1 := parseUnary_mono (Nat.le_max_left (parserFuel (u ++ rest).length) n0) (u ++ rest)
    (by
      have := (parse_fuel _).1 (u ++ rest) (Nat.le_refl (parserFuel (u ++ rest).length))
      intro e; rw [e] at this; exact this)
  have h2 := hn (max (parserFuel (u ++ rest).length) n0) (Nat.le_max_right _ _)
  dsimp only at h2
  rw [h2] at h1
  simp only [parseTokens]
  rw [← h1]
  rfl

theorem parseTokens_sound {e : Expr} {ts : List Token} (h : parseTokens ts = .ok e) :
    ∃ u rest, ts = u ++ rest ∧ Spells (.unary e) u := by
  simp only [parseTokens, Res.bind_eq_ok] at h
  obtain ⟨⟨e', r⟩, h1, h2⟩ := h
  cases h2
  obtain ⟨u, h3, h4⟩ := (parse_sound _).1 _ _ _ h1
  exact ⟨u, r, h3, h4⟩

end Rudy.Expr
