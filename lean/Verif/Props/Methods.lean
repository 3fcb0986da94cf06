import Verif.Proof.Methods
/-
C44: method discovery.
-/
namespace Rudy.Discovery
open Rudy.Symbols Rudy.Dwarf Rudy.Parse Rudy.Layout Rudy.TypeRes Rudy.Modules

/-- The function entry `c` of file `f` has the linked function symbol `s` (by its linkage name). -/
def LinkedTo (w : World) (f c : Nat) (s : Symbol) : Prop :=
  ∃ d l n, (w.file f).entry c = some d ∧ d.attr .linkageName = some (.str l) ∧ w.demangle l = some n ∧
    w.index.getFunction n = some s

/-- The part of a signature after the parameters: nothing if the function has no return type or its name
is `()`, else an arrow and the name, or a question mark if the type does not resolve. -/
def ReturnText (w : World) (f c : Nat) (tail : Str) : Prop :=
  ((∀ r, ¬ Typed (w.file f) c r) ∧ tail = []) ∨
  ∃ r, Typed (w.file f) c r ∧
    ((∃ t, w.resolve f r = .ok t ∧ t.displayName = chars! "()" ∧ tail = []) ∨
     (∃ t, w.resolve f r = .ok t ∧ t.displayName ≠ chars! "()" ∧ tail = chars! " -> " ++ t.displayName) ∨
     (w.resolve f r = .err ∧ tail = chars! " -> ?"))

/-- How a method takes self, as it is written in Rust. -/
def receiver : Option SelfType → List Str
  | none => []
  | some .owned => [chars! "self"]
  | some .borrowed => [chars! "&self"]
  | some .borrowedMut => [chars! "&mut self"]

theorem receiver_eq (o : Option SelfType) : (o.map SelfType.text).toList = receiver o := by
  cases o with
  | none => rfl
  | some k => cases k <;> rfl

/-- What is added to the full name of a method in an impl block of a trait: the text between ` as ` in the name and the next
`::`, or just that it is from a trait. -/
def TraitNote (base note : Str) : Prop :=
  ((∀ a b, base ≠ a ++ chars! " as " ++ b) ∧ note = chars! " (from trait impl)") ∨
  ∃ a tr b, base = a ++ chars! " as " ++ tr ++ b ∧ (b = [] ∨ ∃ r, b = ':' :: ':' :: r) ∧ note = chars! " (from " ++ tr ++ chars! ")"

/-- The listed method `m` describes the function entry `c` of file `f`: its name, its address (0, and
not callable, if there is no symbol for it), its parameters after self, and its signature text. -/
structure Describes (w : World) (f c : Nat) (ps : List Param) (m : Method) : Prop where
  name : Named (w.file f) c m.name ∨ ((∀ n, ¬ Named (w.file f) c n) ∧ m.name = chars! "<anonymous>")
  linked : (∃ s, LinkedTo w f c s ∧ m.address = s.address ∧ m.callable = true) ∨
    ((∀ s, ¬ LinkedTo w f c s) ∧ m.address = 0 ∧ m.callable = false)
  fullName : ∃ base note, m.fullName = base ++ note ∧ (note = [] ∨ TraitNote base note) ∧
    ((∃ s, LinkedTo w f c s ∧ base = s.name.display) ∨ ((∀ s, ¬ LinkedTo w f c s) ∧ base = m.name ++ chars! "::(direct)"))
  params : m.params.map (·.1) = (ps.drop (if m.selfType.isSome then 1 else 0)).map (·.name)
  paramTypes : List.Forall₂ (fun (p : Param) (q : Option Str × TypeDef) =>
      w.resolve f p.ty = .ok q.2 ∨ w.resolve f p.ty = .err ∧ q.2.layout = .alias (chars! "unknown"))
    (ps.drop (if m.selfType.isSome then 1 else 0)) m.params
  real : m.synthetic = false
  signature : ∃ texts tail,
    m.signature = chars! "fn " ++ m.name ++ chars! "(" ++ commaSep (receiver m.selfType ++ texts) ++
      chars! ")" ++ tail ∧
    List.Forall₂ (fun (p : Param) (s : Str) => ∃ ty, s = p.name.getD (chars! "_") ++ chars! ": " ++ ty ∧
        ((∃ t, w.resolve f p.ty = .ok t ∧ ty = t.displayName) ∨ w.resolve f p.ty = .err ∧ ty = chars! "?"))
      (ps.drop (if m.selfType.isSome then 1 else 0)) texts ∧
    ReturnText w f c tail

theorem stringAttr_ok (db : Db) (c : Nat) (a : At) (l : Str) :
    stringAttr a db c = .ok l ↔ ∃ d, db.entry c = some d ∧ d.attr a = some (.str l) := by
  simp only [stringAttr]
  cases db.entry c with
  | none => simp
  | some d =>
    simp only [Die.stringAttr, Option.some.injEq, exists_eq_left']
    split
    · rename_i s hs; simp [hs]
    · rename_i hs
      constructor
      · intro h; cases h
      · intro h; exact absurd h (hs l)

theorem methodParams_ok (resolve : Nat → Res TypeDef) (ps : List Param) (rs : List (Option Str × TypeDef))
    (h : methodParams resolve ps = .ok rs) :
    rs.map (·.1) = ps.map (·.name) ∧ List.Forall₂ (fun (p : Param) (q : Option Str × TypeDef) =>
      resolve p.ty = .ok q.2 ∨ resolve p.ty = .err ∧ q.2.layout = .alias (chars! "unknown")) ps rs := by
  induction ps generalizing rs with
  | nil => cases h; exact ⟨rfl, .nil⟩
  | cons p ps ih =>
    simp only [methodParams] at h
    split at h
    · rename_i t ht
      simp only [Res.bind_eq_ok, Res.ok.injEq] at h
      obtain ⟨r, h1, rfl⟩ := h
      obtain ⟨h2, h3⟩ := ih r h1
      exact ⟨by simp [h2], .cons (Or.inl ht) h3⟩
    · rename_i ht
      simp only [Res.bind_eq_ok, Res.ok.injEq] at h
      obtain ⟨r, h1, rfl⟩ := h
      obtain ⟨h2, h3⟩ := ih r h1
      exact ⟨by simp [h2], .cons (Or.inr ⟨ht, rfl⟩) h3⟩
    · cases h

theorem methodParamTexts_ok (resolve : Nat → Res TypeDef) (ps : List Param) (rs : List Str)
    (h : methodParamTexts resolve ps = .ok rs) :
    List.Forall₂ (fun (p : Param) (s : Str) => ∃ ty, s = p.name.getD (chars! "_") ++ chars! ": " ++ ty ∧
        ((∃ t, resolve p.ty = .ok t ∧ ty = t.displayName) ∨ resolve p.ty = .err ∧ ty = chars! "?")) ps rs := by
  induction ps generalizing rs with
  | nil => cases h; exact .nil
  | cons p ps ih =>
    simp only [methodParamTexts, Res.bind_eq_ok, Res.ok.injEq] at h
    obtain ⟨s, hs, r, hr, rfl⟩ := h
    refine .cons ?_ (ih r hr)
    unfold methodParamText at hs
    split at hs
    · rename_i t ht
      cases hs
      exact ⟨_, rfl, Or.inl ⟨t, ht, rfl⟩⟩
    · rename_i ht
      cases hs
      exact ⟨chars! "?", by simp, Or.inr ⟨ht, rfl⟩⟩
    · cases hs

theorem methodRetText_ok (w : World) (f c : Nat) (ps : List Param) (ret : Option Nat) (tail : Str)
    (hd : Declares (w.file f) c ps ret) (h : methodRetText (w.resolve f) ret = .ok tail) : ReturnText w f c tail := by
  obtain ⟨_, hd⟩ := hd
  cases ret with
  | none =>
    cases h
    exact Or.inl ⟨fun r hr => (by simpa using (hd r).2 hr), rfl⟩
  | some r =>
    refine Or.inr ⟨r, (hd r).1 rfl, ?_⟩
    simp only [methodRetText] at h
    split at h
    · rename_i t ht
      simp only [Res.ok.injEq] at h
      subst h
      by_cases hu : t.displayName = chars! "()"
      · exact Or.inl ⟨t, ht, hu, by simp [retText, hu]⟩
      · exact Or.inr (Or.inl ⟨t, ht, hu, by simp [retText, hu]⟩)
    · rename_i ht
      cases h
      exact Or.inr (Or.inr ⟨ht, rfl⟩)
    · cases h

theorem linkedTo_iff (w : World) (f c : Nat) (s : Symbol) : LinkedTo w f c s ↔
    ((okOf (stringAttr .linkageName (w.file f) c)).bind w.demangle).bind w.index.getFunction = some s := by
  unfold LinkedTo
  constructor
  · rintro ⟨d, l, n, a1, a2, a3, a4⟩
    rw [(stringAttr_ok _ _ _ _).2 ⟨d, a1, a2⟩]
    simp [okOf, a3, a4]
  · intro hs
    cases hl : stringAttr .linkageName (w.file f) c with
    | ok l =>
      rw [hl] at hs
      simp only [okOf, Option.bind_some, Option.bind_eq_some_iff] at hs
      obtain ⟨n, hn, hs⟩ := hs
      obtain ⟨d, a1, a2⟩ := (stringAttr_ok _ _ _ _).1 hl
      exact ⟨d, l, n, a1, a2, hn, hs⟩
    | err => rw [hl] at hs; simp [okOf] at hs
    | panic => rw [hl] at hs; simp [okOf] at hs

theorem convert_plain (w : World) (t : Target) (f c : Nat) (i : FnInfo) (m : Method)
    (hi : functionInfo (w.file f) c = .ok i) (h : convert w t f i = .ok m) :
    (∃ s, LinkedTo w f c s ∧ m.fullName = s.name.display) ∨ ((∀ s, ¬ LinkedTo w f c s) ∧ m.fullName = m.name ++ chars! "::(direct)") := by
  simp only [convert, Res.bind_eq_ok, Res.ok.injEq] at h
  obtain ⟨self, h1, sig, hsig, ret, _, ps, h4, rfl⟩ := h
  simp only [functionInfo, parameterList, mapP, forEachChild, Res.bind_eq_ok, Res.ok.injEq] at hi
  obtain ⟨qs, _, rfl⟩ := hi
  simp only [linkOf]
  cases hs : ((okOf (stringAttr .linkageName (w.file f) c)).bind w.demangle).bind w.index.getFunction with
  | some s => exact Or.inl ⟨s, (linkedTo_iff w f c s).2 hs, rfl⟩
  | none =>
    refine Or.inr ⟨fun s hl => ?_, rfl⟩
    rw [(linkedTo_iff w f c s).1 hl] at hs; cases hs

theorem convert_describes (w : World) (t : Target) (f c : Nat) (i : FnInfo) (m : Method)
    (hi : functionInfo (w.file f) c = .ok i) (h : convert w t f i = .ok m) :
    Describes w f c i.params m ∧ ∀ k, m.selfType = some k ↔ TakesSelf w t f i.params k := by
  simp only [convert, Res.bind_eq_ok, Res.ok.injEq] at h
  obtain ⟨self, h1, sig, hsig, ret, _, ps, h4, rfl⟩ := h
  refine ⟨?_, selfOf_ok w t f i.params self h1⟩
  simp only [methodSignature, Res.bind_eq_ok, Res.ok.injEq] at hsig
  obtain ⟨texts, hx, tail, hy, rfl⟩ := hsig
  have hdecl := functionInfo_ok _ _ _ hi
  obtain ⟨h5, h6⟩ := methodParams_ok _ _ _ h4
  simp only [functionInfo, parameterList, mapP, forEachChild, Res.bind_eq_ok, Res.ok.injEq] at hi
  obtain ⟨qs, _, rfl⟩ := hi
  refine ⟨?_, ?_, ?_, h5, h6, rfl, texts, tail, by simp only [joinComma_eq, receiver_eq], methodParamTexts_ok _ _ _ hx,
    methodRetText_ok w f c _ _ tail hdecl hy⟩
  · show Named (w.file f) c ((okOf (dieName (w.file f) c)).getD _) ∨ _
    cases hd : dieName (w.file f) c with
    | ok n => exact Or.inl ((dieName_ok _ _ _).1 hd)
    | err =>
      refine Or.inr ⟨fun n hn => ?_, rfl⟩
      rw [(dieName_ok _ _ _).2 hn] at hd; cases hd
    | panic => exact absurd hd (dieName_no_panic _ _)
  · simp only [linkOf]
    cases hs : ((okOf (stringAttr .linkageName (w.file f) c)).bind w.demangle).bind w.index.getFunction with
    | some s => exact Or.inl ⟨s, (linkedTo_iff w f c s).2 hs, rfl, rfl⟩
    | none =>
      refine Or.inr ⟨fun s hl => ?_, rfl, rfl⟩
      rw [(linkedTo_iff w f c s).1 hl] at hs; cases hs
  · simp only [linkOf]
    cases hs : ((okOf (stringAttr .linkageName (w.file f) c)).bind w.demangle).bind w.index.getFunction with
    | some s => exact ⟨s.name.display, [], by simp, Or.inl rfl, Or.inl ⟨s, (linkedTo_iff w f c s).2 hs, rfl⟩⟩
    | none =>
      refine ⟨_, [], (List.append_nil _).symm, Or.inl rfl, Or.inr ⟨fun s hl => ?_, rfl⟩⟩
      rw [(linkedTo_iff w f c s).1 hl] at hs; cases hs

theorem withTrait_fields (m : Method) : (withTrait m).selfType = m.selfType ∧ (withTrait m).synthetic = m.synthetic ∧
    (withTrait m).name = m.name ∧ (withTrait m).address = m.address ∧ (withTrait m).callable = m.callable ∧
    (withTrait m).params = m.params ∧ (withTrait m).signature = m.signature := by
  unfold withTrait
  split <;> simp

theorem findText_some (pat s r : Str) (h : findText pat s = some r) : ∃ a, s = a ++ pat ++ r := by
  induction s with
  | nil =>
    simp only [findText] at h
    split at h
    · rename_i hp; subst hp; cases h; exact ⟨[], rfl⟩
    · cases h
  | cons c s ih =>
    simp only [findText] at h
    split at h
    · rename_i hp
      obtain ⟨t, ht⟩ := hp
      cases h
      exact ⟨[], by rw [← ht]; simp⟩
    · obtain ⟨a, ha⟩ := ih h
      exact ⟨c :: a, by rw [ha]; simp⟩

theorem findText_none (pat s : Str) (hp : pat ≠ []) (h : findText pat s = none) : ∀ a b, s ≠ a ++ pat ++ b := by
  induction s with
  | nil => intro a b hs; simp at hs; exact hp hs.2.1
  | cons c s ih =>
    intro a b hs
    simp only [findText] at h
    split at h
    · cases h
    · rename_i hn
      cases a with
      | nil => exact hn ⟨b, by simpa using hs.symm⟩
      | cons x a => simp only [List.cons_append, List.cons.injEq] at hs; exact ih h a b hs.2

theorem beforeColons_prefix (s : Str) : ∃ b, s = beforeColons s ++ b ∧ (b = [] ∨ ∃ r, b = ':' :: ':' :: r) := by
  induction s with
  | nil => exact ⟨[], rfl, Or.inl rfl⟩
  | cons c s ih =>
    simp only [beforeColons]
    split
    · rename_i hp
      obtain ⟨t, ht⟩ := hp
      exact ⟨c :: s, rfl, Or.inr ⟨t, ht.symm⟩⟩
    · obtain ⟨b, hb, hc⟩ := ih
      exact ⟨b, by rw [List.cons_append, ← hb], hc⟩

theorem withTrait_note (m : Method) : ∃ note, (withTrait m).fullName = m.fullName ++ note ∧ TraitNote m.fullName note := by
  unfold withTrait
  split
  · rename_i tr h
    simp only [traitOf, Option.map_eq_some_iff] at h
    obtain ⟨r, hr, rfl⟩ := h
    obtain ⟨a, ha⟩ := findText_some _ _ _ hr
    obtain ⟨b, hb, hc⟩ := beforeColons_prefix r
    refine ⟨chars! " (from " ++ beforeColons r ++ chars! ")", by simp, Or.inr ⟨a, beforeColons r, b, ?_, hc, rfl⟩⟩
    rw [ha]
    simp only [List.append_assoc]
    rw [← hb]
  · rename_i h
    simp only [traitOf, Option.map_eq_none_iff] at h
    exact ⟨_, rfl, Or.inl ⟨findText_none _ _ (by simp) h, rfl⟩⟩

theorem withTrait_describes (w : World) (f c : Nat) (ps : List Param) (m : Method) (h : Describes w f c ps m)
    (hp : (∃ s, LinkedTo w f c s ∧ m.fullName = s.name.display) ∨ ((∀ s, ¬ LinkedTo w f c s) ∧ m.fullName = m.name ++ chars! "::(direct)")) :
    Describes w f c ps (withTrait m) := by
  obtain ⟨h1, h2, h3, h4, h5, h6, h7⟩ := withTrait_fields m
  obtain ⟨note, hn, ht⟩ := withTrait_note m
  obtain ⟨a, b, _, c, d, e, g⟩ := h
  constructor
  · rw [h3]; exact a
  · rw [h4, h5]; exact b
  · exact ⟨_, note, hn, Or.inr ht, by rw [h3]; exact hp⟩
  · rw [h1, h6]; exact c
  · rw [h1, h6]; exact d
  · rw [h2]; exact e
  · rw [h1, h3, h7]; exact g

/-- Where methods are looked for: directly inside an entry for the type, or inside an impl block next to
it. -/
def Home (w : World) (t : Target) (f d : Nat) : Prop := TypeEntry w t f d ∨ (f = t.file ∧ ImplBlock w t d)

/-- The built-in methods of a type, with their signatures. -/
inductive Offers : Layout → Str → Str → Prop where
  | vecLen {a b c e} : Offers (.vec a b c e) (chars! "len") (chars! "fn len(&self) -> usize")
  | vecCapacity {a b c e} : Offers (.vec a b c e) (chars! "capacity") (chars! "fn capacity(&self) -> usize")
  | vecIsEmpty {a b c e} : Offers (.vec a b c e) (chars! "is_empty") (chars! "fn is_empty(&self) -> bool")
  | stringLen {a b c e} : Offers (.string a b c e) (chars! "len") (chars! "fn len(&self) -> usize")
  | stringIsEmpty {a b c e} : Offers (.string a b c e) (chars! "is_empty") (chars! "fn is_empty(&self) -> bool")
  | isSome {a b c d e} : Offers (.option a b c d e) (chars! "is_some") (chars! "fn is_some(&self) -> bool")
  | isNone {a b c d e} : Offers (.option a b c d e) (chars! "is_none") (chars! "fn is_none(&self) -> bool")
  | isOk {a b c d e f g} : Offers (.result a b c d e f g) (chars! "is_ok") (chars! "fn is_ok(&self) -> bool")
  | isErr {a b c d e f g} : Offers (.result a b c d e f g) (chars! "is_err") (chars! "fn is_err(&self) -> bool")
  | sliceLen {a b c} : Offers (.slice a b c) (chars! "len") (chars! "fn len(&self) -> usize")
  | sliceIsEmpty {a b c} : Offers (.slice a b c) (chars! "is_empty") (chars! "fn is_empty(&self) -> bool")
  | strLen {a b} : Offers (.strSlice a b) (chars! "len") (chars! "fn len(&self) -> usize")
  | strIsEmpty {a b} : Offers (.strSlice a b) (chars! "is_empty") (chars! "fn is_empty(&self) -> bool")
  | arrayLen {a b} : Offers (.array a b) (chars! "len") (chars! "fn len(&self) -> usize")

theorem offers_iff (l : Layout) (n sig : Str) :
    Offers l n sig ↔ n ∈ Data.syntheticMethods l ∧ sig = syntheticSignature n := by
  constructor
  · intro h
    cases h <;> simp [Data.syntheticMethods, syntheticSignature]
  · rintro ⟨h, rfl⟩
    cases l <;> simp only [Data.syntheticMethods, List.not_mem_nil, List.mem_cons, or_false] at h
    case array => subst h; exact .arrayLen
    case vec => rcases h with rfl | rfl | rfl <;> constructor
    all_goals (rcases h with rfl | rfl <;> constructor)

/-- The listed method is a built-in one of the type: it has no code in the program. -/
structure BuiltIn (l : Layout) (m : Method) : Prop where
  offered : Offers l m.name m.signature
  marked : m.synthetic = true
  address : m.address = 0
  callable : m.callable = false
  self : m.selfType = some .borrowed
  fullName : m.fullName = l.displayName ++ chars! "::" ++ m.name

theorem synthetic_entry (l : Layout) (m : Method) (h : m ∈ syntheticEntries l) : m.synthetic = true := by
  simp only [syntheticEntries, List.mem_map] at h
  obtain ⟨n, _, rfl⟩ := h
  rfl

/-- C44: every method listed for a value is a built-in one, or a function in a home of the type whose
self parameter has the type, and the entry says how it receives self, where its code is, and what its
other parameters are. -/
theorem C44_listed_are_methods (w : World) (t : Target) (ms : List Method) (h : methodsForPointer w t = .ok ms)
    (m : Method) (hm : m ∈ ms) :
    BuiltIn t.layout m ∨
    ∃ f d c ps k, Home w t f d ∧ IsChild (w.file f) d c ∧ IsFunction (w.file f) c ps ∧ TakesSelf w t f ps k ∧
      m.selfType = some k ∧ Describes w f c ps m := by
  simp only [methodsForPointer, methodsForType, directMethods, traitMethods, Res.bind_eq_ok, Res.ok.injEq] at h
  obtain ⟨all, ⟨ds, ⟨es, h1, h2⟩, ts, ⟨bs, h3, h4⟩, rfl⟩, rfl⟩ := h
  rw [List.mem_filter] at hm
  obtain ⟨hm, hself⟩ := hm
  obtain ⟨k, hk⟩ := Option.isSome_iff_exists.1 hself
  rcases List.mem_append.1 hm with hm | hm
  · right
    rcases List.mem_append.1 hm with hm | hm
    · obtain ⟨f, d, c, i, a1, a2, a3, a4, a5⟩ := (mem_directOf w t es ds h2).1 m hm
      obtain ⟨b1, b2⟩ := convert_describes w t f c i m a4 a5
      exact ⟨f, d, c, i.params, k, Or.inl ((mem_typeDies w t es h1 f d).1 a1), a2,
        ⟨a3, _, functionInfo_ok _ _ _ a4⟩, (b2 k).1 hk, hk, b1⟩
    · obtain ⟨d, c, i, m', a1, a2, a3, a4, a5, a6, rfl⟩ := (mem_traitOfNamespaces w t bs ts h4).1 m hm
      obtain ⟨b1, b2⟩ := convert_describes w t t.file c i m' a4 a5
      rw [(withTrait_fields m').1] at hk
      exact ⟨t.file, d, c, i.params, k, Or.inr ⟨rfl, (mem_implNamespaces w t bs h3 d).1 a1⟩, a2,
        ⟨a3, _, functionInfo_ok _ _ _ a4⟩, (b2 k).1 hk, by rw [(withTrait_fields m').1]; exact hk,
        withTrait_describes _ _ _ _ _ b1 (convert_plain w t _ c i m' a4 a5)⟩
  · left
    simp only [syntheticEntries, List.mem_map] at hm
    obtain ⟨n, hn, rfl⟩ := hm
    exact ⟨(offers_iff _ _ _).2 ⟨hn, rfl⟩, rfl, rfl, rfl, rfl, rfl⟩

/-- C44: conversely, every function in a home of the type whose self parameter has the type is listed,
and every built-in method is. -/
theorem C44_methods_are_listed (w : World) (t : Target) (ms : List Method) (h : methodsForPointer w t = .ok ms) :
    (∀ f d c ps k, Home w t f d → IsChild (w.file f) d c → IsFunction (w.file f) c ps → TakesSelf w t f ps k →
      ∃ m ∈ ms, m.selfType = some k ∧ Describes w f c ps m) ∧
    (∀ n sig, Offers t.layout n sig → ∃ m ∈ ms, m.name = n ∧ m.signature = sig ∧ BuiltIn t.layout m) := by
  simp only [methodsForPointer, methodsForType, directMethods, traitMethods, Res.bind_eq_ok, Res.ok.injEq] at h
  obtain ⟨all, ⟨ds, ⟨es, h1, h2⟩, ts, ⟨bs, h3, h4⟩, rfl⟩, rfl⟩ := h
  constructor
  · rintro f d c ps k hh hc ⟨htag, ret, hd⟩ hs
    obtain ⟨i, hi, rfl, rfl⟩ := functionInfo_of_declares _ _ _ _ hd
    rcases hh with hh | ⟨rfl, hh⟩
    · obtain ⟨m, hm, hcv⟩ := (mem_directOf w t es ds h2).2 f d c i ((mem_typeDies w t es h1 f d).2 hh) hc htag hi
      obtain ⟨b1, b2⟩ := convert_describes w t f c i m hi hcv
      have hk := (b2 k).2 hs
      exact ⟨m, List.mem_filter.2 ⟨by simp [hm], by simp [hk]⟩, hk, b1⟩
    · -- the whole block was converted, so this function was
      have hd' := (mem_implNamespaces w t bs h3 d).2 hh
      have hcv : ∃ m', convert w t t.file i = .ok m' := by
        clear h3
        induction bs generalizing ts with
        | nil => cases hd'
        | cons b bs ih =>
          simp only [traitOfNamespaces, Res.bind_eq_ok, Res.ok.injEq] at h4
          obtain ⟨is, a1, xs, a2, r, a3, rfl⟩ := h4
          rcases List.mem_cons.1 hd' with rfl | hd'
          · obtain ⟨x, _, hx⟩ := (mem_convertAll w t t.file is xs a2).2 i
              ((mem_childFunctions _ _ _ a1 i).2 ⟨c, hc, htag, hi⟩)
            exact ⟨x, hx⟩
          · exact ih r a3 hd'
      obtain ⟨m', hcv⟩ := hcv
      obtain ⟨b1, b2⟩ := convert_describes w t t.file c i m' hi hcv
      have hk := (b2 k).2 hs
      have hmem := (mem_traitOfNamespaces w t bs ts h4).2 d c i m' hd' hc htag hi hcv (by simp [hk])
      have hk' : (withTrait m').selfType = some k := by rw [(withTrait_fields m').1]; exact hk
      exact ⟨withTrait m', List.mem_filter.2 ⟨by simp [hmem], by simp [hk']⟩, hk',
        withTrait_describes _ _ _ _ _ b1 (convert_plain w t _ c i m' hi hcv)⟩
  · intro n sig ho
    obtain ⟨hn, rfl⟩ := (offers_iff _ _ _).1 ho
    exact ⟨_, List.mem_filter.2 ⟨List.mem_append_right _ (List.mem_map.2 ⟨n, hn, rfl⟩), rfl⟩, rfl, rfl, ho, rfl, rfl, rfl, rfl, rfl⟩

/-- C44 for a type (not a value): the functions directly inside an entry for the type are listed whether
or not they take self, those of impl blocks only if they do. -/
theorem C44_for_type_partial (w : World) (t : Target) (ms : List Method) (h : methodsForType w t = .ok ms) :
    (∀ f d c ps, TypeEntry w t f d → IsChild (w.file f) d c → IsFunction (w.file f) c ps →
      ∃ m ∈ ms, Describes w f c ps m ∧ ∀ k, m.selfType = some k ↔ TakesSelf w t f ps k) ∧
    (∀ m ∈ ms, m.selfType = none → ∃ f d c ps, TypeEntry w t f d ∧ IsChild (w.file f) d c ∧
      IsFunction (w.file f) c ps ∧ Describes w f c ps m ∧ ∀ k, ¬ TakesSelf w t f ps k) := by
  simp only [methodsForType, directMethods, traitMethods, Res.bind_eq_ok, Res.ok.injEq] at h
  obtain ⟨ds, ⟨es, h1, h2⟩, ts, ⟨bs, h3, h4⟩, rfl⟩ := h
  constructor
  · rintro f d c ps hh hc ⟨htag, ret, hd⟩
    obtain ⟨i, hi, rfl, rfl⟩ := functionInfo_of_declares _ _ _ _ hd
    obtain ⟨m, hm, hcv⟩ := (mem_directOf w t es ds h2).2 f d c i ((mem_typeDies w t es h1 f d).2 hh) hc htag hi
    exact ⟨m, by simp [hm], convert_describes w t f c i m hi hcv⟩
  · intro m hm hnone
    rcases List.mem_append.1 hm with hm | hm
    · rcases List.mem_append.1 hm with hm | hm
      · obtain ⟨f, d, c, i, a1, a2, a3, a4, a5⟩ := (mem_directOf w t es ds h2).1 m hm
        obtain ⟨b1, b2⟩ := convert_describes w t f c i m a4 a5
        refine ⟨f, d, c, i.params, (mem_typeDies w t es h1 f d).1 a1, a2, ⟨a3, _, functionInfo_ok _ _ _ a4⟩, b1, ?_⟩
        intro k hk
        rw [(b2 k).2 hk] at hnone; cases hnone
      · obtain ⟨d, c, i, m', _, _, _, _, _, a6, rfl⟩ := (mem_traitOfNamespaces w t bs ts h4).1 m hm
        rw [(withTrait_fields m').1] at hnone
        rw [hnone] at a6; cases a6
    · simp only [syntheticEntries, List.mem_map] at hm
      obtain ⟨n, _, rfl⟩ := hm
      cases hnone

/-- C44 fails if the self type of one function does not resolve: the discovery is an error as a whole,
also for the methods that can be read. -/
theorem C44_one_bad_method_fails (w : World) (t : Target) (f d c : Nat) (ps : List Param) (p : Param)
    (hh : TypeEntry w t f d) (hc : IsChild (w.file f) d c) (hf : IsFunction (w.file f) c (p :: ps))
    (hp : p.name = some (chars! "self")) (hr : w.resolve f p.ty = .err) (ms : List Method) :
    methodsForPointer w t ≠ .ok ms := by
  intro h
  simp only [methodsForPointer, methodsForType, directMethods, Res.bind_eq_ok] at h
  obtain ⟨all, ⟨ds, ⟨es, h1, h2⟩, _⟩, _⟩ := h
  obtain ⟨htag, ret, hd⟩ := hf
  obtain ⟨i, hi, hps, _⟩ := functionInfo_of_declares _ _ _ _ hd
  obtain ⟨m, _, hcv⟩ := (mem_directOf w t es ds h2).2 f d c i ((mem_typeDies w t es h1 f d).2 hh) hc htag hi
  simp only [convert, hps, selfOf, hp, Option.isSome_some, ne_eq, not_true_eq_false, decide_false,
    Bool.and_false, Bool.false_eq_true, if_false, hr, Res.bind_err] at hcv
  cases hcv

/-! ### When there is a listing -/

/-- An entry of a module in which an entry of the type is looked for: the module of the type, and the modules with its path in all debug files. -/
def ModuleEntry (w : World) (t : Target) (f e : Nat) : Prop :=
  ∃ r, (w.modules t.file).findByOffset t.off = some r ∧
    ((f = t.file ∧ e = r.die.off) ∨ ∃ m d, f ∈ w.debugFiles ∧ (w.modules f).findByPath r.path = some m ∧ d ∈ m.entries ∧ e = d.off)

/-- What is read for the methods of a type can be read: the modules in which it is looked for can be walked, and so can its homes; following the
structures next to it does not crash, and neither does reading the functions in its homes. -/
structure Readable (w : World) (t : Target) : Prop where
  modules : ∀ f e, ModuleEntry w t f e → ∃ cs, (w.file f).children e = .ok cs
  structs : ∀ f e c, ModuleEntry w t f e → IsChild (w.file f) e c → Tagged (w.file f) c .structureType → w.resolve f c ≠ .panic
  homes : ∀ f d, Home w t f d → ∃ cs, (w.file f).children d = .ok cs
  functions : ∀ f d c, Home w t f d → IsChild (w.file f) d c → Tagged (w.file f) c .subprogram → Calm (w.file f) (w.resolve f) c

theorem childFunctions_total (w : World) (t : Target) (hr : Readable w t) (f d : Nat) (hh : Home w t f d) :
    ∃ is, childFunctions (w.file f) d = .ok is := by
  obtain ⟨cs, hc⟩ := hr.homes f d hh
  obtain ⟨os, ho⟩ := collect_total_mem optFunction (w.file f) cs (fun c hcm => by
    unfold optFunction
    split
    · rename_i ht
      have h1 := hr.functions f d c hh ⟨cs, hc, hcm⟩ ((tagged_iff _ _ _).1 ht)
      cases hi : functionInfo (w.file f) c with
      | panic => exact absurd hi (functionInfo_no_panic _ _ h1.children)
      | err => simp
      | ok i => simp
    · simp)
  exact ⟨_, by simp only [childFunctions, mapP, forEachChild, hc, ho, Res.bind_ok]; rfl⟩

theorem methodParamTexts_total (resolve : Nat → Res TypeDef) (ps : List Param) (h : ∀ p ∈ ps, resolve p.ty ≠ .panic) :
    ∃ r, methodParamTexts resolve ps = .ok r := by
  induction ps with
  | nil => exact ⟨_, rfl⟩
  | cons p ps ih =>
    obtain ⟨r, hr⟩ := ih fun p hp => h p (List.mem_cons_of_mem _ hp)
    have : ∃ t, methodParamText resolve p = .ok t := by
      unfold methodParamText
      cases hp : resolve p.ty with
      | ok t => exact ⟨_, rfl⟩
      | err => exact ⟨_, rfl⟩
      | panic => exact absurd hp (h p (List.mem_cons_self ..))
    obtain ⟨t, ht⟩ := this
    exact ⟨_, by simp only [methodParamTexts, ht, hr, Res.bind_ok]; rfl⟩

theorem methodParams_total (resolve : Nat → Res TypeDef) (ps : List Param) (h : ∀ p ∈ ps, resolve p.ty ≠ .panic) :
    ∃ r, methodParams resolve ps = .ok r := by
  induction ps with
  | nil => exact ⟨_, rfl⟩
  | cons p ps ih =>
    obtain ⟨r, hr⟩ := ih fun p hp => h p (List.mem_cons_of_mem _ hp)
    simp only [methodParams]
    cases hp : resolve p.ty with
    | ok t => exact ⟨_, by simp only [hr, Res.bind_ok]; rfl⟩
    | err => exact ⟨_, by simp only [hr, Res.bind_ok]; rfl⟩
    | panic => exact absurd hp (h p (List.mem_cons_self ..))

theorem convert_total (w : World) (t : Target) (f : Nat) (i : FnInfo) (hp : ∀ p ∈ i.params, w.resolve f p.ty ≠ .panic)
    (hret : ∀ r, i.ret = some r → w.resolve f r ≠ .panic)
    (hs : ∀ p rest, i.params = p :: rest → (p.name = none ∨ p.name = some (chars! "self")) → w.resolve f p.ty ≠ .err) :
    ∃ m, convert w t f i = .ok m := by
  have h1 : ∃ o, selfOf (w.resolve f) t i.params = .ok o := by
    cases hps : i.params with
    | nil => exact ⟨_, rfl⟩
    | cons p rest =>
      simp only [selfOf]
      split
      · exact ⟨_, rfl⟩
      · rename_i hn
        have hn' : p.name = none ∨ p.name = some (chars! "self") := by
          cases hq : p.name with
          | none => exact Or.inl rfl
          | some x =>
            right
            simp only [hq, Option.isSome_some, Bool.true_and, decide_eq_true_eq, ne_eq, not_not] at hn
            exact hn
        have he := hs p rest hps hn'
        cases hq : w.resolve f p.ty with
        | ok ty => exact ⟨_, by simp only [Res.bind_ok]; rfl⟩
        | err => exact absurd hq he
        | panic => exact absurd hq (hp p (by rw [hps]; simp))
  obtain ⟨o, ho⟩ := h1
  obtain ⟨xs, hx⟩ := methodParamTexts_total (w.resolve f) (i.params.drop (if o.isSome then 1 else 0)) fun p h => hp p (List.drop_subset _ _ h)
  obtain ⟨ps, hps⟩ := methodParams_total (w.resolve f) (i.params.drop (if o.isSome then 1 else 0)) fun p h => hp p (List.drop_subset _ _ h)
  have h2 : ∃ x, methodRetText (w.resolve f) i.ret = .ok x := by
    cases hir : i.ret with
    | none => exact ⟨_, rfl⟩
    | some r =>
      simp only [methodRetText]
      cases hq : w.resolve f r with
      | ok ty => exact ⟨_, rfl⟩
      | err => exact ⟨_, rfl⟩
      | panic => exact absurd hq (hret r hir)
  have h3 : ∃ x, methodRet (w.resolve f) i.ret = .ok x := by
    cases hir : i.ret with
    | none => exact ⟨_, rfl⟩
    | some r =>
      simp only [methodRet]
      cases hq : w.resolve f r with
      | ok ty => exact ⟨_, rfl⟩
      | err => exact ⟨_, rfl⟩
      | panic => exact absurd hq (hret r hir)
  obtain ⟨x, hx2⟩ := h2
  obtain ⟨y, hy⟩ := h3
  exact ⟨_, by simp only [convert, ho, methodSignature, hx, hx2, hy, hps, Res.bind_ok]; rfl⟩

theorem convertAll_total (w : World) (t : Target) (f : Nat) (is : List FnInfo)
    (hn : ∀ i ∈ is, (∀ p ∈ i.params, w.resolve f p.ty ≠ .panic) ∧ ∀ r, i.ret = some r → w.resolve f r ≠ .panic)
    (hs : ∀ i ∈ is, ∀ p rest, i.params = p :: rest → (p.name = none ∨ p.name = some (chars! "self")) → w.resolve f p.ty ≠ .err) :
    ∃ ms, convertAll w t f is = .ok ms := by
  induction is with
  | nil => exact ⟨_, rfl⟩
  | cons i is ih =>
    obtain ⟨m, hm⟩ := convert_total w t f i (hn i (by simp)).1 (hn i (by simp)).2 (hs i (by simp))
    obtain ⟨r, h2⟩ := ih (fun i hi => hn i (List.mem_cons_of_mem _ hi)) fun i hi => hs i (List.mem_cons_of_mem _ hi)
    exact ⟨_, by simp only [convertAll, hm, h2, Res.bind_ok]; rfl⟩

theorem homes_total (w : World) (t : Target) (hr : Readable w t) :
    (∃ ds, typeDies w t = .ok ds) ∧ ∃ es, implNamespaces w t = .ok es := by
  have hm : ∀ f, ∀ ms : List Die, (∀ m ∈ ms, ModuleEntry w t f m.off) → ∃ ds, inModules w t f ms = .ok ds := by
    intro f ms
    induction ms with
    | nil => exact fun _ => ⟨_, rfl⟩
    | cons m ms ih =>
      intro hme
      obtain ⟨r, h2⟩ := ih fun m hm => hme m (List.mem_cons_of_mem _ hm)
      obtain ⟨cs, hc⟩ := hr.modules f m.off (hme m (List.mem_cons_self ..))
      obtain ⟨ds, hd⟩ := collect_total_mem (matchingStruct (w.resolve f) t) (w.file f) cs (fun c hcm => by
        unfold matchingStruct isMemberTag
        split
        · rename_i ht
          have h1 := hr.structs f m.off c (hme m (List.mem_cons_self ..)) ⟨cs, hc, hcm⟩ ((tagged_iff _ _ _).1 ht)
          cases hq : w.resolve f c with
          | ok ty => simp only [Res.bind_ok]; split <;> simp
          | err => simp
          | panic => exact absurd hq h1
        · simp)
      exact ⟨_, by simp only [inModules, forEachChild, hc, hd, h2, Res.bind_ok]; rfl⟩
  have hf : ∀ r, (w.modules t.file).findByOffset t.off = some r → ∀ fs : List Nat, (∀ f ∈ fs, f ∈ w.debugFiles) → ∃ ds, inFiles w t r.path fs = .ok ds := by
    intro r hfo fs
    induction fs with
    | nil => exact fun _ => ⟨_, rfl⟩
    | cons f fs ih =>
      intro hfs
      obtain ⟨rs, h2⟩ := ih fun f hf => hfs f (List.mem_cons_of_mem _ hf)
      simp only [inFiles]
      split
      · exact ⟨rs, h2⟩
      · rename_i m hfp
        obtain ⟨ds, hd⟩ := hm f m.entries fun d hd => ⟨r, hfo, .inr ⟨m, d, hfs f (List.mem_cons_self ..), hfp, hd, rfl⟩⟩
        exact ⟨_, by simp only [hd, h2, Res.bind_ok]; rfl⟩
  constructor
  · unfold typeDies
    split
    · exact ⟨_, rfl⟩
    · rename_i r hfo
      exact hf r hfo _ fun _ h => h
  · unfold implNamespaces
    split
    · exact ⟨_, rfl⟩
    · rename_i r hfo
      obtain ⟨cs, hc⟩ := hr.modules t.file r.die.off ⟨r, hfo, .inl ⟨rfl, rfl⟩⟩
      obtain ⟨ds, hd⟩ := collect_total implNamespace (w.file t.file) (fun c => by
        unfold implNamespace isMemberTag
        split
        · simp only [Res.bind_ok]
          split
          · split <;> simp
          · simp
        · simp) cs
      exact ⟨_, by simp only [forEachChild, hc, hd, Res.bind_ok]; rfl⟩

/-- C44: if what there is to read about a type can be read and the type of every self parameter in a home of the type resolves, there is a
listing, for a type and for a value. (Types of other parameters need not resolve: they are shown as a question mark.) -/
theorem C44_succeeds (w : World) (t : Target) (hr : Readable w t)
    (hs : ∀ f d c p rest, Home w t f d → IsChild (w.file f) d c → IsFunction (w.file f) c (p :: rest) →
      (p.name = none ∨ p.name = some (chars! "self")) → w.resolve f p.ty ≠ .err) :
    (∃ ms, methodsForType w t = .ok ms) ∧ ∃ ms, methodsForPointer w t = .ok ms := by
  obtain ⟨⟨ds, hd⟩, es, he⟩ := homes_total w t hr
  have hfun : ∀ f d, Home w t f d → ∀ is, childFunctions (w.file f) d = .ok is → ∀ i ∈ is, ∀ p rest, i.params = p :: rest →
      (p.name = none ∨ p.name = some (chars! "self")) → w.resolve f p.ty ≠ .err := by
    intro f d hh is his i hi p rest hp hn
    obtain ⟨c, a1, a2, a3⟩ := (mem_childFunctions _ _ _ his i).1 hi
    have := functionInfo_ok _ _ _ a3
    rw [hp] at this
    exact hs f d c p rest hh a1 ⟨a2, _, this⟩ hn
  have hcalm : ∀ f d, Home w t f d → ∀ is, childFunctions (w.file f) d = .ok is → ∀ i ∈ is, (∀ p ∈ i.params, w.resolve f p.ty ≠ .panic) ∧
      ∀ r, i.ret = some r → w.resolve f r ≠ .panic := by
    intro f d hh is his i hi
    obtain ⟨c, a1, a2, a3⟩ := (mem_childFunctions _ _ _ his i).1 hi
    obtain ⟨b1, b2⟩ := declares_mentions (functionInfo_ok _ _ _ a3)
    have hq := hr.functions f d c hh a1 a2
    exact ⟨fun p hp => hq.types _ (b1 p hp), fun r h => hq.types _ (b2 r h)⟩
  have h1 : ∀ l : List (Nat × Nat), (∀ x ∈ l, Home w t x.1 x.2) → ∃ ms, directOf w t l = .ok ms := by
    intro l
    induction l with
    | nil => exact fun _ => ⟨_, rfl⟩
    | cons x l ih =>
      intro hl
      obtain ⟨r, h2⟩ := ih fun y hy => hl y (List.mem_cons_of_mem _ hy)
      obtain ⟨f, d⟩ := x
      obtain ⟨is, his⟩ := childFunctions_total w t hr f d (hl (f, d) (by simp))
      obtain ⟨ms, hms⟩ := convertAll_total w t f is (hcalm f d (hl (f, d) (by simp)) is his) (hfun f d (hl (f, d) (by simp)) is his)
      exact ⟨_, by simp only [directOf, his, hms, h2, Res.bind_ok]; rfl⟩
  have h2 : ∀ l : List Nat, (∀ d ∈ l, Home w t t.file d) → ∃ ms, traitOfNamespaces w t l = .ok ms := by
    intro l
    induction l with
    | nil => exact fun _ => ⟨_, rfl⟩
    | cons d l ih =>
      intro hl
      obtain ⟨r, h2⟩ := ih fun y hy => hl y (List.mem_cons_of_mem _ hy)
      obtain ⟨is, his⟩ := childFunctions_total w t hr t.file d (hl d (by simp))
      obtain ⟨ms, hms⟩ := convertAll_total w t t.file is (hcalm t.file d (hl d (by simp)) is his) (hfun t.file d (hl d (by simp)) is his)
      exact ⟨_, by simp only [traitOfNamespaces, his, hms, h2, Res.bind_ok]; rfl⟩
  obtain ⟨xs, hx⟩ := h1 ds fun x hx => Or.inl ((mem_typeDies w t ds hd x.1 x.2).1 hx)
  obtain ⟨ys, hy⟩ := h2 es fun d hd' => Or.inr ⟨rfl, (mem_implNamespaces w t es he d).1 hd'⟩
  have ht : methodsForType w t = .ok (xs ++ ys ++ syntheticEntries t.layout) := by
    simp only [methodsForType, directMethods, traitMethods, hd, he, hx, hy, Res.bind_ok]
  exact ⟨⟨_, ht⟩, _, by simp only [methodsForPointer, ht, Res.bind_ok]; rfl⟩

theorem forall₂_of_mem_left {α β : Type} {R : α → β → Prop} {xs : List α} {ys : List β} (h : List.Forall₂ R xs ys) {x : α}
    (hx : x ∈ xs) : ∃ y, R x y := by
  induction h with
  | nil => cases hx
  | cons h1 _ ih =>
    rcases List.mem_cons.1 hx with rfl | hx
    · exact ⟨_, h1⟩
    · exact ih hx

/-- C44 fails for a type with one function whose signature has a type the debugger panics on (a `RwLock`, say: `C57_rwlock_fails`): there is
no listing at all. -/
theorem C44_unreadable_type_fails (w : World) (t : Target) (f d c : Nat) (ps : List Param) (ret : Option Nat)
    (hh : TypeEntry w t f d) (hc : IsChild (w.file f) d c) (ht : Tagged (w.file f) c .subprogram) (hd : Declares (w.file f) c ps ret)
    (hp : (∃ p ∈ ps.drop 1, w.resolve f p.ty = .panic) ∨ (∃ r, ret = some r ∧ w.resolve f r = .panic)) (ms : List Method) :
    methodsForPointer w t ≠ .ok ms := by
  intro h
  simp only [methodsForPointer, methodsForType, directMethods, Res.bind_eq_ok] at h
  obtain ⟨all, ⟨ds, ⟨es, h1, h2⟩, _⟩, _⟩ := h
  obtain ⟨i, hi, rfl, rfl⟩ := functionInfo_of_declares _ _ _ _ hd
  obtain ⟨m, _, hcv⟩ := (mem_directOf w t es ds h2).2 f d c i ((mem_typeDies w t es h1 f d).2 hh) hc ht hi
  simp only [convert, methodSignature, Res.bind_eq_ok] at hcv
  obtain ⟨self, _, sig, ⟨xs, hx, y, hy, _⟩, _⟩ := hcv
  rcases hp with ⟨p, hp, hq⟩ | ⟨r, hr, hq⟩
  · have hm : p ∈ i.params.drop (if self.isSome then 1 else 0) := by
      split
      · exact hp
      · exact List.drop_subset _ _ hp
    have := methodParamTexts_ok _ _ _ hx
    obtain ⟨s, hs⟩ := forall₂_of_mem_left this hm
    obtain ⟨ty, _, ⟨t', ht', _⟩ | ⟨he, _⟩⟩ := hs
    · rw [hq] at ht'; cases ht'
    · rw [hq] at he; cases he
  · simp only [hr, methodRetText, hq] at hy
    cases hy

/-! ### A concrete program -/

/-- Entries of one file from a table of (entry, children). -/
def table (es : List (Die × List Nat)) : Db where
  entry e := (es.find? fun x => x.1.off == e).map (·.1)
  children e := .ok (match es.find? fun x => x.1.off == e with | some x => x.2 | none => [])

/-- `struct S` of one module `m` (entry 10), in the file 0. -/
def sLayout : Layout := .struct (chars! "S") 8 8 .nil

/-- The namespace `m`. -/
def mDie : Die := { off := 10, tag := .namespace, attrs := [(.name, .str (chars! "m"))] }

/-- A function entry. -/
def fnDie (off : Nat) (name : Str) : Die :=
  { off := off, tag := .subprogram, attrs := [(.name, .str name), (.linkageName, .str name)] }

/-- A parameter entry. -/
def paramDie (off : Nat) (name : Str) (ty : Nat) : Die :=
  { off := off, tag := .formalParameter, attrs := [(.name, .str name), (.type, .ref ty)] }

/-- `mod m { struct S; impl S { fn get(&self); fn new() } impl Tr for S { fn tr(&mut self) } }`, with the
entry of the type under a given tag and layout. -/
def shop (tag : Tag) (layout : Layout) (entries : List (Die × List Nat)) : World where
  index := buildIndex [.binary [⟨chars! "get", some ⟨chars! "get", [], [chars! "m", chars! "S"], chars! "m::S::get"⟩, 4096, true, 8⟩] 0]
  fnEntry _ _ := none
  file _ := table ([(mDie, [20, 30]), ({ off := 20, tag := tag }, [21, 23])] ++ entries)
  resolve _ e :=
    if e = 20 then .ok (.mk (some 20) layout)
    else if e = 40 then .ok (.mk (some 40) (.reference false (.mk (some 20) layout)))
    else if e = 41 then .ok (.mk (some 41) (.reference true (.mk (some 20) layout)))
    else if e = 42 then .ok (.mk (some 42) (.smartPtr .box (.mk (some 20) layout) 0 0))
    else .err
  shallow _ _ := .err
  position _ _ := true
  debugFiles := [0]
  indexed := [0]
  modules _ := ⟨[⟨[chars! "m"], mDie, 10, 100⟩], .mk [(chars! "m", .mk [] [mDie])] []⟩
  demangle l := if l = chars! "get" then some ⟨chars! "get", [], [chars! "m", chars! "S"], chars! "m::S::get"⟩ else none

/-- The functions of `S`. -/
def sEntries : List (Die × List Nat) :=
  [(fnDie 21 (chars! "get"), [22]), (paramDie 22 (chars! "self") 40, []), (fnDie 23 (chars! "new"), []),
   ({ off := 30, tag := .namespace, attrs := [(.name, .str (chars! "{impl#0}"))] }, [31]),
   (fnDie 31 (chars! "tr"), [32]), (paramDie 32 (chars! "self") 41, [])]

/-- The hypotheses of the C44 theorems hold of the program, and the listing is what one expects: `get`
by shared and `tr` by mutable reference. -/
theorem demo_methods : ∃ ms, methodsForPointer (shop .structureType sLayout sEntries) ⟨0, 20, sLayout⟩ = .ok ms ∧
    ms.map (fun m => (m.name, m.selfType, m.address)) =
      [(chars! "get", some .borrowed, 4096), (chars! "tr", some .borrowedMut, 0)] ∧
    ms.map (·.signature) = [chars! "fn get(&self)", chars! "fn tr(&mut self)"] :=
  ⟨_, by with_unfolding_all rfl, by with_unfolding_all rfl, by with_unfolding_all rfl⟩

theorem shop_resolves (tag : Tag) (l : Layout) (es : List (Die × List Nat)) (f e : Nat) : (shop tag l es).resolve f e ≠ .panic := by
  simp only [shop]
  repeat' split
  all_goals simp

/-- The program is readable, and the listing is sure to exist (`C44_succeeds`). -/
example : Readable (shop .structureType sLayout sEntries) ⟨0, 20, sLayout⟩ where
  modules _ _ _ := ⟨_, rfl⟩
  structs _ _ _ _ _ _ := shop_resolves _ _ _ _ _
  homes _ _ _ := ⟨_, rfl⟩
  functions _ _ _ _ _ _ := ⟨by simp [shop, table], fun _ _ => shop_resolves _ _ _ _ _⟩

/-- The homes are not empty there. -/
example : Home (shop .structureType sLayout sEntries) ⟨0, 20, sLayout⟩ 0 20 ∧
    TakesSelf (shop .structureType sLayout sEntries) ⟨0, 20, sLayout⟩ 0 [⟨some (chars! "self"), 40⟩] .borrowed :=
  ⟨Or.inl (Or.inr ⟨⟨[chars! "m"], mDie, 10, 100⟩, .mk [] [mDie], mDie, .mk (some 20) sLayout, rfl, by simp [shop],
      rfl, by simp [Module.entries], ⟨[20, 30], rfl, by simp⟩, ⟨_, rfl, rfl⟩, rfl, by with_unfolding_all rfl⟩),
   ⟨_, [], _, rfl, Or.inr rfl, rfl, by with_unfolding_all rfl, .borrowed _⟩⟩

/-! ### What the code does not keep -/

/-- C44 fails for enums without fields: the entry of such a type is an enumeration, not a structure, so
none of the functions inside it is found. -/
theorem C44_c_enum_methods_fails :
    let l : Layout := .cenum (chars! "E") (.uint 1) [(chars! "A", 0)] 1
    ∃ ms, methodsForPointer (shop .enumerationType l sEntries) ⟨0, 20, l⟩ = .ok ms ∧
      ms.map (·.name) = [chars! "tr"] := ⟨_, by with_unfolding_all rfl, by with_unfolding_all rfl⟩

/-- C44 fails for `self: Box<Self>` (and any other smart pointer): the function is not listed. -/
theorem C44_boxed_self_fails :
    ∃ ms, methodsForPointer (shop .structureType sLayout
      [(fnDie 21 (chars! "into"), [22]), (paramDie 22 (chars! "self") 42, [])]) ⟨0, 20, sLayout⟩ = .ok ms ∧ ms = [] :=
  ⟨_, by with_unfolding_all rfl, by with_unfolding_all rfl⟩

/-- C44 fails for impl blocks in another module than the type: here `{impl#0}` is inside `m::inner`. -/
theorem C44_impl_elsewhere_fails :
    ∃ ms, methodsForPointer (shop .structureType sLayout
      [(fnDie 21 (chars! "get"), [22]), (paramDie 22 (chars! "self") 40, []),
       ({ off := 30, tag := .namespace, attrs := [(.name, .str (chars! "inner"))] }, [33]),
       ({ off := 33, tag := .namespace, attrs := [(.name, .str (chars! "{impl#0}"))] }, [31]),
       (fnDie 31 (chars! "tr"), [32]), (paramDie 32 (chars! "self") 41, [])]) ⟨0, 20, sLayout⟩ = .ok ms ∧
      ms.map (·.name) = [chars! "get"] := ⟨_, by with_unfolding_all rfl, by with_unfolding_all rfl⟩

/-- C44 fails for a type described in two places of the same module path (two units, say): its methods
are listed twice. -/
theorem C44_listed_twice_fails :
    ∃ ms, methodsForPointer
      { shop .structureType sLayout sEntries with
        modules := fun _ => ⟨[⟨[chars! "m"], mDie, 10, 100⟩], .mk [(chars! "m", .mk [] [mDie, mDie])] []⟩ }
      ⟨0, 20, sLayout⟩ = .ok ms ∧ ms.map (·.name) = [chars! "get", chars! "get", chars! "tr"] := ⟨_, by with_unfolding_all rfl, by with_unfolding_all rfl⟩

/-- C44 fails for the trait shown with a method: it is the first segment of the trait's path, not the
trait. -/
theorem C44_trait_name_fails :
    traitOf (chars! "<m::S as core::fmt::Display>::fmt") = some (chars! "core") := rfl

/-- In general: for a method of `<T as c::…>`, the shown trait is `c`, whatever follows. -/
theorem C44_trait_name_is_first_segment_fails (ty seg rest : Str)
    (ht : ∀ a b : Str, ty ≠ a ++ chars! " as " ++ b) (hty : ∀ a : Str, ty ≠ a ++ chars! " as")
    (hs : ':' ∉ seg) :
    traitOf (ty ++ chars! " as " ++ seg ++ chars! "::" ++ rest) = some seg := by
  have h1 : ∀ s : Str, ':' ∉ s → beforeColons (s ++ chars! "::" ++ rest) = s := by
    intro s
    induction s with
    | nil => intro _; simp [beforeColons]
    | cons c s ih =>
      intro hc
      have hne : c ≠ ':' := fun h => hc (by simp [h])
      have hnp : ¬ ([':', ':'] <+: c :: (s ++ chars! "::" ++ rest)) := by
        rintro ⟨r, hr⟩
        simp at hr
        exact hne hr.1.symm
      rw [List.cons_append, List.cons_append]
      simp only [beforeColons, hnp, if_false]
      rw [ih (fun h => hc (List.mem_cons_of_mem _ h))]
  have h2 : ∀ y tail : Str, (∀ a b : Str, y ≠ a ++ chars! " as " ++ b) →
      (∀ a r : Str, r ≠ [] → r.length < 4 → y = a ++ r → ¬ (r ++ chars! " as " ++ tail).take 4 = chars! " as ") →
      findText (chars! " as ") (y ++ chars! " as " ++ tail) = some tail := by
    intro y tail
    induction y with
    | nil =>
      intro _ _
      simp [findText]
    | cons c y ih =>
      intro hy hy2
      have hnp : ¬ (chars! " as " <+: c :: y ++ chars! " as " ++ tail) := by
        rintro ⟨r, hr⟩
        by_cases hl : (c :: y).length < 4
        · apply hy2 [] (c :: y) (by simp) hl rfl
          rw [← hr]; simp
        · -- the occurrence is inside `c :: y`
          have h3 : (c :: y) = chars! " as " ++ (c :: y).drop 4 := by
            have : (c :: y).take 4 = chars! " as " := by
              have := congrArg (List.take 4) hr
              rw [List.append_assoc, List.take_append_of_le_length (by omega : 4 ≤ (c :: y).length)] at this
              simpa using this.symm
            rw [← this]
            exact (List.take_append_drop 4 (c :: y)).symm
          exact hy [] _ (by simpa using h3)
      rw [List.cons_append, List.cons_append]
      rw [List.cons_append, List.cons_append] at hnp
      simp only [findText, hnp, if_false]
      apply ih
      · intro a b h; exact hy (c :: a) b (by rw [h]; rfl)
      · intro a r h3 h4 h5; exact hy2 (c :: a) r h3 h4 (by rw [h5]; rfl)
  unfold traitOf
  rw [show ty ++ chars! " as " ++ seg ++ chars! "::" ++ rest = ty ++ chars! " as " ++ (seg ++ chars! "::" ++ rest) by
    simp]
  rw [h2 ty _ ht]
  · exact congrArg some (h1 seg hs)
  · intro a r h3 h4 h5 h6
    match r, h3, h4 with
    | [x], _, _ => simp at h6
    | [x, y], _, _ => simp at h6
    | [x, y, z], _, _ =>
      simp at h6
      obtain ⟨rfl, rfl, rfl⟩ := h6
      exact hty a h5

/-! ### All methods, by type -/

/-- The entry `c` is a parameter with this name (if any), type and a position that decodes. -/
def IsArgument (w : World) (f c : Nat) (p : Option Str × TypeDef) : Prop :=
  (∀ n, p.1 = some n ↔ Named (w.file f) c n) ∧ w.position f c = true ∧
    ∃ t, Typed (w.file f) c t ∧ w.shallow f t = .ok p.2

open Classical in
/-- The declaration of a function at `e`: name, arguments (all of its formal parameters, in order) and
return type. -/
def Declaration (w : World) (f e : Nat) (n : Str) (ps : List (Option Str × TypeDef)) (ret : Option TypeDef) : Prop :=
  Named (w.file f) e n ∧
  (∃ cs, (w.file f).children e = .ok cs ∧
    List.Forall₂ (IsArgument w f) (cs.filter fun c => decide (Tagged (w.file f) c .formalParameter)) ps) ∧
  ((ret = none ∧ ∀ t, ¬ Typed (w.file f) e t) ∨
    ∃ t T, Typed (w.file f) e t ∧ w.shallow f t = .ok T ∧ ret = some T)

theorem variableP_ok (w : World) (f c : Nat) (p : Option Str × TypeDef) :
    variableP (w.shallow f) (w.position f) (w.file f) c = .ok p ↔ IsArgument w f c p := by
  simp only [variableP, Res.bind_eq_ok, andThen, IsArgument]
  have hname : ∀ o, filterP (stringAttr .name) (w.file f) c = .ok o ↔
        ∀ n, o = some n ↔ Named (w.file f) c n := by
    intro o
    unfold filterP
    have := dieName_ok (w.file f) c
    have hp := dieName_no_panic (w.file f) c
    unfold dieName at this hp
    cases hs : stringAttr .name (w.file f) c with
    | panic => exact absurd hs hp
    | ok n =>
      simp only [Res.ok.injEq]
      have hn := (this n).1 hs
      constructor
      · rintro rfl m
        simp only [Option.some.injEq]
        constructor
        · rintro rfl; exact hn
        · exact fun h => hn.unique h
      · intro h; exact ((h n).2 hn).symm
    | err =>
      simp only [Res.ok.injEq]
      have hn : ∀ n, ¬ Named (w.file f) c n := fun n h => by
        have := (this n).2 h; rw [hs] at this; cases this
      constructor
      · rintro rfl m
        simp [hn m]
      · intro h
        cases o with
        | none => rfl
        | some m => exact absurd ((h m).1 rfl) (hn m)
  constructor
  · rintro ⟨o, h1, t, ⟨te, h2, h3⟩, h4⟩
    split at h4
    · rename_i hpos
      cases h4
      exact ⟨(hname o).1 h1, hpos, te, (typed_iff _ _ _).1 h2, h3⟩
    · cases h4
  · rintro ⟨h1, hpos, te, h2, h3⟩
    obtain ⟨o, t⟩ := p
    exact ⟨o, (hname o).2 h1, t, ⟨te, (typed_iff _ _ _).2 h2, h3⟩, by simp [hpos]⟩

open Classical in
theorem declaration_ok (w : World) (f e : Nat) (n : Str) (ps : List (Option Str × TypeDef)) (ret : Option TypeDef) :
    declaration (w.shallow f) (w.position f) (w.file f) e = .ok (n, ret, ps) ↔ Declaration w f e n ps ret := by
  simp only [declaration, both, Res.bind_eq_ok, Res.ok.injEq, Prod.mk.injEq]
  have hret : andThenOpt (filterP (refAttr .type)) (fun _ t => w.shallow f t) (w.file f) e = .ok ret ↔
      ((ret = none ∧ ∀ t, ¬ Typed (w.file f) e t) ∨
        ∃ t T, Typed (w.file f) e t ∧ w.shallow f t = .ok T ∧ ret = some T) := by
    simp only [andThenOpt, filterP]
    have ht := typed_iff (w.file f) e
    unfold entryType at ht
    cases hr : refAttr .type (w.file f) e with
    | panic => exact absurd hr (refAttr_no_panic _ _ _)
    | err =>
      have hno : ∀ t, ¬ Typed (w.file f) e t := fun t h => by
        have := (ht t).2 h; rw [hr] at this; cases this
      simp only [Res.bind_ok, Res.ok.injEq]
      constructor
      · rintro rfl; exact Or.inl ⟨rfl, hno⟩
      · rintro (⟨h, _⟩ | ⟨t, T, h, _⟩)
        · exact h.symm
        · exact absurd h (hno t)
    | ok t =>
      have hty := (ht t).1 hr
      simp only [Res.bind_ok, Res.bind_eq_ok, Res.ok.injEq]
      constructor
      · rintro ⟨T, h1, rfl⟩; exact Or.inr ⟨t, T, hty, h1, rfl⟩
      · rintro (⟨_, h⟩ | ⟨t', T, h, h1, rfl⟩)
        · exact absurd hty (h t)
        · cases hty.unique h
          exact ⟨T, h1, rfl⟩
  have hps : tryForEachChild (andThenOpt (filterP (isMemberTag .formalParameter))
      (andThen (isMemberTag .formalParameter) (variableP (w.shallow f) (w.position f)))) (w.file f) e = .ok ps ↔
      ∃ cs, (w.file f).children e = .ok cs ∧
        List.Forall₂ (IsArgument w f) (cs.filter fun c => decide (Tagged (w.file f) c .formalParameter)) ps := by
    simp only [tryForEachChild, Res.bind_eq_ok]
    have : ∀ cs : List Nat, ∀ ps, tryCollect (andThenOpt (filterP (isMemberTag .formalParameter))
        (andThen (isMemberTag .formalParameter) (variableP (w.shallow f) (w.position f)))) (w.file f) cs = .ok ps ↔
        List.Forall₂ (IsArgument w f) (cs.filter fun c => decide (Tagged (w.file f) c .formalParameter)) ps := by
      intro cs
      induction cs with
      | nil =>
        intro ps
        simp only [tryCollect, Res.ok.injEq, List.filter_nil]
        constructor
        · rintro rfl; exact .nil
        · intro h; cases h; rfl
      | cons c cs ih =>
        intro ps
        simp only [tryCollect, Res.bind_eq_ok, Res.ok.injEq]
        by_cases ht : Tagged (w.file f) c .formalParameter
        · have ht' := (tagged_iff _ _ _).2 ht
          rw [List.filter_cons_of_pos (by simpa using ht)]
          have hstep : ∀ o, andThenOpt (filterP (isMemberTag .formalParameter))
              (andThen (isMemberTag .formalParameter) (variableP (w.shallow f) (w.position f))) (w.file f) c = .ok o ↔
              ∃ p, o = some p ∧ IsArgument w f c p := by
            intro o
            simp only [andThenOpt, filterP, isMemberTag, ht', if_true, Res.bind_ok, andThen, Res.bind_eq_ok,
              Res.ok.injEq, variableP_ok]
            constructor
            · rintro ⟨p, h, rfl⟩; exact ⟨p, rfl, h⟩
            · rintro ⟨p, rfl, h⟩; exact ⟨p, h, rfl⟩
          constructor
          · rintro ⟨o, h1, xs, h2, rfl⟩
            obtain ⟨p, rfl, hp⟩ := (hstep o).1 h1
            exact .cons hp ((ih xs).1 h2)
          · intro h
            cases h with
            | cons hp hr => exact ⟨_, (hstep _).2 ⟨_, rfl, hp⟩, _, (ih _).2 hr, rfl⟩
        · have ht' : ¬ tag (w.file f) c = some .formalParameter := fun h => ht ((tagged_iff _ _ _).1 h)
          rw [List.filter_cons_of_neg (by simpa using ht)]
          have hstep : andThenOpt (filterP (isMemberTag .formalParameter))
              (andThen (isMemberTag .formalParameter) (variableP (w.shallow f) (w.position f))) (w.file f) c = .ok none := by
            simp [andThenOpt, filterP, isMemberTag, ht']
          rw [hstep, ← ih ps]
          simp
    constructor
    · rintro ⟨cs, h1, h2⟩; exact ⟨cs, h1, (this cs ps).1 h2⟩
    · rintro ⟨cs, h1, h2⟩; exact ⟨cs, h1, (this cs ps).2 h2⟩
  have hn := dieName_ok (w.file f) e n
  unfold dieName at hn
  unfold Declaration
  rw [← hn, ← hps, ← hret]
  constructor
  · rintro ⟨n', h1, ⟨r', x⟩, ⟨r, h2, ps', h3, h4⟩, h5⟩
    cases h4
    cases h5.2
    cases h5.1
    exact ⟨h1, h3, h2⟩
  · rintro ⟨h1, h3, h2⟩
    exact ⟨n, h1, (ret, ps), ⟨ret, h2, ps, h3, rfl⟩, rfl, rfl⟩

/-- The listed method `x` is the function of the symbol `s`: declared in an indexed file with a first
parameter whose type, with references and pointers removed, prints as `k`. -/
def ListedUnder (w : World) (k : Str) (s : Symbol) (x : Method) : Prop :=
  s.debugFile ∈ w.indexed ∧ ∃ e n p rest ret, w.fnEntry s.debugFile s.name = some e ∧
    Declaration w s.debugFile e n (p :: rest) ret ∧ p.2.layout.dereferenced.displayName = k ∧
    p.2.layout.dereferenced ≠ .alias (chars! "unknown") ∧
    x.name = n ∧ x.fullName = s.name.display ∧ x.address = s.address ∧ x.params = rest ∧ x.ret = ret ∧
    x.callable = true ∧ x.synthetic = false ∧
    x.signature = chars! "fn(" ++ commaSep ((p :: rest).map fun q => (match q.1 with | some n => n | none => chars! "_") ++ chars! ": " ++ q.2.displayName) ++
      chars! ")" ++ (match ret with | some r => chars! " -> " ++ r.displayName | none => []) ∧
    (x.selfType.isSome = true ↔ p.1 = some (chars! "self") ∨ p.1 = some (chars! "&self") ∨
      p.1 = some (chars! "&mut self")) ∧
    (∀ k, x.selfType = some k → Receives p.2.layout k)

theorem sigText_eq (n : Str) (p : Option Str × TypeDef) (rest : List (Option Str × TypeDef)) (ret : Option TypeDef) :
    Sig.text ⟨n, p :: rest, ret, sigSelf (p :: rest)⟩ =
      chars! "fn(" ++ commaSep ((p :: rest).map fun q => (match q.1 with | some n => n | none => chars! "_") ++ chars! ": " ++ q.2.displayName) ++
      chars! ")" ++ (match ret with | some r => chars! " -> " ++ r.displayName | none => []) := by
  have : ∀ q : Option Str × TypeDef, q.1.getD (chars! "_") = (match q.1 with | some n => n | none => chars! "_") := by
    intro q; cases q.1 <;> rfl
  simp only [Sig.text, joinComma_eq, this]
  cases ret <;> rfl

theorem sigSelf_kind (p : Option Str × TypeDef) (rest : List (Option Str × TypeDef)) (k : SelfType)
    (h : sigSelf (p :: rest) = some k) : Receives p.2.layout k := by
  obtain ⟨o, t⟩ := p
  cases o with
  | none => cases h
  | some n =>
    simp only [sigSelf] at h
    split at h
    · cases h
      show Receives t.layout _
      cases hl : t.layout
      case reference b t' => cases b <;> constructor
      all_goals exact .owned _ (by intro b t h; cases h)
    · cases h

theorem isUnknown_iff (l : Layout) : isUnknown l = true ↔ l = .alias (chars! "unknown") := by
  cases l <;> simp [isUnknown]

theorem sigSelf_iff (p : Option Str × TypeDef) (rest : List (Option Str × TypeDef)) :
    (sigSelf (p :: rest)).isSome = true ↔ p.1 = some (chars! "self") ∨ p.1 = some (chars! "&self") ∨
      p.1 = some (chars! "&mut self") := by
  obtain ⟨n, t⟩ := p
  cases n with
  | none => simp [sigSelf]
  | some n =>
    simp only [sigSelf, Option.some.injEq]
    split <;> simp_all

theorem methodOfSymbol_ok (w : World) (s : Symbol) (k : Str) (x : Method)
    (h : methodOfSymbol w s = .ok (some (k, x))) : ListedUnder w k s x := by
  unfold methodOfSymbol at h
  split at h
  · rename_i hf
    split at h
    · cases h
    · rename_i e he
      split at h
      · cases h
      · cases h
      · rename_i sig hsig
        simp only [resolveSignature, Res.bind_eq_ok, Prod.exists, Res.ok.injEq] at hsig
        obtain ⟨n, ret, ps, hd, rfl⟩ := hsig
        simp only at h
        cases ps with
        | nil => cases h
        | cons p rest =>
          simp only at h
          split at h
          · cases h
          · rename_i hu
            cases h
            refine ⟨hf, e, n, p, rest, ret, he, (declaration_ok _ _ _ _ _ _).1 hd, rfl, ?_, rfl, rfl, rfl, rfl, rfl,
              rfl, rfl, sigText_eq n p rest ret, sigSelf_iff p rest, sigSelf_kind p rest⟩
            intro hal
            exact hu ((isUnknown_iff _).2 hal)
  · cases h

theorem methodOfSymbol_of (w : World) (s : Symbol) (e : Nat) (n : Str) (p : Option Str × TypeDef)
    (rest : List (Option Str × TypeDef)) (ret : Option TypeDef) (hf : s.debugFile ∈ w.indexed)
    (he : w.fnEntry s.debugFile s.name = some e) (hd : Declaration w s.debugFile e n (p :: rest) ret)
    (hu : p.2.layout.dereferenced ≠ .alias (chars! "unknown")) :
    ∃ x, methodOfSymbol w s = .ok (some (p.2.layout.dereferenced.displayName, x)) := by
  have hu' : isUnknown p.2.layout.dereferenced = false := by
    cases h : isUnknown p.2.layout.dereferenced with
    | false => rfl
    | true => exact absurd ((isUnknown_iff _).1 h) hu
  unfold methodOfSymbol
  simp only [hf, if_true, he, resolveSignature, (declaration_ok _ _ _ _ _ _).2 hd, Res.bind_ok, hu',
    Bool.false_eq_true, if_false]
  exact ⟨_, rfl⟩

theorem groupMethods_get (w : World) (ss : List Symbol) (m m' : OMap Str (List Method))
    (h : groupMethods w ss m = .ok m') (k : Str) (x : Method) :
    x ∈ (m'.get compare k).getD [] ↔
      x ∈ (m.get compare k).getD [] ∨ ∃ s ∈ ss, methodOfSymbol w s = .ok (some (k, x)) := by
  induction ss generalizing m with
  | nil => cases h; simp
  | cons s ss ih =>
    simp only [groupMethods, Res.bind_eq_ok] at h
    obtain ⟨o, h1, h2⟩ := h
    cases o with
    | none =>
      rw [ih _ h2]
      simp only [List.mem_cons, exists_eq_or_imp, h1, Res.ok.injEq]
      simp
    | some p =>
      obtain ⟨k', y⟩ := p
      rw [ih _ h2, OMap.get_upsert]
      by_cases hk : k = k'
      · subst hk
        simp only [Std.ReflCmp.compare_self, if_true, Option.getD_some, List.mem_append,
          List.mem_cons, List.not_mem_nil, or_false, exists_eq_or_imp, h1, Res.ok.injEq, Option.some.injEq, Prod.mk.injEq, true_and]
        constructor
        · rintro ((h | rfl) | h)
          · exact Or.inl h
          · exact Or.inr (Or.inl rfl)
          · exact Or.inr (Or.inr h)
        · rintro (h | rfl | h)
          · exact Or.inl (Or.inl h)
          · exact Or.inl (Or.inr rfl)
          · exact Or.inr h
      · have : compare k k' ≠ .eq := fun hc => hk (Std.LawfulEqCmp.eq_of_compare hc)
        simp only [this, if_false, List.mem_cons, exists_eq_or_imp, h1, Res.ok.injEq, Option.some.injEq,
          Prod.mk.injEq]
        constructor
        · rintro (h | h)
          · exact Or.inl h
          · exact Or.inr (Or.inr h)
        · rintro (h | ⟨h, _⟩ | h)
          · exact Or.inl h
          · exact absurd h.symm hk
          · exact Or.inr h

/-- C44 for the listing of all methods: under a type name are exactly the functions in force, declared
in an indexed file, whose first parameter (whatever it is called) has that type, behind any number of
references and pointers. -/
theorem C44_all_grouped_by_first_parameter (w : World) (ops : List IndexOp) (hw : w.index = buildIndex ops)
    (m : OMap Str (List Method)) (h : allMethods w = .ok m) (k : Str) :
    (∀ x ∈ (m.get compare k).getD [], ∃ s, InForce ops s ∧ ListedUnder w k s x) ∧
    (∀ s e n p rest ret, InForce ops s → s.debugFile ∈ w.indexed → w.fnEntry s.debugFile s.name = some e →
      Declaration w s.debugFile e n (p :: rest) ret → p.2.layout.dereferenced.displayName = k →
      p.2.layout.dereferenced ≠ .alias (chars! "unknown") →
      ∃ x ∈ (m.get compare k).getD [], ListedUnder w k s x) := by
  constructor
  · intro x hx
    rcases (groupMethods_get w _ _ _ h k x).1 hx with hx | ⟨s, hs, hm⟩
    · simp [OMap.get, OMap.getL] at hx
    · rw [hw] at hs
      exact ⟨s, (mem_allSymbols ops s).1 hs, methodOfSymbol_ok w s k x hm⟩
  · intro s e n p rest ret hs hf he hd hk hu
    obtain ⟨x, hx⟩ := methodOfSymbol_of w s e n p rest ret hf he hd hu
    rw [hk] at hx
    refine ⟨x, (groupMethods_get w _ _ _ h k x).2 (Or.inr ⟨s, ?_, hx⟩), methodOfSymbol_ok w s k x hx⟩
    rw [hw]; exact (mem_allSymbols ops s).2 hs

/-- A program with one free function `add(a: u32, b: u32)`. -/
def freeFn : World where
  index := buildIndex [.binary [⟨chars! "add", some ⟨chars! "add", [], [], chars! "add"⟩, 4096, true, 8⟩] 0]
  fnEntry _ _ := some 21
  file _ := table [(fnDie 21 (chars! "add"), [22, 23]), (paramDie 22 (chars! "a") 40, []), (paramDie 23 (chars! "b") 40, [])]
  resolve _ _ := .err
  shallow _ _ := .ok (.mk (some 40) (.uint 4))
  position _ _ := true
  debugFiles := [0]
  indexed := [0]
  modules _ := ⟨[], .empty⟩
  demangle _ := none

/-- C44 fails for the listing of all methods: a free function is listed as a method of the type of its
first parameter, and loses that parameter. (The hypotheses of
`C44_all_grouped_by_first_parameter` hold here.) -/
theorem C44_free_function_listed_fails :
    ∃ m, allMethods freeFn = .ok m ∧
      m.entries.map (fun e => (e.1, e.2.map fun x => (x.name, x.selfType, x.params.length))) =
        [(chars! "u32", [(chars! "add", none, 1)])] := ⟨_, rfl, rfl⟩

end Rudy.Discovery
