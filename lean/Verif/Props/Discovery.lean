import Verif.Proof.Discovery
import Verif.Props.Symbols
/-
C40: function discovery.
-/
namespace Rudy.Discovery
open Rudy.Symbols Rudy.Dwarf Rudy.Parse Rudy.Layout Rudy.TypeRes Rudy.Modules

/-- The result entry `r` is about the symbol `s`. -/
structure About (s : Symbol) (r : Found) : Prop where
  name : r.name = s.name.lookupName
  fullName : r.fullName = s.name.display
  address : r.address = s.address
  modulePath : r.modulePath = s.name.modulePath

theorem describe_about (w : World) (s : Symbol) (r : Found) (h : describe w s = .ok r) : About s r := by
  unfold describe at h
  split at h
  · cases h; exact ⟨rfl, rfl, rfl, rfl⟩
  · rename_i f e _
    cases hc : createFunction w s f e with
    | panic => rw [hc] at h; cases h
    | err => rw [hc] at h; cases h; exact ⟨rfl, rfl, rfl, rfl⟩
    | ok r' =>
      rw [hc] at h
      cases h
      simp only [createFunction, Res.bind_eq_ok, Res.ok.injEq] at hc
      obtain ⟨i, _, ps, _, ret, _, rfl⟩ := hc
      exact ⟨rfl, rfl, rfl, rfl⟩

theorem matchesPattern_iff (n p : SymbolName) :
    matchesPattern n p = true ↔ n.lookupName = p.lookupName ∧ p.modulePath <:+ n.modulePath := by
  simp only [matchesPattern, Bool.or_eq_true, decide_eq_true_eq, Bool.and_eq_true, beq_iff_eq]
  constructor
  · rintro (rfl | h)
    · exact ⟨rfl, List.suffix_refl _⟩
    · exact h
  · exact fun h => Or.inr h

/-- A function in force in the index that fits the name `p`: its short name is that of `p` and its module path ends with that of `p`
(a full name fits itself). -/
def Fits (ops : List IndexOp) (p : SymbolName) (s : Symbol) : Prop :=
  InForce ops s ∧ s.name.lookupName = p.lookupName ∧ ∃ outer, s.name.modulePath = outer ++ p.modulePath

theorem mem_matches (ops : List IndexOp) (p : SymbolName) (s : Symbol) :
    s ∈ ((allSymbols (buildIndex ops)).filter fun s => matchesPattern s.name p) ↔ Fits ops p s := by
  rw [List.mem_filter, mem_allSymbols, matchesPattern_iff]
  constructor
  · rintro ⟨h1, h2, o, h3⟩; exact ⟨h1, h2, o, h3.symm⟩
  · rintro ⟨h1, h2, o, h3⟩; exact ⟨h1, h2, o, h3.symm⟩

/-- The entry found for a function in force is the one in its file. -/
theorem getFunction_entry (w : World) (ops : List IndexOp) (hw : w.index = buildIndex ops) (s : Symbol) (hs : InForce ops s) (f e : Nat) :
    getFunction w s.name = some (f, e) ↔ f = s.debugFile ∧ w.fnEntry s.debugFile s.name = some e := by
  rw [getFunction_inForce w ops hw s hs, Option.map_eq_some_iff]
  constructor
  · rintro ⟨a, h, h'⟩; cases h'; exact ⟨rfl, h⟩
  · rintro ⟨rfl, h⟩; exact ⟨e, h, rfl⟩

/-- C40: for every history of the symbol index and every pattern that parses, if reading the signatures of the functions that fit the pattern
does not crash, discovery succeeds and its entries are, one to one, the functions that fit; none is listed twice. They come in the order of their names. -/
theorem C40_finds_exactly_the_matches (w : World) (ops : List IndexOp) (hw : w.index = buildIndex ops)
    (pattern : Str) (p : SymbolName) (hp : SymbolName.parse pattern = some p)
    (hn : ∀ s e, Fits ops p s → w.fnEntry s.debugFile s.name = some e → ¬ Crashes w s.debugFile e) :
    ∃ syms rs, discover w pattern = .ok rs ∧ List.Forall₂ About syms rs ∧ (∀ s, s ∈ syms ↔ Fits ops p s) ∧
      syms.Nodup ∧ syms.Pairwise fun a b => a.name.cmp b.name = .lt := by
  obtain ⟨rs, hr⟩ := describeAll_total w ((allSymbols w.index).filter fun s => matchesPattern s.name p) (by
    intro s hs f e hg
    rw [hw, mem_matches] at hs
    obtain ⟨rfl, he⟩ := (getFunction_entry w ops hw s hs.1 f e).1 hg
    exact hn s e hs he)
  have hsort : ((allSymbols w.index).filter fun s => matchesPattern s.name p).Pairwise
      fun a b => a.name.cmp b.name = .lt := by
    rw [hw]; exact (allSymbols_sorted ops).filter _
  refine ⟨_, rs, ?_, ?_, ?_, ?_, hsort⟩
  · simp only [discover, hp, Res.ofOption, Res.bind_ok, discoverFunctions]; exact hr
  · have := (describeAll_ok w _ rs).1 hr
    exact this.imp fun s r h => describe_about w s r h
  · intro s
    rw [hw, mem_matches]
  · exact hsort.imp fun {a b} h e => by
      subst e
      have := Std.ReflCmp.compare_self (cmp := SymbolName.cmp) (a := a.name)
      rw [this] at h; cases h

/-- C40: discovery crashes exactly if reading the signature of one of the functions that fit does (a parameter behind a `RwLock`, say:
`C57_rwlock_fails`); a crash is all the user gets, also for the other functions. -/
theorem C40_crashes_iff (w : World) (ops : List IndexOp) (hw : w.index = buildIndex ops)
    (pattern : Str) (p : SymbolName) (hp : SymbolName.parse pattern = some p) :
    discover w pattern = .panic ↔ ∃ s e, Fits ops p s ∧ w.fnEntry s.debugFile s.name = some e ∧ Crashes w s.debugFile e := by
  constructor
  · intro h
    by_cases hn : ∃ s e, Fits ops p s ∧ w.fnEntry s.debugFile s.name = some e ∧ Crashes w s.debugFile e
    · exact hn
    · obtain ⟨_, rs, hr, -⟩ := C40_finds_exactly_the_matches w ops hw pattern p hp fun s e h1 h2 h3 => hn ⟨s, e, h1, h2, h3⟩
      rw [h] at hr; cases hr
  · rintro ⟨s, e, h1, h2, h3⟩
    simp only [discover, hp, Res.ofOption, Res.bind_ok, discoverFunctions]
    refine describeAll_panic w _ s ?_ s.debugFile e ((getFunction_entry w ops hw s h1.1 _ e).2 ⟨rfl, h2⟩) h3
    rw [hw]
    exact (mem_matches ops p s).2 h1

/-- C40, spelled out for a pattern written as a path: `a::b::f` finds exactly the functions `f` whose
module path ends in `a::b`. (A last segment that looks like a hash is not taken for a name: C12.) -/
theorem C40_path_pattern (w : World) (ops : List IndexOp) (hw : w.index = buildIndex ops)
    (ms : List Str) (n : Str) (hm : ∀ s ∈ ms, CleanSegment s) (hc : CleanSegment n)
    (hh : looksLikeHash n = false)
    (hn : ∀ s e outer, InForce ops s → s.name.lookupName = n → s.name.modulePath = outer ++ ms →
      w.fnEntry s.debugFile s.name = some e → ¬ Crashes w s.debugFile e) :
    ∃ syms rs, discover w (joinSep (ms ++ [n])) = .ok rs ∧ List.Forall₂ About syms rs ∧
      (∀ s, s ∈ syms ↔
        InForce ops s ∧ s.name.lookupName = n ∧ ∃ outer, s.name.modulePath = outer ++ ms) ∧
      syms.Nodup ∧ syms.Pairwise fun a b => a.name.cmp b.name = .lt :=
  C40_finds_exactly_the_matches w ops hw (joinSep (ms ++ [n]))
    ⟨n, [], ms, joinSep (ms ++ [n])⟩ (by rw [SymbolName.parse, C11_roundtrip ms n hm hc hh]; rfl) (by
      rintro s e ⟨h1, h2, o, h3⟩ h4
      exact hn s e o h1 h2 h3 h4)

/-- C40: a pattern that does not parse is an error (and never an empty list). -/
theorem C40_bad_pattern_is_an_error (w : World) (pattern : Str) (hp : SymbolName.parse pattern = none) :
    discover w pattern = .err := by
  simp [discover, hp, Res.ofOption]

/-- The signature the debugging information gives a function at the entry `e` of a file: the resolved
types of its typed parameters, in order, and its resolved return type. -/
def HasSignature (w : World) (f e : Nat) (ps : List (Option Str × TypeDef)) (ret : Option TypeDef) : Prop :=
  ∃ params rt, Declares (w.file f) e params rt ∧
    List.Forall₂ (fun (p : Param) (r : Option Str × TypeDef) => r.1 = p.name ∧ w.resolve f p.ty = .ok r.2) params ps ∧
    ((rt = none ∧ ret = none) ∨ ∃ t T, rt = some t ∧ ret = some T ∧ w.resolve f t = .ok T)

/-- C40: an entry is marked callable exactly if the file of its symbol has debugging information for
the name with a signature all of whose types resolve; then the entry has that signature. Otherwise the
entry has no parameters and no return type. -/
theorem C40_callable_iff_signature_known (w : World) (ops : List IndexOp) (hw : w.index = buildIndex ops)
    (s : Symbol) (hs : InForce ops s) (r : Found) (h : describe w s = .ok r) :
    (r.callable = true → ∃ e, w.fnEntry s.debugFile s.name = some e ∧
      HasSignature w s.debugFile e r.params r.ret ∧ r.signature = signature s.name r.params r.ret) ∧
    (r.callable = false → r.params = [] ∧ r.ret = none ∧
      ¬ ∃ e ps ret, w.fnEntry s.debugFile s.name = some e ∧ HasSignature w s.debugFile e ps ret) := by
  unfold describe at h
  rw [getFunction_inForce w ops hw s hs] at h
  cases he : w.fnEntry s.debugFile s.name with
  | none =>
    rw [he] at h
    simp only [Option.map_none, Res.ok.injEq] at h
    subst h
    refine ⟨fun hc => absurd hc (by simp [basic]), fun _ => ⟨rfl, rfl, ?_⟩⟩
    rintro ⟨e, ps, ret, h, _⟩
    cases h
  | some e =>
    rw [he] at h
    simp only [Option.map_some] at h
    cases hc : createFunction w s s.debugFile e with
    | panic => rw [hc] at h; cases h
    | err =>
      rw [hc] at h
      cases h
      refine ⟨fun hc => absurd hc (by simp [basic]), fun _ => ⟨rfl, rfl, ?_⟩⟩
      rintro ⟨e', ps, ret, h1, params, rt, hd, hf, hr⟩
      cases h1
      obtain ⟨i, hi, rfl, rfl⟩ := functionInfo_of_declares _ _ _ _ hd
      have hps := (resolveParams_ok _ _ _).2 hf
      unfold createFunction at hc
      rw [hi] at hc
      simp only [Res.bind_ok, hps] at hc
      rcases hr with ⟨h2, _⟩ | ⟨t, T, h2, _, h3⟩
      · rw [h2] at hc; simp at hc
      · rw [h2] at hc; simp [h3] at hc
    | ok r' =>
      rw [hc] at h
      cases h
      simp only [createFunction, Res.bind_eq_ok, Res.ok.injEq] at hc
      obtain ⟨i, hi, ps, hps, ret, hret, rfl⟩ := hc
      refine ⟨fun _ => ⟨e, rfl, ⟨i.params, i.ret, functionInfo_ok _ _ _ hi, (resolveParams_ok _ _ _).1 hps, ?_⟩, rfl⟩,
        fun hc => by cases hc⟩
      cases hir : i.ret with
      | none =>
        rw [hir] at hret
        simp only [Res.ok.injEq] at hret
        exact Or.inl ⟨rfl, hret.symm⟩
      | some t =>
        rw [hir] at hret
        simp only [Res.bind_eq_ok, Res.ok.injEq] at hret
        obtain ⟨T, h1, h2⟩ := hret
        exact Or.inr ⟨t, T, rfl, h2.symm, h1⟩

/-- C40: the signature of a callable entry reads `fn name(p0: T0, p1: T1, ...) -> R`: the parameters in
order with their printed types, a parameter without name shown as `_` and its position, and the return
type unless there is none or it is `()`. The signature of any other entry is `fn path(?)`. -/
theorem C40_signature_text (w : World) (s : Symbol) (r : Found) (h : describe w s = .ok r) :
    (r.callable = true → ∃ texts tail,
      r.signature = chars! "fn " ++ r.name ++ chars! "(" ++ commaSep texts ++ chars! ")" ++ tail ∧
      texts.length = r.params.length ∧
      (∀ (i : Nat) (n : Str) (t : TypeDef), r.params[i]? = some (some n, t) → texts[i]? = some (n ++ chars! ": " ++ t.displayName)) ∧
      (∀ (i : Nat) (t : TypeDef), r.params[i]? = some (none, t) →
        texts[i]? = some (chars! "_" ++ natStr i ++ chars! ": " ++ t.displayName)) ∧
      (r.ret = none → tail = []) ∧
      (∀ t, r.ret = some t → t.displayName = chars! "()" → tail = []) ∧
      (∀ t, r.ret = some t → t.displayName ≠ chars! "()" → tail = chars! " -> " ++ t.displayName)) ∧
    (r.callable = false → r.signature = chars! "fn " ++ r.fullName ++ chars! "(?)") := by
  unfold describe at h
  split at h
  · cases h; exact ⟨fun hc => by simp [basic] at hc, fun _ => rfl⟩
  · rename_i f e _
    cases hc : createFunction w s f e with
    | panic => rw [hc] at h; cases h
    | err => rw [hc] at h; cases h; exact ⟨fun hc => by simp [basic] at hc, fun _ => rfl⟩
    | ok r' =>
      rw [hc] at h
      cases h
      simp only [createFunction, Res.bind_eq_ok, Res.ok.injEq] at hc
      obtain ⟨i, hi, ps, hps, ret, hret, rfl⟩ := hc
      refine ⟨fun _ => ⟨ps.mapIdx paramText, retText ret, ?_, by simp, ?_, ?_, ?_, ?_, ?_⟩, fun hc => by cases hc⟩
      · simp only [signature, joinComma_eq]
      · intro i n t hi
        simp only [] at hi
        simp [List.getElem?_mapIdx, hi, paramText]
      · intro i t hi
        simp only [] at hi
        simp [List.getElem?_mapIdx, hi, paramText]
      · rintro rfl; rfl
      · rintro t rfl ht; simp [retText, ht]
      · rintro t rfl ht; simp [retText, ht]

theorem collectAll_total (w : World) (ss : List Symbol)
    (h : ∀ s ∈ ss, ∀ f e, getFunction w s.name = some (f, e) → ¬ Crashes w f e) (m : OMap Str Found) :
    ∃ m', collectAll w ss m = .ok m' := by
  induction ss generalizing m with
  | nil => exact ⟨m, rfl⟩
  | cons s ss ih =>
    obtain ⟨r, hr⟩ := describe_total w s (h s (List.mem_cons_self ..))
    simp only [collectAll, hr, Res.bind_ok]
    exact ih (fun s hs => h s (List.mem_cons_of_mem _ hs)) _

theorem collectAll_panic (w : World) (ss : List Symbol) (s : Symbol) (hs : s ∈ ss) (f e : Nat) (hg : getFunction w s.name = some (f, e))
    (hc : Crashes w f e) (m : OMap Str Found) : collectAll w ss m = .panic := by
  induction ss generalizing m with
  | nil => cases hs
  | cons a ss ih =>
    simp only [collectAll]
    cases hd : describe w a with
    | panic => rfl
    | err => exact absurd hd (describe_no_err w a)
    | ok r =>
      rcases List.mem_cons.1 hs with rfl | hs
      · rw [(describe_panic_iff w s).2 ⟨f, e, hg, hc⟩] at hd; cases hd
      · exact ih hs _

theorem collectAll_get (w : World) (ss : List Symbol) (m m' : OMap Str Found) (h : collectAll w ss m = .ok m')
    (k : Str) :
    (m'.get compare k = m.get compare k ∧ ∀ s ∈ ss, s.name.display ≠ k) ∨
    ∃ before s after r, ss = before ++ s :: after ∧ s.name.display = k ∧ (∀ t ∈ after, t.name.display ≠ k) ∧
      describe w s = .ok r ∧ m'.get compare k = some r := by
  induction ss generalizing m with
  | nil => cases h; exact Or.inl ⟨rfl, by simp⟩
  | cons s ss ih =>
    simp only [collectAll, Res.bind_eq_ok] at h
    obtain ⟨r, h1, h2⟩ := h
    rcases ih _ h2 with ⟨h3, h4⟩ | ⟨b, t, a, r', h3, h4, h5, h6, h7⟩
    · rw [OMap.get_insert] at h3
      by_cases hk : k = s.name.display
      · right
        rw [hk] at h3 h4 ⊢
        simp only [Std.ReflCmp.compare_self, if_true] at h3
        exact ⟨[], s, ss, r, rfl, rfl, h4, h1, h3⟩
      · left
        have : compare k s.name.display ≠ .eq := fun hc => hk (Std.LawfulEqCmp.eq_of_compare hc)
        rw [if_neg this] at h3
        refine ⟨h3, ?_⟩
        intro t ht
        rcases List.mem_cons.1 ht with rfl | ht
        · exact fun h => hk h.symm
        · exact h4 t ht
    · exact Or.inr ⟨s :: b, t, a, r', by rw [h3]; rfl, h4, h5, h6, h7⟩

/-- C40 for listing all functions: there is an entry under a name exactly if a function in force prints
so, and it is about the last (in name order) of the functions that do. (If reading a signature crashes: `C40_all_crashes_iff`.) -/
theorem C40_all_by_printed_name (w : World) (ops : List IndexOp) (hw : w.index = buildIndex ops)
    (hn : ∀ s e, InForce ops s → w.fnEntry s.debugFile s.name = some e → ¬ Crashes w s.debugFile e) :
    ∃ m, discoverAll w = .ok m ∧ ∀ k,
      (m.get compare k = none ↔ ∀ s, InForce ops s → s.name.display ≠ k) ∧
      ∀ r, m.get compare k = some r → ∃ s, InForce ops s ∧ s.name.display = k ∧ About s r ∧
        ∀ t, InForce ops t → t.name.display = k → t = s ∨ t.name.cmp s.name = .lt := by
  obtain ⟨m, hm⟩ := collectAll_total w (allSymbols w.index) (by
    intro s hs f e hg
    rw [hw, mem_allSymbols] at hs
    obtain ⟨rfl, he⟩ := (getFunction_entry w ops hw s hs f e).1 hg
    exact hn s e hs he) ⟨[]⟩
  refine ⟨m, hm, ?_⟩
  intro k
  rcases collectAll_get w _ _ _ hm k with ⟨h1, h2⟩ | ⟨b, s, a, r, h1, h2, h3, h4, h5⟩
  · constructor
    · constructor
      · intro _ s hs
        exact h2 s (by rw [hw]; exact (mem_allSymbols ops s).2 hs)
      · intro _; rw [h1]; rfl
    · intro r hr
      rw [h1] at hr; cases hr
  · have hs : InForce ops s := (mem_allSymbols ops s).1 (by rw [← hw, h1]; simp)
    constructor
    · constructor
      · intro h; rw [h5] at h; cases h
      · intro h; exact absurd h2 (h s hs)
    · intro r' hr'
      rw [h5] at hr'; cases hr'
      refine ⟨s, hs, h2, describe_about w s _ h4, ?_⟩
      intro t ht htk
      have hmem := (mem_allSymbols ops t).2 ht
      have hsort := allSymbols_sorted ops
      rw [← hw, h1] at hmem hsort
      rcases List.mem_append.1 hmem with hb | hb
      · right
        exact (List.pairwise_append.1 hsort).2.2 t hb s (by simp)
      · rcases List.mem_cons.1 hb with rfl | hb
        · exact Or.inl rfl
        · exact absurd htk (h3 t hb)

/-- C40: listing all functions crashes exactly if reading the signature of one of them does. -/
theorem C40_all_crashes_iff (w : World) (ops : List IndexOp) (hw : w.index = buildIndex ops) :
    discoverAll w = .panic ↔ ∃ s e, InForce ops s ∧ w.fnEntry s.debugFile s.name = some e ∧ Crashes w s.debugFile e := by
  constructor
  · intro h
    by_cases hn : ∃ s e, InForce ops s ∧ w.fnEntry s.debugFile s.name = some e ∧ Crashes w s.debugFile e
    · exact hn
    · obtain ⟨m, hm, -⟩ := C40_all_by_printed_name w ops hw fun s e h1 h2 h3 => hn ⟨s, e, h1, h2, h3⟩
      rw [h] at hm; cases hm
  · rintro ⟨s, e, h1, h2, h3⟩
    refine collectAll_panic w _ s ?_ s.debugFile e ((getFunction_entry w ops hw s h1 _ e).2 ⟨rfl, h2⟩) h3 _
    rw [hw]
    exact (mem_allSymbols ops s).2 h1

/-! ### What the code does not keep -/

/-- Only symbols: no debugging information at all. -/
def bare (ops : List IndexOp) : World where
  index := buildIndex ops
  fnEntry _ _ := none
  file _ := { entry := fun _ => none, children := fun _ => .err }
  resolve _ _ := .err
  shallow _ _ := .err
  position _ _ := false
  debugFiles := []
  indexed := []
  modules _ := ⟨[], .empty⟩
  demangle _ := none

/-- A text symbol with a given demangled name. -/
def entryOf (raw : Str) (n : SymbolName) (a : Nat) : RawEntry :=
  { raw := raw, demangled := some n, address := a, isText := true, size := 1 }

/-- `run` at the top level, and `a::run`. -/
def twoRuns : List IndexOp :=
  [.binary [entryOf (chars! "r1") ⟨chars! "run", [], [chars! "b"], chars! "b::run"⟩ 16,
            entryOf (chars! "r2") ⟨chars! "run", [], [chars! "a", chars! "b"], chars! "a::b::run"⟩ 32] 0]

/-- The hypotheses of `C40_finds_exactly_the_matches` hold of the concrete population, and both
functions match. -/
example : ∃ p, SymbolName.parse (chars! "b::run") = some p ∧ p.modulePath = [chars! "b"] ∧
    ∀ s e, Fits twoRuns p s → (bare twoRuns).fnEntry s.debugFile s.name = some e → ¬ Crashes (bare twoRuns) s.debugFile e :=
  ⟨_, rfl, rfl, by intro s e _ h; cases h⟩

/-- C40 fails as documented ("exact matches first"): for the pattern `b::run` the function `a::b::run`
comes before the function called exactly `b::run`. -/
theorem C40_exact_first_fails :
    ∃ rs, discover (bare twoRuns) (chars! "b::run") = .ok rs ∧
      rs.map (·.fullName) = [chars! "a::b::run", chars! "b::run"] := ⟨_, rfl, rfl⟩

/-- C40 fails as documented ("calc" finding `calculate_sum`): nothing is found by a part of its name. -/
theorem C40_fuzzy_fails :
    discover (bare [.binary [entryOf (chars! "r") ⟨chars! "calculate_sum", [], [], chars! "calculate_sum"⟩ 16] 0])
      (chars! "calc") = .ok [] := rfl

/-- C40 fails for listing all functions: two functions that differ only in the hash (two instances of a
generic function, say) become one entry. -/
theorem C40_all_loses_instances_fails :
    let ops : List IndexOp :=
      [.binary [entryOf (chars! "r1") ⟨chars! "id", chars! "h1", [chars! "m"], chars! "m::id::h1"⟩ 16,
                entryOf (chars! "r2") ⟨chars! "id", chars! "h2", [chars! "m"], chars! "m::id::h2"⟩ 32] 0]
    ∃ m, discoverAll (bare ops) = .ok m ∧ m.entries.map (fun e => (e.1, e.2.address)) = [(chars! "m::id", 32)] ∧
      ∃ rs, discover (bare ops) (chars! "m::id") = .ok rs ∧ rs.map (·.address) = [16, 32] :=
  ⟨_, rfl, rfl, _, rfl, rfl⟩

/-- A function whose second parameter has no type. -/
def untypedParam : World :=
  { bare [.binary [entryOf (chars! "r") ⟨chars! "f", [], [], chars! "f"⟩ 16] 0] with
    fnEntry := fun _ _ => some 1
    file := fun _ =>
      { entry := fun e =>
          if e = 1 then some { off := 1, tag := .subprogram }
          else if e = 2 then some { off := 2, tag := .formalParameter, attrs := [(.name, .str (chars! "a")), (.type, .ref 9)] }
          else if e = 3 then some { off := 3, tag := .formalParameter, attrs := [(.name, .str (chars! "b"))] }
          else none
        children := fun e => if e = 1 then .ok [2, 3] else .ok [] }
    resolve := fun _ _ => .ok (.mk (some 9) (.uint 4)) }

/-- C40 fails for parameters without a readable type: they are left out of the signature, and the
function is still marked callable. -/
theorem C40_untyped_parameter_fails :
    ∃ r, discover untypedParam (chars! "f") = .ok [r] ∧ r.callable = true ∧
      r.signature = chars! "fn f(a: u32)" ∧ r.params.length = 1 := ⟨_, rfl, rfl, rfl, rfl⟩

/-- The hypotheses of `C40_callable_iff_signature_known` are met there: the symbol is in force. -/
example : ∃ s, InForce [.binary [entryOf (chars! "r") ⟨chars! "f", [], [], chars! "f"⟩ 16] 0] s ∧
    untypedParam.fnEntry s.debugFile s.name = some 1 :=
  ⟨⟨⟨chars! "f", [], [], chars! "f"⟩, 16, 0⟩, ⟨[], [], rfl, by simp⟩, rfl⟩

/-- Two functions `f` and `g`; the type of the parameter of `f` makes the debugger crash. -/
def crashing : World :=
  { untypedParam with
    index := buildIndex [.binary [entryOf (chars! "r") ⟨chars! "f", [], [], chars! "f"⟩ 16, entryOf (chars! "q") ⟨chars! "g", [], [], chars! "g"⟩ 32] 0]
    fnEntry := fun _ n => if n.lookupName = chars! "f" then some 1 else none
    resolve := fun _ _ => .panic }

/-- `C40_crashes_iff` at work: looking for `f` crashes, looking for `g` does not, and listing all functions does. -/
example : discover crashing (chars! "f") = .panic ∧ (∃ rs, discover crashing (chars! "g") = .ok rs) ∧ discoverAll crashing = .panic :=
  ⟨rfl, ⟨_, rfl⟩, rfl⟩

end Rudy.Discovery
