import Verif.Model.Report
import Verif.Props.Methods
import Verif.Props.Discovery
/-
C93: the account of all function symbols is complete and says of each what is known about it.
-/
namespace Rudy.Discovery
open Rudy.Symbols Rudy.Dwarf Rudy.Parse Rudy.Layout Rudy.TypeRes Rudy.Modules

/-- What the account says about a function symbol: its file was not indexed, or there is no declaration of
it, or the declaration was read (then with its name, parameters, result and whether the first parameter is
called self), or it was not. -/
def Says (w : World) (s : Symbol) : Analysis → Prop
  | .unindexedFile f => f = s.debugFile ∧ s.debugFile ∉ w.indexed
  | .noDebugInfo => s.debugFile ∈ w.indexed ∧ w.fnEntry s.debugFile s.name = none
  | .discovered sig => s.debugFile ∈ w.indexed ∧ ∃ e, w.fnEntry s.debugFile s.name = some e ∧
      Declaration w s.debugFile e sig.name sig.params sig.ret ∧
      (sig.self.isSome = true ↔ ∃ p rest, sig.params = p :: rest ∧ (p.1 = some (chars! "self") ∨
        p.1 = some (chars! "&self") ∨ p.1 = some (chars! "&mut self"))) ∧
      (∀ k, sig.self = some k → ∃ p rest, sig.params = p :: rest ∧ Receives p.2.layout k)
  | .analysisError => s.debugFile ∈ w.indexed ∧ ∃ e, w.fnEntry s.debugFile s.name = some e ∧
      ∀ n ps ret, ¬ Declaration w s.debugFile e n ps ret

theorem variableP_no_panic (shallow : Nat → Res TypeDef) (position : Nat → Bool)
    (db : Db) (e : Nat) (h : ∀ t, Typed db e t → shallow t ≠ .panic) : variableP shallow position db e ≠ .panic := by
  simp only [variableP, filterP, andThen]
  have h1 := dieName_no_panic db e
  unfold dieName at h1
  have h2 := refAttr_no_panic db e .type
  have hk : ∀ n : Option Str, (((entryType db e).bind fun a => shallow a).bind fun t =>
      if position e then Res.ok (n, t) else .err) ≠ .panic := by
    intro n
    cases hr : entryType db e with
    | panic => exact absurd hr (by unfold entryType; exact h2)
    | err => simp
    | ok a =>
      simp only [Res.bind_ok]
      cases hs : shallow a with
      | panic => exact absurd hs (h a ((typed_iff _ _ _).1 hr))
      | err => simp
      | ok t => simp only [Res.bind_ok]; split <;> simp
  cases hn : stringAttr .name db e with
  | panic => exact absurd hn h1
  | err => exact hk _
  | ok n => exact hk _

theorem bind_no_panic {A B : Type} (x : Res A) (f : A → Res B) (hx : x ≠ .panic) (hf : ∀ a, f a ≠ .panic) :
    x.bind f ≠ .panic := by
  cases x with
  | panic => exact absurd rfl hx
  | err => simp
  | ok a => exact hf a

theorem tryCollect_no_panic {T : Type} (p : Parser (Option T)) (db : Db) (cs : List Nat) (h : ∀ c ∈ cs, p db c ≠ .panic) :
    tryCollect p db cs ≠ .panic := by
  induction cs with
  | nil => simp [tryCollect]
  | cons c cs ih =>
    exact bind_no_panic _ _ (h c (List.mem_cons_self ..)) fun o =>
      bind_no_panic _ _ (ih fun c hc => h c (List.mem_cons_of_mem _ hc)) fun _ => by simp

theorem filterP_no_panic {T : Type} (p : Parser T) (db : Db) (e : Nat) (h : p db e ≠ .panic) :
    filterP p db e ≠ .panic := by
  unfold filterP
  cases hp : p db e with
  | panic => exact absurd hp h
  | err => simp
  | ok _ => simp

theorem isMemberTag_no_panic (t : Tag) (db : Db) (e : Nat) : isMemberTag t db e ≠ .panic := by
  unfold isMemberTag; split <;> simp

theorem andThenOpt_no_panic {U : Type} (p : Parser (Option Nat)) (q : Parser U) (db : Db) (e : Nat)
    (hp : p db e ≠ .panic) (hq : ∀ m, p db e = .ok (some m) → q db m ≠ .panic) : andThenOpt p q db e ≠ .panic := by
  simp only [andThenOpt]
  cases hpe : p db e with
  | panic => exact absurd hpe hp
  | err => simp
  | ok o =>
    cases o with
    | none => simp
    | some m =>
      simp only [Res.bind_ok]
      exact bind_no_panic _ _ (hq m hpe) fun _ => by simp

theorem filterP_some {T : Type} (p : Parser T) (db : Db) (e : Nat) (x : T) : filterP p db e = .ok (some x) ↔ p db e = .ok x := by
  unfold filterP
  cases p db e <;> simp

theorem isMemberTag_ok (t : Tag) (db : Db) (e m : Nat) : isMemberTag t db e = .ok m ↔ m = e ∧ Tagged db e t := by
  unfold isMemberTag
  rw [← tagged_iff]
  split
  · rename_i h; simp [h, eq_comm]
  · rename_i h; simp [h]

/-- Specification: reading the declaration at `e` of file `f` crashes: it has a name, and resolving the type of its result crashes; or that does not fail, and resolving the type of a parameter crashes,
after parameters that could be read. -/
def ReadingCrashes (w : World) (f e : Nat) : Prop :=
  (∃ n, Named (w.file f) e n) ∧
  ((∃ t, Typed (w.file f) e t ∧ w.shallow f t = .panic) ∨
   (∀ t, Typed (w.file f) e t → ∃ T, w.shallow f t = .ok T) ∧
    ((w.file f).children e = .panic ∨
     ∃ before c after t, (w.file f).children e = .ok (before ++ c :: after) ∧ Tagged (w.file f) c .formalParameter ∧ Typed (w.file f) c t ∧ w.shallow f t = .panic ∧
      ∀ b ∈ before, Tagged (w.file f) b .formalParameter → ∃ p, IsArgument w f b p))

theorem bind_panic_iff {A B : Type} (x : Res A) (f : A → Res B) : x.bind f = .panic ↔ x = .panic ∨ ∃ a, x = .ok a ∧ f a = .panic := by
  cases x <;> simp [Res.bind]

theorem typed_only {db : Db} {e t t' : Nat} (h : Typed db e t) (h' : Typed db e t') : t = t' := by
  have := (typed_iff _ _ _).2 h
  rw [(typed_iff _ _ _).2 h'] at this
  exact (Res.ok.inj this).symm

theorem variableP_panic (w : World) (f c : Nat) : variableP (w.shallow f) (w.position f) (w.file f) c = .panic ↔ ∃ t, Typed (w.file f) c t ∧ w.shallow f t = .panic := by
  constructor
  · intro h
    apply Classical.byContradiction
    intro hn
    exact variableP_no_panic _ _ _ _ (fun t ht hp => hn ⟨t, ht, hp⟩) h
  · rintro ⟨t, h1, h2⟩
    have h1' := (typed_iff _ _ _).2 h1
    have h3 : filterP (stringAttr .name) (w.file f) c ≠ .panic := filterP_no_panic _ _ _ (dieName_no_panic _ _)
    simp only [variableP, andThen]
    cases hf : filterP (stringAttr .name) (w.file f) c with
    | panic => exact absurd hf h3
    | err => unfold filterP at hf; split at hf <;> cases hf
    | ok n => simp only [Res.bind_ok, h1', h2, Res.bind_panic]

/-- One child of the declaration. -/
theorem parameter_of (w : World) (f c : Nat) :
    andThenOpt (filterP (isMemberTag .formalParameter)) (andThen (isMemberTag .formalParameter) (variableP (w.shallow f) (w.position f))) (w.file f) c =
      if tag (w.file f) c = some .formalParameter then (variableP (w.shallow f) (w.position f) (w.file f) c).bind fun u => .ok (some u) else .ok none := by
  simp only [andThenOpt, filterP, andThen, isMemberTag]
  split
  · rename_i h; split at h
    · rename_i h'; cases h; simp only [h', if_true, Res.bind_ok]
    · cases h
  · rename_i h; split at h
    · cases h
    · rename_i h'; simp only [h', if_false, Res.bind_ok]
  · rename_i h; split at h <;> cases h

theorem parameters_panic (w : World) (f : Nat) (cs : List Nat) :
    tryCollect (andThenOpt (filterP (isMemberTag .formalParameter)) (andThen (isMemberTag .formalParameter) (variableP (w.shallow f) (w.position f)))) (w.file f) cs = .panic ↔
      ∃ before c after t, cs = before ++ c :: after ∧ Tagged (w.file f) c .formalParameter ∧ Typed (w.file f) c t ∧ w.shallow f t = .panic ∧
        ∀ b ∈ before, Tagged (w.file f) b .formalParameter → ∃ p, IsArgument w f b p := by
  induction cs with
  | nil => simp [tryCollect]
  | cons c cs ih =>
    rw [tryCollect, bind_panic_iff, parameter_of]
    simp only [bind_panic_iff, ih, reduceCtorEq, and_false, exists_false, or_false]
    constructor
    · rintro (h | ⟨o, h, b, c', a, t, rfl, h1, h2, h3, h4⟩)
      · split at h
        · rename_i ht
          rw [bind_panic_iff] at h
          simp only [reduceCtorEq, and_false, exists_false, or_false] at h
          obtain ⟨t, h1, h2⟩ := (variableP_panic w f c).1 h
          exact ⟨[], c, cs, t, rfl, (tagged_iff _ _ _).1 ht, h1, h2, by simp⟩
        · cases h
      · refine ⟨c :: b, c', a, t, rfl, h1, h2, h3, ?_⟩
        intro x hx hxt
        rcases List.mem_cons.1 hx with rfl | hx
        · rw [if_pos ((tagged_iff _ _ _).2 hxt), Res.bind_eq_ok] at h
          obtain ⟨u, hu, _⟩ := h
          exact ⟨u, (variableP_ok w f x u).1 hu⟩
        · exact h4 x hx hxt
    · rintro ⟨b, c', a, t, h0, h1, h2, h3, h4⟩
      cases b with
      | nil =>
        cases h0
        left
        rw [if_pos ((tagged_iff _ _ _).2 h1), (variableP_panic w f _).2 ⟨t, h2, h3⟩, Res.bind_panic]
      | cons x b =>
        cases h0
        right
        by_cases hx : tag (w.file f) c = some .formalParameter
        · obtain ⟨p, hp⟩ := h4 c (List.mem_cons_self ..) ((tagged_iff _ _ _).1 hx)
          exact ⟨some p, by rw [if_pos hx, (variableP_ok w f c p).2 hp, Res.bind_ok], b, c', a, t, rfl, h1, h2, h3, fun y hy => h4 y (List.mem_cons_of_mem _ hy)⟩
        · exact ⟨none, by rw [if_neg hx], b, c', a, t, rfl, h1, h2, h3, fun y hy => h4 y (List.mem_cons_of_mem _ hy)⟩

/-- Reading a declaration crashes exactly as specified. -/
theorem resolveSignature_panic (w : World) (f e : Nat) : resolveSignature w f e = .panic ↔ ReadingCrashes w f e := by
  have hname : ∀ n, stringAttr .name (w.file f) e = .ok n ↔ Named (w.file f) e n := fun n => dieName_ok _ _ _
  have hret : andThenOpt (filterP (refAttr .type)) (fun _ t => w.shallow f t) (w.file f) e = .panic ↔ ∃ t, Typed (w.file f) e t ∧ w.shallow f t = .panic := by
    simp only [andThenOpt, bind_panic_iff]
    constructor
    · rintro (h | ⟨o, h1, h2⟩)
      · exact absurd h (filterP_no_panic _ _ _ (refAttr_no_panic _ _ _))
      · cases o with
        | none => cases h2
        | some t =>
          rw [bind_panic_iff] at h2
          simp only [reduceCtorEq, and_false, exists_false, or_false] at h2
          exact ⟨t, (typed_iff _ _ _).1 ((filterP_some _ _ _ _).1 h1), h2⟩
    · rintro ⟨t, h1, h2⟩
      exact .inr ⟨some t, (filterP_some _ _ _ _).2 ((typed_iff _ _ _).2 h1), by simp only [h2, Res.bind_panic]⟩
  have hretok : (∃ r, andThenOpt (filterP (refAttr .type)) (fun _ t => w.shallow f t) (w.file f) e = .ok r) ↔ ∀ t, Typed (w.file f) e t → ∃ T, w.shallow f t = .ok T := by
    simp only [andThenOpt, Res.bind_eq_ok]
    constructor
    · rintro ⟨r, o, h1, h2⟩ t ht
      rw [(filterP_some (refAttr .type) _ _ _).2 ((typed_iff _ _ _).2 ht)] at h1
      cases h1
      simp only [Res.bind_eq_ok] at h2
      obtain ⟨u, hu, _⟩ := h2
      exact ⟨u, hu⟩
    · intro h
      cases hr : filterP (refAttr .type) (w.file f) e with
      | panic => exact absurd hr (filterP_no_panic _ _ _ (refAttr_no_panic _ _ _))
      | err => unfold filterP at hr; split at hr <;> cases hr
      | ok o =>
        cases o with
        | none => exact ⟨none, none, rfl, rfl⟩
        | some t =>
          obtain ⟨T, hT⟩ := h t ((typed_iff _ _ _).1 ((filterP_some _ _ _ _).1 hr))
          exact ⟨some T, some t, rfl, by simp only [hT, Res.bind_ok]⟩
  rw [resolveSignature, bind_panic_iff]
  simp only [reduceCtorEq, and_false, exists_false, or_false, declaration, both, bind_panic_iff, hret, tryForEachChild, parameters_panic]
  constructor
  · rintro (h | ⟨n, hn, h | ⟨r, hr, h | ⟨cs, h1, b, c, a, t, rfl, h2⟩⟩⟩)
    · exact absurd h (dieName_no_panic _ _)
    · exact ⟨⟨n, (hname n).1 hn⟩, .inl h⟩
    · exact ⟨⟨n, (hname n).1 hn⟩, .inr ⟨hretok.1 ⟨r, hr⟩, .inl h⟩⟩
    · exact ⟨⟨n, (hname n).1 hn⟩, .inr ⟨hretok.1 ⟨r, hr⟩, .inr ⟨b, c, a, t, h1, h2⟩⟩⟩
  · rintro ⟨⟨n, hn⟩, h | ⟨h0, h | ⟨b, c, a, t, h1, h2⟩⟩⟩
    · exact .inr ⟨n, (hname n).2 hn, .inl h⟩
    · obtain ⟨r, hr⟩ := hretok.2 h0
      exact .inr ⟨n, (hname n).2 hn, .inr ⟨r, hr, .inl h⟩⟩
    · obtain ⟨r, hr⟩ := hretok.2 h0
      exact .inr ⟨n, (hname n).2 hn, .inr ⟨r, hr, .inr ⟨_, h1, b, c, a, t, rfl, h2⟩⟩⟩

/-- Reading the declarations of the functions in force in the files that were indexed does not crash. -/
def CalmDeclarations (w : World) (ops : List IndexOp) : Prop :=
  ∀ s e, InForce ops s → s.debugFile ∈ w.indexed → w.fnEntry s.debugFile s.name = some e → ¬ ReadingCrashes w s.debugFile e

/-- A function in force is in the map of its file. -/
theorem file_of_inForce (ops : List IndexOp) (s : Symbol) (h : InForce ops s) :
    ∃ m, (buildIndex ops).symbolsByFile.get compare s.debugFile = some m := by
  obtain ⟨b, a, hb, _⟩ := h
  have hs : s ∈ insertedFns ops := by rw [hb]; simp
  simp only [insertedFns, List.mem_map, List.mem_filter] at hs
  obtain ⟨e, ⟨he, _⟩, rfl⟩ := hs
  have hf := fileInv ops e.sym.debugFile e.raw
  cases hm : (buildIndex ops).symbolsByFile.get compare e.sym.debugFile with
  | some m => exact ⟨m, rfl⟩
  | none =>
    rw [hm] at hf
    simp only [Option.bind_none] at hf
    have := List.getLast?_eq_none_iff.1 hf.symm
    have hmem : e.sym ∈ ((inserted ops).filter (fun e' => e'.sym.debugFile == e.sym.debugFile && e'.raw == e.raw)).map (·.sym) :=
      List.mem_map.2 ⟨e, List.mem_filter.2 ⟨he, by simp⟩, rfl⟩
    rw [this] at hmem
    cases hmem

theorem analyse_says (w : World) (ops : List IndexOp) (hw : w.index = buildIndex ops) (hn : CalmDeclarations w ops)
    (s : Symbol) (hs : InForce ops s) : ∃ a, analyse w s = .ok (some a) ∧ Says w s a := by
  unfold analyse
  by_cases hf : s.debugFile ∈ w.indexed
  · obtain ⟨m, hm⟩ := file_of_inForce ops s hs
    rw [if_pos hf, hw, hm]
    simp only
    cases he : w.fnEntry s.debugFile s.name with
    | none => exact ⟨_, rfl, hf, he⟩
    | some e =>
      simp only
      cases hr : resolveSignature w s.debugFile e with
      | panic => exact absurd ((resolveSignature_panic w _ _).1 hr) (hn s e hs hf he)
      | err =>
        refine ⟨_, rfl, hf, e, he, ?_⟩
        intro n ps ret hd
        have := (declaration_ok _ _ _ _ _ _).2 hd
        simp only [resolveSignature, this, Res.bind_ok] at hr
        cases hr
      | ok sig =>
        refine ⟨_, rfl, hf, e, he, ?_⟩
        simp only [resolveSignature, Res.bind_eq_ok, Prod.exists, Res.ok.injEq] at hr
        obtain ⟨n, ret, ps, hd, rfl⟩ := hr
        refine ⟨(declaration_ok _ _ _ _ _ _).1 hd, ?_, ?_⟩
        · cases ps with
          | nil => simp [sigSelf]
          | cons p rest =>
            refine (sigSelf_iff p rest).trans ⟨fun h => ⟨p, rest, rfl, h⟩, ?_⟩
            rintro ⟨p', rest', h, h'⟩
            cases h
            exact h'
        · intro k hk
          cases ps with
          | nil => cases hk
          | cons p rest => exact ⟨p, rest, rfl, sigSelf_kind p rest k hk⟩
  · rw [if_neg hf]
    exact ⟨_, rfl, rfl, hf⟩

theorem analyseAll_get (w : World) (ss : List Symbol) (hs : ∀ s ∈ ss, ∃ a, analyse w s = .ok (some a))
    (m : OMap Str Analysis) : ∃ m', analyseAll w ss m = .ok m' ∧ ∀ k,
    (m'.get compare k = m.get compare k ∧ ∀ s ∈ ss, s.name.display ≠ k) ∨
    ∃ before s after r, ss = before ++ s :: after ∧ s.name.display = k ∧ (∀ t ∈ after, t.name.display ≠ k) ∧
      analyse w s = .ok (some r) ∧ m'.get compare k = some r := by
  induction ss generalizing m with
  | nil => exact ⟨m, rfl, fun k => Or.inl ⟨rfl, by simp⟩⟩
  | cons s ss ih =>
    obtain ⟨r, h1⟩ := hs s (by simp)
    obtain ⟨m', h2, hk⟩ := ih (fun t ht => hs t (by simp [ht])) (m.insert compare s.name.display r)
    refine ⟨m', by simp only [analyseAll, h1, Res.bind_ok]; exact h2, fun k => ?_⟩
    rcases hk k with ⟨h3, h4⟩ | ⟨b, t, a, r', h3, h4, h5, h6, h7⟩
    · rw [OMap.get_insert] at h3
      by_cases hk : k = s.name.display
      · right
        rw [hk] at h3 h4 ⊢
        simp only [Std.ReflCmp.compare_self, if_true] at h3
        exact ⟨[], s, ss, r, rfl, rfl, h4, h1, h3⟩
      · left
        have : compare k s.name.display ≠ .eq := fun hc => hk (Std.LawfulEqCmp.eq_of_compare hc)
        rw [if_neg this] at h3
        refine ⟨h3, ?_⟩
        intro t ht
        rcases List.mem_cons.1 ht with rfl | ht
        · exact fun h => hk h.symm
        · exact h4 t ht
    · exact Or.inr ⟨s :: b, t, a, r', by rw [h3]; rfl, h4, h5, h6, h7⟩

/-- C93: if reading the declarations of the functions does not crash, the account has an entry under a name exactly if
a function in force prints so, and it says about that function what is known (about the last in name order,
if several print alike). -/
theorem C93_accounts_for_every_function_partial (w : World) (ops : List IndexOp) (hw : w.index = buildIndex ops)
    (hn : CalmDeclarations w ops) :
    ∃ m, report w = .ok m ∧ ∀ k,
      (m.get compare k = none ↔ ∀ s, InForce ops s → s.name.display ≠ k) ∧
      ∀ a, m.get compare k = some a → ∃ s, InForce ops s ∧ s.name.display = k ∧ Says w s a ∧
        ∀ t, InForce ops t → t.name.display = k → t = s ∨ t.name.cmp s.name = .lt := by
  have hall : ∀ s ∈ allSymbols w.index, ∃ a, analyse w s = .ok (some a) := by
    intro s hs
    rw [hw] at hs
    obtain ⟨a, ha, _⟩ := analyse_says w ops hw hn s ((mem_allSymbols ops s).1 hs)
    exact ⟨a, ha⟩
  obtain ⟨m, hm, hget⟩ := analyseAll_get w _ hall ⟨[]⟩
  refine ⟨m, hm, ?_⟩
  intro k
  rcases hget k with ⟨h1, h2⟩ | ⟨b, s, a, r, h1, h2, h3, h4, h5⟩
  · constructor
    · constructor
      · intro _ s hs
        exact h2 s (by rw [hw]; exact (mem_allSymbols ops s).2 hs)
      · intro _; rw [h1]; rfl
    · intro r hr
      rw [h1] at hr; cases hr
  · have hs : InForce ops s := (mem_allSymbols ops s).1 (by rw [← hw, h1]; simp)
    constructor
    · constructor
      · intro h; rw [h5] at h; cases h
      · intro h; exact absurd h2 (h s hs)
    · intro r' hr'
      rw [h5] at hr'; cases hr'
      obtain ⟨a', ha', hsay⟩ := analyse_says w ops hw hn s hs
      rw [ha'] at h4
      cases h4
      refine ⟨s, hs, h2, hsay, ?_⟩
      intro t ht htk
      have hmem := (mem_allSymbols ops t).2 ht
      have hsort := allSymbols_sorted ops
      rw [← hw, h1] at hmem hsort
      rcases List.mem_append.1 hmem with hb | hb
      · right
        exact (List.pairwise_append.1 hsort).2.2 t hb s (by simp)
      · rcases List.mem_cons.1 hb with rfl | hb
        · exact Or.inl rfl
        · exact absurd htk (h3 t hb)

theorem groupMethods_total (w : World) (ops : List IndexOp) (hn : CalmDeclarations w ops) (ss : List Symbol) (hss : ∀ s ∈ ss, InForce ops s)
    (m : OMap Str (List Method)) : ∃ m', groupMethods w ss m = .ok m' := by
  induction ss generalizing m with
  | nil => exact ⟨m, rfl⟩
  | cons s ss ih =>
    have hih := ih fun s hs => hss s (List.mem_cons_of_mem _ hs)
    have : ∃ o, methodOfSymbol w s = .ok o := by
      unfold methodOfSymbol
      split
      · rename_i hf
        split
        · exact ⟨_, rfl⟩
        · rename_i e he
          split
          · rename_i h; exact absurd ((resolveSignature_panic w _ _).1 h) (hn s e (hss s (List.mem_cons_self ..)) hf he)
          · exact ⟨_, rfl⟩
          · split
            · exact ⟨_, rfl⟩
            · split <;> exact ⟨_, rfl⟩
      · exact ⟨_, rfl⟩
    obtain ⟨o, ho⟩ := this
    simp only [groupMethods, ho, Res.bind_ok]
    cases o with
    | none => exact hih _
    | some p => exact hih _

/-- C93: the account agrees with the listing of all methods: both succeed, and a listed method of a function
that no other function in force prints like is accounted for as discovered, with the same name and result
and with one more parameter: the first, of the type the method is listed under. -/
theorem C93_agrees_with_the_listing_partial (w : World) (ops : List IndexOp) (hw : w.index = buildIndex ops)
    (hn : CalmDeclarations w ops) :
    ∃ ms rs, allMethods w = .ok ms ∧ report w = .ok rs ∧ ∀ k x, x ∈ (ms.get compare k).getD [] →
      (∀ s t, InForce ops s → InForce ops t → s.name.display = x.fullName → t.name.display = x.fullName → s = t) →
      ∃ sig p, rs.get compare x.fullName = some (.discovered sig) ∧ sig.name = x.name ∧ sig.ret = x.ret ∧
        sig.params = p :: x.params ∧ p.2.layout.dereferenced.displayName = k := by
  obtain ⟨ms, hms⟩ := groupMethods_total w ops hn (allSymbols w.index) (fun s hs => (mem_allSymbols ops s).1 (by rw [← hw]; exact hs)) ⟨[]⟩
  obtain ⟨rs, hrs, hrep⟩ := C93_accounts_for_every_function_partial w ops hw hn
  refine ⟨ms, rs, hms, hrs, ?_⟩
  intro k x hx huniq
  obtain ⟨s, hs, hlist⟩ := (C44_all_grouped_by_first_parameter w ops hw ms hms k).1 x hx
  obtain ⟨hf, e, n, p, rest, ret, he, hd, hk, _, hxn, hxf, _, hxp, hxr, _⟩ := hlist
  obtain ⟨hnone, hsome⟩ := hrep x.fullName
  cases ha : rs.get compare x.fullName with
  | none => exact absurd hxf.symm (hnone.1 ha s hs)
  | some a =>
    obtain ⟨t, ht, htd, hsay, _⟩ := hsome a ha
    cases huniq s t hs ht hxf.symm htd
    cases a with
    | unindexedFile f => exact absurd hf hsay.2
    | noDebugInfo => rw [hsay.2] at he; cases he
    | analysisError =>
      obtain ⟨_, e', he', hno⟩ := hsay
      rw [he] at he'; cases he'
      exact absurd hd (hno _ _ _)
    | discovered sig =>
      obtain ⟨_, e', he', hd', _⟩ := hsay
      rw [he] at he'; cases he'
      have h1 := (declaration_ok _ _ _ _ _ _).2 hd
      have h2 := (declaration_ok _ _ _ _ _ _).2 hd'
      rw [h1] at h2
      simp only [Res.ok.injEq, Prod.mk.injEq] at h2
      obtain ⟨h3, h4, h5⟩ := h2
      exact ⟨sig, p, rfl, by rw [hxn, h3], by rw [hxr, h4], by rw [hxp, h5], hk⟩

/-- C93: the account and the listing of all methods crash, and the session with them, exactly if reading the declaration of one of the functions in force crashes: it has a parameter or a result of a type
whose resolution crashes. -/
theorem C93_crashes_fails (w : World) (ops : List IndexOp) (hw : w.index = buildIndex ops) :
    (report w = .panic ↔ ∃ s e, InForce ops s ∧ s.debugFile ∈ w.indexed ∧ w.fnEntry s.debugFile s.name = some e ∧ ReadingCrashes w s.debugFile e) ∧
    (allMethods w = .panic ↔ ∃ s e, InForce ops s ∧ s.debugFile ∈ w.indexed ∧ w.fnEntry s.debugFile s.name = some e ∧ ReadingCrashes w s.debugFile e) := by
  have hc : ∀ (s : Symbol), InForce ops s → (∃ e, s.debugFile ∈ w.indexed ∧ w.fnEntry s.debugFile s.name = some e ∧ ReadingCrashes w s.debugFile e) → analyse w s = .panic ∧ methodOfSymbol w s = .panic := by
    rintro s hs ⟨e, h1, h2, h3⟩
    obtain ⟨m, hm⟩ := file_of_inForce ops s hs
    have := (resolveSignature_panic w _ _).2 h3
    exact ⟨by rw [analyse, if_pos h1, hw, hm]; simp only [h2, this], by rw [methodOfSymbol, if_pos h1]; simp only [h2, this]⟩
  have hA : ∀ (ss : List Symbol) (s : Symbol), s ∈ ss → analyse w s = .panic → (∀ t ∈ ss, analyse w t ≠ .err) → ∀ m, analyseAll w ss m = .panic := by
    intro ss s hs hp
    induction ss with
    | nil => cases hs
    | cons t ss ih =>
      intro he m
      rw [analyseAll]
      cases ht : analyse w t with
      | panic => rfl
      | err => exact absurd ht (he t (List.mem_cons_self ..))
      | ok o =>
        have hs' : s ∈ ss := by
          rcases List.mem_cons.1 hs with rfl | h
          · rw [hp] at ht; cases ht
          · exact h
        cases o <;> exact ih hs' (fun t h => he t (List.mem_cons_of_mem _ h)) _
  have hG : ∀ (ss : List Symbol) (s : Symbol), s ∈ ss → methodOfSymbol w s = .panic → (∀ t ∈ ss, methodOfSymbol w t ≠ .err) → ∀ m, groupMethods w ss m = .panic := by
    intro ss s hs hp
    induction ss with
    | nil => cases hs
    | cons t ss ih =>
      intro he m
      rw [groupMethods]
      cases ht : methodOfSymbol w t with
      | panic => rfl
      | err => exact absurd ht (he t (List.mem_cons_self ..))
      | ok o =>
        have hs' : s ∈ ss := by
          rcases List.mem_cons.1 hs with rfl | h
          · rw [hp] at ht; cases ht
          · exact h
        cases o <;> exact ih hs' (fun t h => he t (List.mem_cons_of_mem _ h)) _
  have hm : ∀ s, InForce ops s → s ∈ allSymbols w.index := fun s hs => by rw [hw]; exact (mem_allSymbols ops s).2 hs
  refine ⟨⟨fun h => ?_, fun ⟨s, e, hs, h⟩ => ?_⟩, fun h => ?_, fun ⟨s, e, hs, h⟩ => ?_⟩
  · apply Classical.byContradiction
    intro hno
    obtain ⟨m, hok, _⟩ := C93_accounts_for_every_function_partial w ops hw fun s e h1 h2 h3 h4 => hno ⟨s, e, h1, h2, h3, h4⟩
    rw [hok] at h; cases h
  · refine hA _ s (hm s hs) (hc s hs ⟨e, h⟩).1 ?_ _
    intro t _ ht
    unfold analyse at ht
    split at ht
    · split at ht
      · cases ht
      · split at ht
        · cases ht
        · split at ht <;> cases ht
    · cases ht
  · apply Classical.byContradiction
    intro hno
    obtain ⟨m, hok⟩ := groupMethods_total w ops (fun s e h1 h2 h3 h4 => hno ⟨s, e, h1, h2, h3, h4⟩) (allSymbols w.index) (fun s hs => (mem_allSymbols ops s).1 (by rw [← hw]; exact hs)) ⟨[]⟩
    rw [allMethods, hok] at h; cases h
  · refine hG _ s (hm s hs) (hc s hs ⟨e, h⟩).2 ?_ _
    intro t _ ht
    unfold methodOfSymbol at ht
    split at ht
    · split at ht
      · cases ht
      · split at ht
        · cases ht
        · cases ht
        · split at ht
          · cases ht
          · split at ht <;> cases ht
    · cases ht

/-! ### Examples -/

theorem freeFn_calm (ops : List IndexOp) : CalmDeclarations freeFn ops := by
  intro s e _ _ _
  rintro ⟨_, ⟨t, _, h⟩ | ⟨_, h | ⟨_, _, _, _, _, _, _, h, _⟩⟩⟩
  · simp [freeFn] at h
  · simp [freeFn, table] at h
  · simp [freeFn] at h

/-- The hypotheses hold of the program with the one function `add(a, b)`. -/
example : ∃ m sig, report freeFn = .ok m ∧ m.get compare (chars! "add") = some (.discovered sig) ∧
    sig.params.length = 2 ∧ sig.self = none := ⟨_, _, rfl, rfl, rfl, rfl⟩

example := C93_accounts_for_every_function_partial freeFn _ rfl (freeFn_calm _)
example := C93_agrees_with_the_listing_partial freeFn _ rfl (freeFn_calm _)

/-- Two instances of the generic function `m::id`. -/
def twoIds : List IndexOp :=
  [.binary [entryOf (chars! "r1") ⟨chars! "id", chars! "h1", [chars! "m"], chars! "m::id::h1"⟩ 16,
            entryOf (chars! "r2") ⟨chars! "id", chars! "h2", [chars! "m"], chars! "m::id::h2"⟩ 32] 0]

/-- C93 fails for instances of a generic function: both print as `m::id`, and the account has one entry for
the two symbols. -/
theorem C93_instances_share_an_entry_fails :
    ∃ m, report (bare twoIds) = .ok m ∧ m.entries.map (·.1) = [chars! "m::id"] ∧
      (allSymbols (bare twoIds).index).map (·.address) = [16, 32] :=
  ⟨_, rfl, rfl, rfl⟩

/-- The program of `freeFn`, where the type of the parameters makes the debugger crash: `C93_crashes_fails` at work. -/
example : report { freeFn with shallow := fun _ _ => .panic } = .panic ∧ allMethods { freeFn with shallow := fun _ _ => .panic } = .panic :=
  let ⟨h1, h2⟩ := C93_crashes_fails { freeFn with shallow := fun _ _ => .panic } [.binary [⟨chars! "add", some ⟨chars! "add", [], [], chars! "add"⟩, 4096, true, 8⟩] 0] rfl
  have h : ∃ s e, InForce [.binary [⟨chars! "add", some ⟨chars! "add", [], [], chars! "add"⟩, 4096, true, 8⟩] 0] s ∧ s.debugFile ∈ [0] ∧ some 21 = some e ∧
      ReadingCrashes { freeFn with shallow := fun _ _ => .panic } s.debugFile e :=
    ⟨_, _, ⟨[], [], rfl, by simp⟩, by simp, rfl, ⟨_, _, rfl, rfl⟩, .inr ⟨(by rintro t ⟨d, h, h'⟩; cases h; cases h'), .inr ⟨[], 22, [23], 40, rfl, ⟨_, rfl, rfl⟩, ⟨_, rfl, rfl⟩, rfl, by simp⟩⟩⟩
  ⟨h1.2 h, h2.2 h⟩

end Rudy.Discovery
