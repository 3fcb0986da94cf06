import Verif.Model.Discovery
import Verif.Proof.SymbolIndex
import Verif.Proof.Parser
import Mathlib.Data.List.Forall2
import Mathlib.Data.List.Induction
/- Vocabulary and helper lemmas for Verif.Props.Discovery. -/
namespace Rudy.Discovery
open Rudy.Symbols Rudy.Dwarf Rudy.Parse Rudy.Layout Rudy.TypeRes Rudy.Modules

/-- Two symbols have the same name. -/
def SameName (a b : SymbolName) : Prop :=
  a.lookupName = b.lookupName ∧ a.modulePath = b.modulePath ∧ a.fullPath = b.fullPath

/-- The symbol is in force after a history: a function symbol was inserted, and none of the same name
after it. -/
def InForce (ops : List IndexOp) (s : Symbol) : Prop :=
  ∃ before after, insertedFns ops = before ++ s :: after ∧ ∀ t ∈ after, ¬ SameName t.name s.name

theorem sameName_iff (a b : SymbolName) : SameName a b ↔ a.cmp b = .eq := (cmp_eq_iff a b).symm

theorem getLast_filter {α : Type} (p : α → Bool) (l : List α) (a : α) :
    (l.filter p).getLast? = some a ↔ ∃ b c, l = b ++ a :: c ∧ p a = true ∧ ∀ x ∈ c, p x = false := by
  induction l using List.reverseRecOn with
  | nil => simp
  | append_singleton l x ih =>
    rw [List.filter_append]
    by_cases hx : p x = true
    · have : ([x].filter p) = [x] := by simp [hx]
      rw [this, List.getLast?_append]
      simp only [List.getLast?_singleton, Option.some_or, Option.some.injEq]
      constructor
      · rintro rfl
        exact ⟨l, [], rfl, hx, by simp⟩
      · rintro ⟨b, c, h1, h2, h3⟩
        rcases List.eq_nil_or_concat c with rfl | ⟨c', y, rfl⟩
        · have := List.append_inj' h1 rfl
          simpa using this.2
        · rw [List.concat_eq_append] at h1 h3
          have h1' : l ++ [x] = (b ++ a :: c') ++ [y] := by simpa using h1
          have := (List.append_inj' h1' rfl).2
          simp at this
          subst this
          have := h3 x (by simp)
          rw [hx] at this; cases this
    · have hx' : p x = false := by simpa using hx
      have : ([x].filter p) = [] := by simp [hx']
      rw [this, List.append_nil, ih]
      constructor
      · rintro ⟨b, c, rfl, h2, h3⟩
        refine ⟨b, c ++ [x], by simp, h2, ?_⟩
        intro y hy
        rcases List.mem_append.1 hy with hy | hy
        · exact h3 y hy
        · simp at hy; subst hy; exact hx'
      · rintro ⟨b, c, h1, h2, h3⟩
        rcases List.eq_nil_or_concat c with rfl | ⟨c', y, rfl⟩
        · have := (List.append_inj' h1 rfl).2
          simp at this; subst this
          rw [hx'] at h2; cases h2
        · rw [List.concat_eq_append] at h1 h3
          have h1' : l ++ [x] = (b ++ a :: c') ++ [y] := by simpa using h1
          have := (List.append_inj' h1' rfl).1
          exact ⟨b, c', this, h2, fun z hz => h3 z (List.mem_append_left _ hz)⟩

theorem inForce_iff (ops : List IndexOp) (s : Symbol) :
    InForce ops s ↔ (buildIndex ops).getFunction s.name = some s := by
  rw [(fnInv ops).2.2.2, getLast_filter]
  unfold InForce
  constructor
  · rintro ⟨b, c, h1, h2⟩
    refine ⟨b, c, h1, by simp [Std.ReflCmp.compare_self], ?_⟩
    intro x hx
    have := h2 x hx
    rw [sameName_iff] at this
    have : SymbolName.cmp s.name x.name ≠ .eq := fun h => this (Std.OrientedCmp.eq_symm h)
    simpa using this
  · rintro ⟨b, c, h1, _, h3⟩
    refine ⟨b, c, h1, ?_⟩
    intro x hx
    have := h3 x hx
    rw [sameName_iff]
    intro h
    have h' := Std.OrientedCmp.eq_symm h
    simp [h'] at this

theorem functions_sorted (ops : List IndexOp) : (buildIndex ops).functions.Sorted compare := by
  have := history_induction (fun ix _ => ix.functions.Sorted compare) (OMap.sorted_empty _)
    (fun ix l e h => by
      unfold applyEv
      cases e.isFn
      · exact h
      · exact OMap.sorted_insert _ _ _ _ h)
    (fun ix l df h => h) ops
  exact this

theorem mem_allSymbols (ops : List IndexOp) (s : Symbol) :
    s ∈ allSymbols (buildIndex ops) ↔ InForce ops s := by
  rw [inForce_iff]
  obtain ⟨_, h2, h3, _⟩ := fnInv ops
  have hs := functions_sorted ops
  unfold allSymbols SymbolIndex.getFunction
  simp only [List.mem_flatMap, List.mem_map, Prod.exists]
  constructor
  · rintro ⟨n, m, hm, k, s', hks, rfl⟩
    have hg := OMap.get_of_mem compare _ n m hs hm
    obtain ⟨_, e1, e2⟩ := h3 n m hg k s' hks
    rw [e1, hg]
    show m.get SymbolName.cmp s'.name = some s'
    have := OMap.get_of_mem SymbolName.cmp m k s' (h2 n m hg) hks
    rw [← this]
    -- lookup by an equal name
    clear this hks
    obtain ⟨l⟩ := m
    simp only [OMap.get]
    have e2' := Std.OrientedCmp.eq_symm e2
    clear hg hm
    induction l with
    | nil => rfl
    | cons p r ih =>
      simp only [OMap.getL]
      have : SymbolName.cmp s'.name p.1 = SymbolName.cmp k p.1 := Std.TransCmp.congr_left e2'
      rw [this, ih]
  · intro h
    cases hg : (buildIndex ops).functions.get compare s.name.lookupName with
    | none => rw [hg] at h; cases h
    | some m =>
      rw [hg] at h
      simp only at h
      obtain ⟨n', _, hm⟩ := OMap.mem_of_get compare _ _ m hg
      obtain ⟨k, _, hk⟩ := OMap.mem_of_get SymbolName.cmp m _ s h
      exact ⟨n', m, hm, k, s, hk, rfl⟩

theorem allSymbols_sorted (ops : List IndexOp) :
    (allSymbols (buildIndex ops)).Pairwise fun a b => a.name.cmp b.name = .lt := by
  obtain ⟨_, h2, h3, _⟩ := fnInv ops
  have hs := functions_sorted ops
  unfold allSymbols
  rw [List.pairwise_flatMap]
  constructor
  · intro e he
    obtain ⟨n, m⟩ := e
    have hg := OMap.get_of_mem compare _ n m hs he
    rw [List.pairwise_map]
    have := h2 n m hg
    unfold OMap.Sorted at this
    apply List.Pairwise.imp_of_mem _ this
    intro a b ha hb hab
    have e1 := (h3 n m hg a.1 a.2 ha).2.2
    have e2 := (h3 n m hg b.1 b.2 hb).2.2
    exact Std.TransCmp.lt_of_eq_of_lt (Std.OrientedCmp.eq_symm e1) (Std.TransCmp.lt_of_lt_of_eq hab e2)
  · unfold OMap.Sorted at hs
    apply List.Pairwise.imp_of_mem _ hs
    intro a b ha hb hab x hx y hy
    simp only [List.mem_map, Prod.exists] at hx hy
    obtain ⟨k, x', hk, rfl⟩ := hx
    obtain ⟨k', y', hk', rfl⟩ := hy
    have ga := OMap.get_of_mem compare _ a.1 a.2 (functions_sorted ops) ha
    have gb := OMap.get_of_mem compare _ b.1 b.2 (functions_sorted ops) hb
    have e1 := (h3 _ _ ga k x' hk).2.1
    have e2 := (h3 _ _ gb k' y' hk').2.1
    unfold SymbolName.cmp
    rw [e1, e2, hab]
    rfl

theorem describeAll_ok (w : World) (ss : List Symbol) (rs : List Found) :
    describeAll w ss = .ok rs ↔ List.Forall₂ (fun s r => describe w s = .ok r) ss rs := by
  induction ss generalizing rs with
  | nil => simp only [describeAll]; constructor
           · intro h; cases h; exact .nil
           · intro h; cases h; rfl
  | cons s ss ih =>
    simp only [describeAll, Res.bind_eq_ok]
    constructor
    · rintro ⟨r, h1, rs', h2, h3⟩
      cases h3
      exact .cons h1 ((ih _).1 h2)
    · intro h
      cases h with
      | cons h1 h2 => exact ⟨_, h1, _, (ih _).2 h2, rfl⟩

end Rudy.Discovery

namespace Rudy.Discovery
open Rudy.Symbols Rudy.Dwarf Rudy.Parse Rudy.Layout Rudy.TypeRes Rudy.Modules

/-! ### Parameters -/

/-- The entry `c` is a parameter with a type, and `p` says which type, and the name if there is one. -/
def IsParam (db : Db) (c : Nat) (p : Param) : Prop :=
  Tagged db c .formalParameter ∧ Typed db c p.ty ∧ ∀ n, p.name = some n ↔ Named db c n

/-- `ps` are the parameters with a type among the entries `cs`, in order. -/
inductive Params (db : Db) : List Nat → List Param → Prop
  | nil : Params db [] []
  | param {c : Nat} {cs : List Nat} {p : Param} {ps : List Param} :
      IsParam db c p → Params db cs ps → Params db (c :: cs) (p :: ps)
  | other {c : Nat} {cs : List Nat} {ps : List Param} :
      (¬ ∃ p, IsParam db c p) → Params db cs ps → Params db (c :: cs) ps

theorem isParam_unique {db : Db} {c : Nat} {p q : Param} (h : IsParam db c p) (h' : IsParam db c q) : p = q := by
  obtain ⟨_, t, n⟩ := h
  obtain ⟨_, t', n'⟩ := h'
  cases p with
  | mk pn pt =>
    cases q with
    | mk qn qt =>
      have := t.unique t'
      simp only at this
      subst this
      have : pn = qn := by
        cases pn with
        | none =>
          cases qn with
          | none => rfl
          | some x => exact ((n x).2 ((n' x).1 rfl)).symm ▸ rfl
        | some x => exact ((n' x).2 ((n x).1 rfl)).symm
      rw [this]

theorem parameter_ok (db : Db) (c : Nat) (o : Option Param) :
    parameter db c = .ok o ↔
      (∃ p, o = some p ∧ IsParam db c p) ∨ (o = none ∧ ¬ Tagged db c .formalParameter) := by
  unfold parameter
  by_cases ht : tag db c = some .formalParameter
  · have ht' := (tagged_iff _ _ _).1 ht
    simp only [ht, if_true, Res.bind_eq_ok, Res.ok.injEq]
    constructor
    · rintro ⟨t, h1, rfl⟩
      refine Or.inl ⟨_, rfl, ht', (typed_iff _ _ _).1 h1, ?_⟩
      intro n
      rw [← dieName_ok]
      cases dieName db c <;> simp [okOf]
    · rintro (⟨p, rfl, _, h2, h3⟩ | ⟨_, h⟩)
      · refine ⟨p.ty, (typed_iff _ _ _).2 h2, ?_⟩
        cases p with
        | mk pn pt =>
          simp only [Option.some.injEq, Param.mk.injEq, and_true]
          cases pn with
          | none =>
            have : ∀ n, dieName db c ≠ .ok n := fun n hn => by
              have := (h3 n).2 ((dieName_ok _ _ _).1 hn); cases this
            cases hd : dieName db c with
            | ok n => exact absurd hd (this n)
            | err => rfl
            | panic => rfl
          | some n =>
            rw [(dieName_ok _ _ _).2 ((h3 n).1 rfl)]; rfl
      · exact absurd ht' h
  · have ht' : ¬ Tagged db c .formalParameter := fun h => ht ((tagged_iff _ _ _).2 h)
    simp only [ht, if_false, Res.ok.injEq]
    constructor
    · rintro rfl; exact Or.inr ⟨rfl, ht'⟩
    · rintro (⟨p, rfl, h, _⟩ | ⟨h, _⟩)
      · exact absurd h ht'
      · exact h.symm

theorem parameter_no_panic (db : Db) (c : Nat) : parameter db c ≠ .panic := by
  unfold parameter
  split
  · intro h
    have := refAttr_no_panic db c .type
    unfold entryType at h
    cases hr : refAttr .type db c with
    | ok a => rw [hr] at h; cases h
    | err => rw [hr] at h; cases h
    | panic => exact this hr
  · simp

theorem collect_parameters (db : Db) (cs : List Nat) (ps : List Param) :
    (∃ os, collect parameter db cs = .ok os ∧ os.filterMap id = ps) ↔ Params db cs ps := by
  induction cs generalizing ps with
  | nil =>
    simp only [collect, Res.ok.injEq, exists_eq_left', List.filterMap_nil]
    constructor
    · rintro rfl; exact .nil
    · intro h; cases h; rfl
  | cons c cs ih =>
    simp only [collect]
    cases hp : parameter db c with
    | panic => exact absurd hp (parameter_no_panic db c)
    | err =>
      simp only
      rw [ih]
      have hno : ¬ ∃ p, IsParam db c p := by
        rintro ⟨p, h⟩
        have := (parameter_ok db c (some p)).2 (Or.inl ⟨p, rfl, h⟩)
        rw [hp] at this; cases this
      constructor
      · exact fun h => .other hno h
      · intro h
        cases h with
        | param h _ => exact absurd ⟨_, h⟩ hno
        | other _ h => exact h
    | ok o =>
      simp only [Res.bind_eq_ok, Res.ok.injEq]
      rcases (parameter_ok db c o).1 hp with ⟨p, rfl, h⟩ | ⟨rfl, h⟩
      · constructor
        · rintro ⟨os, ⟨xs, h1, rfl⟩, rfl⟩
          exact .param h ((ih _).1 ⟨xs, h1, rfl⟩)
        · intro hh
          cases hh with
          | param h' hr =>
            obtain ⟨xs, h1, rfl⟩ := (ih _).2 hr
            exact ⟨some p :: xs, ⟨xs, h1, rfl⟩, by simp [isParam_unique h h']⟩
          | other hno _ => exact absurd ⟨_, h⟩ hno
      · have hno : ¬ ∃ p, IsParam db c p := fun ⟨p, hp⟩ => h hp.1
        constructor
        · rintro ⟨os, ⟨xs, h1, rfl⟩, rfl⟩
          exact .other hno ((ih _).1 ⟨xs, h1, rfl⟩)
        · intro hh
          cases hh with
          | param h' hr => exact absurd ⟨_, h'⟩ hno
          | other _ hr =>
            obtain ⟨xs, h1, rfl⟩ := (ih _).2 hr
            exact ⟨none :: xs, ⟨xs, h1, rfl⟩, by simp⟩

theorem collect_no_panic {T : Type} (p : Parser T) (db : Db) (h : ∀ c, p db c ≠ .panic) (cs : List Nat) :
    collect p db cs ≠ .panic := by
  induction cs with
  | nil => simp [collect]
  | cons c cs ih =>
    simp only [collect]
    cases hp : p db c with
    | panic => exact absurd hp (h c)
    | err => exact ih
    | ok x =>
      simp only
      cases hc : collect p db cs with
      | panic => exact absurd hc ih
      | err => simp
      | ok _ => simp

/-- Children that parse (and are kept) are collected in order; without panics collecting succeeds. -/
theorem collect_total_mem {T : Type} (p : Parser T) (db : Db) (cs : List Nat) (h : ∀ c ∈ cs, p db c ≠ .panic) :
    ∃ xs, collect p db cs = .ok xs := by
  induction cs with
  | nil => exact ⟨[], rfl⟩
  | cons c cs ih =>
    obtain ⟨xs, hx⟩ := ih fun c hc => h c (List.mem_cons_of_mem _ hc)
    simp only [collect]
    cases hp : p db c with
    | panic => exact absurd hp (h c (List.mem_cons_self ..))
    | err => exact ⟨xs, hx⟩
    | ok x => exact ⟨x :: xs, by simp [hx]⟩

theorem collect_total {T : Type} (p : Parser T) (db : Db) (h : ∀ c, p db c ≠ .panic) (cs : List Nat) :
    ∃ xs, collect p db cs = .ok xs := collect_total_mem p db cs fun c _ => h c

theorem mem_collect {T : Type} (p : Parser T) (db : Db) (cs : List Nat) (xs : List T)
    (h : collect p db cs = .ok xs) (x : T) : x ∈ xs ↔ ∃ c ∈ cs, p db c = .ok x := by
  induction cs generalizing xs with
  | nil => simp only [collect, Res.ok.injEq] at h; subst h; simp
  | cons c cs ih =>
    simp only [collect] at h
    cases hp : p db c with
    | panic => rw [hp] at h; cases h
    | err =>
      rw [hp] at h
      rw [ih xs h]
      simp [hp]
    | ok y =>
      rw [hp] at h
      simp only [Res.bind_eq_ok, Res.ok.injEq] at h
      obtain ⟨ys, h1, rfl⟩ := h
      simp only [List.mem_cons, ih ys h1, exists_eq_or_imp, hp, Res.ok.injEq]
      constructor
      · rintro (rfl | h)
        · exact Or.inl rfl
        · exact Or.inr h
      · rintro (rfl | h)
        · exact Or.inl rfl
        · exact Or.inr h

/-- What the entry `e` says about a function: its typed parameters and its return type. -/
def Declares (db : Db) (e : Nat) (ps : List Param) (ret : Option Nat) : Prop :=
  (∃ cs, db.children e = .ok cs ∧ Params db cs ps) ∧ ∀ t, ret = some t ↔ Typed db e t

theorem functionInfo_ok (db : Db) (e : Nat) (i : FnInfo) (h : functionInfo db e = .ok i) :
    Declares db e i.params i.ret := by
  simp only [functionInfo, parameterList, mapP, forEachChild, Res.bind_eq_ok, Res.ok.injEq] at h
  obtain ⟨ps, ⟨os, ⟨cs, h1, h2⟩, h3⟩, rfl⟩ := h
  refine ⟨⟨cs, h1, (collect_parameters db cs ps).1 ⟨os, h2, h3⟩⟩, ?_⟩
  intro t
  rw [← typed_iff]
  cases entryType db e <;> simp [okOf]

theorem functionInfo_of_declares (db : Db) (e : Nat) (ps : List Param) (ret : Option Nat)
    (h : Declares db e ps ret) : ∃ i, functionInfo db e = .ok i ∧ i.params = ps ∧ i.ret = ret := by
  obtain ⟨⟨cs, h1, h2⟩, h3⟩ := h
  obtain ⟨os, h4, h5⟩ := (collect_parameters db cs ps).2 h2
  refine ⟨⟨(okOf (dieName db e)).getD (chars! "<anonymous>"), okOf (stringAttr .linkageName db e), e, ps,
    okOf (entryType db e)⟩, ?_, rfl, ?_⟩
  · simp only [functionInfo, parameterList, mapP, forEachChild, h1, h4, Res.bind_ok, h5]
  · show okOf (entryType db e) = ret
    cases ret with
    | none =>
      cases he : entryType db e with
      | ok t => have := (h3 t).2 ((typed_iff _ _ _).1 he); cases this
      | err => rfl
      | panic => rfl
    | some t =>
      rw [(typed_iff _ _ _).2 ((h3 t).1 rfl)]; rfl

theorem resolveParams_ok (resolve : Nat → Res TypeDef) (ps : List Param) (rs : List (Option Str × TypeDef)) :
    resolveParams resolve ps = .ok rs ↔
      List.Forall₂ (fun (p : Param) (r : Option Str × TypeDef) => r.1 = p.name ∧ resolve p.ty = .ok r.2) ps rs := by
  induction ps generalizing rs with
  | nil => simp only [resolveParams, Res.ok.injEq]
           constructor
           · rintro rfl; exact .nil
           · intro h; cases h; rfl
  | cons p ps ih =>
    simp only [resolveParams, Res.bind_eq_ok, Res.ok.injEq]
    constructor
    · rintro ⟨t, h1, r, h2, rfl⟩
      exact .cons ⟨rfl, h1⟩ ((ih _).1 h2)
    · intro h
      cases h with
      | @cons _ r _ rs' h1 h2 => 
        obtain ⟨n, t⟩ := r
        obtain ⟨rfl, h1'⟩ := h1
        exact ⟨t, h1', rs', (ih _).2 h2, rfl⟩

/-- The entry `c` is directly inside the entry `e`. -/
def IsChild (db : Db) (e c : Nat) : Prop := ∃ cs, db.children e = .ok cs ∧ c ∈ cs

/-- The entry `e` of a function mentions the type at `t`: as that of its result or of a parameter. -/
def Mentions (db : Db) (e t : Nat) : Prop :=
  Typed db e t ∨ ∃ c, IsChild db e c ∧ Tagged db c .formalParameter ∧ Typed db c t

/-- Reading the signature of the function at the entry `e` does not crash: neither walking the entry nor following the types
it mentions, with `resolve`. -/
structure Calm (db : Db) (resolve : Nat → Res TypeDef) (e : Nat) : Prop where
  children : db.children e ≠ .panic
  types : ∀ t, Mentions db e t → resolve t ≠ .panic

theorem resolveParams_no_panic (resolve : Nat → Res TypeDef) (ps : List Param) (h : ∀ p ∈ ps, resolve p.ty ≠ .panic) :
    resolveParams resolve ps ≠ .panic := by
  induction ps with
  | nil => simp [resolveParams]
  | cons p ps ih =>
    simp only [resolveParams]
    cases hr : resolve p.ty with
    | panic => exact absurd hr (h p (List.mem_cons_self ..))
    | err => simp
    | ok t =>
      simp only [Res.bind_ok]
      cases hc : resolveParams resolve ps with
      | panic => exact absurd hc (ih fun p hp => h p (List.mem_cons_of_mem _ hp))
      | err => simp
      | ok _ => simp

theorem params_mem {db : Db} {cs : List Nat} {ps : List Param} (h : Params db cs ps) {p : Param} (hp : p ∈ ps) :
    ∃ c ∈ cs, IsParam db c p := by
  induction h with
  | nil => cases hp
  | param h1 _ ih =>
    rcases List.mem_cons.1 hp with rfl | hp
    · exact ⟨_, List.mem_cons_self .., h1⟩
    · obtain ⟨c, hc, h⟩ := ih hp; exact ⟨c, List.mem_cons_of_mem _ hc, h⟩
  | other _ _ ih =>
    obtain ⟨c, hc, h⟩ := ih hp; exact ⟨c, List.mem_cons_of_mem _ hc, h⟩

/-- The types of the declared parameters, and of the result, are mentioned. -/
theorem declares_mentions {db : Db} {e : Nat} {ps : List Param} {ret : Option Nat} (h : Declares db e ps ret) :
    (∀ p ∈ ps, Mentions db e p.ty) ∧ ∀ t, ret = some t → Mentions db e t := by
  obtain ⟨⟨cs, h1, h2⟩, h3⟩ := h
  refine ⟨fun p hp => ?_, fun t ht => .inl ((h3 t).1 ht)⟩
  obtain ⟨c, hc, hq⟩ := params_mem h2 hp
  exact .inr ⟨c, ⟨cs, h1, hc⟩, hq.1, hq.2.1⟩

theorem functionInfo_no_panic (db : Db) (e : Nat) (h : db.children e ≠ .panic) :
    functionInfo db e ≠ .panic := by
  simp only [functionInfo, parameterList, mapP, forEachChild]
  cases hc : db.children e with
  | panic => exact absurd hc h
  | err => simp
  | ok cs =>
    obtain ⟨xs, hx⟩ := collect_total parameter db (parameter_no_panic db) cs
    simp [hx]

/-- Reading the signature of the function at the entry `e` of the file `f` crashes: walking the entry does, or following the first type that
cannot be read does, the parameters coming before the result. -/
def Crashes (w : World) (f e : Nat) : Prop :=
  (w.file f).children e = .panic ∨ ∃ ps ret, Declares (w.file f) e ps ret ∧
    ((∃ pre q post, ps = pre ++ q :: post ∧ (∀ p ∈ pre, ∃ t, w.resolve f p.ty = .ok t) ∧ w.resolve f q.ty = .panic) ∨
     ((∀ p ∈ ps, ∃ t, w.resolve f p.ty = .ok t) ∧ ∃ r, ret = some r ∧ w.resolve f r = .panic))

theorem resolveParams_panic_iff (resolve : Nat → Res TypeDef) (ps : List Param) :
    resolveParams resolve ps = .panic ↔
      ∃ pre q post, ps = pre ++ q :: post ∧ (∀ p ∈ pre, ∃ t, resolve p.ty = .ok t) ∧ resolve q.ty = .panic := by
  induction ps with
  | nil => simp [resolveParams]
  | cons p ps ih =>
    simp only [resolveParams]
    cases hr : resolve p.ty with
    | panic => exact ⟨fun _ => ⟨[], p, ps, rfl, by simp, hr⟩, fun _ => rfl⟩
    | err =>
      simp only [Res.bind_err, reduceCtorEq, false_iff]
      rintro ⟨pre, q, post, h, h1, h2⟩
      cases pre with
      | nil => cases h; rw [hr] at h2; cases h2
      | cons a pre =>
        cases h
        obtain ⟨t, ht⟩ := h1 p (List.mem_cons_self ..)
        rw [hr] at ht; cases ht
    | ok t =>
      simp only [Res.bind_ok]
      have hb : ((resolveParams resolve ps).bind fun r => Res.ok ((p.name, t) :: r)) = .panic ↔ resolveParams resolve ps = .panic := by
        cases resolveParams resolve ps <;> simp
      rw [hb, ih]
      constructor
      · rintro ⟨pre, q, post, rfl, h1, h2⟩
        refine ⟨p :: pre, q, post, rfl, ?_, h2⟩
        intro x hx
        rcases List.mem_cons.1 hx with rfl | hx
        · exact ⟨t, hr⟩
        · exact h1 x hx
      · rintro ⟨pre, q, post, h, h1, h2⟩
        cases pre with
        | nil => cases h; rw [hr] at h2; cases h2
        | cons a pre =>
          cases h
          exact ⟨pre, q, post, rfl, fun x hx => h1 x (List.mem_cons_of_mem _ hx), h2⟩

theorem createFunction_panic_iff (w : World) (s : Symbol) (f e : Nat) : createFunction w s f e = .panic ↔ Crashes w f e := by
  unfold createFunction Crashes
  cases hi : functionInfo (w.file f) e with
  | panic =>
    simp only [Res.bind_panic, true_iff]
    left
    cases hc : (w.file f).children e with
    | panic => rfl
    | err => exact absurd hi (functionInfo_no_panic _ e (by rw [hc]; simp))
    | ok _ => exact absurd hi (functionInfo_no_panic _ e (by rw [hc]; simp))
  | err =>
    simp only [Res.bind_err, reduceCtorEq, false_iff]
    rintro (h | ⟨ps, ret, h, -⟩)
    · simp [functionInfo, parameterList, mapP, forEachChild, h] at hi
    · obtain ⟨i, h, -⟩ := functionInfo_of_declares _ _ _ _ h
      rw [hi] at h; cases h
  | ok i =>
    have hd := functionInfo_ok _ _ _ hi
    have hnc : (w.file f).children e ≠ .panic := by
      intro h
      simp [functionInfo, parameterList, mapP, forEachChild, h] at hi
    have hu : ∀ ps ret, Declares (w.file f) e ps ret → ps = i.params ∧ ret = i.ret := by
      intro ps ret h
      obtain ⟨i', h', h1, h2⟩ := functionInfo_of_declares _ _ _ _ h
      rw [hi] at h'
      cases h'
      exact ⟨h1.symm, h2.symm⟩
    have hex : ∀ Q : List Param → Option Nat → Prop, (∃ ps ret, Declares (w.file f) e ps ret ∧ Q ps ret) ↔ Q i.params i.ret := by
      intro Q
      constructor
      · rintro ⟨ps, ret, h, hq⟩
        obtain ⟨rfl, rfl⟩ := hu ps ret h
        exact hq
      · exact fun h => ⟨_, _, hd, h⟩
    rw [hex (fun ps ret => (∃ (pre : List Param) (q : Param) (post : List Param), ps = pre ++ q :: post ∧ (∀ p ∈ pre, ∃ t, w.resolve f p.ty = .ok t) ∧ w.resolve f q.ty = .panic) ∨
     ((∀ p ∈ ps, ∃ t, w.resolve f p.ty = .ok t) ∧ ∃ r, ret = some r ∧ w.resolve f r = .panic)), ← resolveParams_panic_iff]
    simp only [hnc, false_or, Res.bind_ok]
    cases hp : resolveParams (w.resolve f) i.params with
    | panic => simp
    | err =>
      simp only [Res.bind_err, reduceCtorEq, false_or, false_iff, not_and]
      intro hall
      exfalso
      have : ∀ ps : List Param, (∀ p ∈ ps, ∃ t, w.resolve f p.ty = .ok t) → ∃ rs, resolveParams (w.resolve f) ps = .ok rs := by
        intro ps
        induction ps with
        | nil => exact fun _ => ⟨_, rfl⟩
        | cons p ps ih =>
          intro h
          obtain ⟨t, ht⟩ := h p (List.mem_cons_self ..)
          obtain ⟨rs, hrs⟩ := ih fun x hx => h x (List.mem_cons_of_mem _ hx)
          exact ⟨_, by simp only [resolveParams, ht, hrs, Res.bind_ok]; rfl⟩
      obtain ⟨rs, hrs⟩ := this _ hall
      rw [hp] at hrs; cases hrs
    | ok rs =>
      have hall : ∀ p ∈ i.params, ∃ t, w.resolve f p.ty = .ok t := by
        have h2 := (resolveParams_ok _ _ _).1 hp
        intro p hpm
        clear hp
        generalize i.params = ps at h2 hpm
        induction h2 with
        | nil => cases hpm
        | cons h _ ih =>
          rcases List.mem_cons.1 hpm with rfl | hpm
          · exact ⟨_, h.2⟩
          · exact ih hpm
      simp only [Res.bind_ok, reduceCtorEq, false_or]
      constructor
      · intro h
        refine ⟨hall, ?_⟩
        cases hret : i.ret with
        | none => rw [hret] at h; simp at h
        | some r =>
          rw [hret] at h
          refine ⟨r, rfl, ?_⟩
          cases hr : w.resolve f r with
          | panic => rfl
          | err => simp [hr] at h
          | ok _ => simp [hr] at h
      · rintro ⟨-, r, hret, hr⟩
        simp [hret, hr]

/-- Calm signatures do not crash. -/
theorem Calm.not_crashes {w : World} {f e : Nat} (h : Calm (w.file f) (w.resolve f) e) : ¬ Crashes w f e := by
  rintro (hc | ⟨ps, ret, hd, ⟨pre, q, post, rfl, -, hq⟩ | ⟨-, r, hr, hq⟩⟩)
  · exact h.children hc
  · exact h.types _ ((declares_mentions hd).1 q (by simp)) hq
  · exact h.types _ ((declares_mentions hd).2 r hr) hq

theorem describe_panic_iff (w : World) (s : Symbol) : describe w s = .panic ↔ ∃ f e, getFunction w s.name = some (f, e) ∧ Crashes w f e := by
  unfold describe
  cases hg : getFunction w s.name with
  | none => simp
  | some r =>
    obtain ⟨f, e⟩ := r
    simp only [Option.some.injEq, Prod.mk.injEq, ← createFunction_panic_iff w s]
    cases hc : createFunction w s f e with
    | panic => simp only [true_iff]; exact ⟨f, e, ⟨rfl, rfl⟩, hc⟩
    | err =>
      simp only [reduceCtorEq, false_iff]
      rintro ⟨f', e', ⟨rfl, rfl⟩, h⟩
      rw [hc] at h; cases h
    | ok _ =>
      simp only [reduceCtorEq, false_iff]
      rintro ⟨f', e', ⟨rfl, rfl⟩, h⟩
      rw [hc] at h; cases h

theorem describe_no_err (w : World) (s : Symbol) : describe w s ≠ .err := by
  unfold describe
  split
  · simp
  · split <;> simp

theorem describe_total (w : World) (s : Symbol) (h : ∀ f e, getFunction w s.name = some (f, e) → ¬ Crashes w f e) :
    ∃ r, describe w s = .ok r := by
  cases hd : describe w s with
  | ok r => exact ⟨r, rfl⟩
  | err => exact absurd hd (describe_no_err w s)
  | panic =>
    obtain ⟨f, e, h1, h2⟩ := (describe_panic_iff w s).1 hd
    exact absurd h2 (h f e h1)

theorem describeAll_total (w : World) (ss : List Symbol)
    (h : ∀ s ∈ ss, ∀ f e, getFunction w s.name = some (f, e) → ¬ Crashes w f e) : ∃ rs, describeAll w ss = .ok rs := by
  induction ss with
  | nil => exact ⟨[], rfl⟩
  | cons s ss ih =>
    obtain ⟨rs, hr⟩ := ih fun s hs => h s (List.mem_cons_of_mem _ hs)
    obtain ⟨r, hs⟩ := describe_total w s (h s (List.mem_cons_self ..))
    exact ⟨r :: rs, by simp [describeAll, hr, hs]⟩

theorem describeAll_panic (w : World) (ss : List Symbol) (s : Symbol) (hs : s ∈ ss) (f e : Nat) (hg : getFunction w s.name = some (f, e))
    (hc : Crashes w f e) : describeAll w ss = .panic := by
  induction ss with
  | nil => cases hs
  | cons a ss ih =>
    simp only [describeAll]
    cases hd : describe w a with
    | panic => rfl
    | err => exact absurd hd (describe_no_err w a)
    | ok r =>
      rcases List.mem_cons.1 hs with rfl | hs
      · rw [(describe_panic_iff w s).2 ⟨f, e, hg, hc⟩] at hd; cases hd
      · rw [ih hs]; rfl

theorem getFunction_inForce (w : World) (ops : List IndexOp) (hw : w.index = buildIndex ops) (s : Symbol)
    (h : InForce ops s) :
    getFunction w s.name = (w.fnEntry s.debugFile s.name).map fun e => (s.debugFile, e) := by
  have hg := (inForce_iff ops s).1 h
  unfold SymbolIndex.getFunction at hg
  unfold getFunction SymbolIndex.byLookupName
  rw [hw]
  cases hm : (buildIndex ops).functions.get compare s.name.lookupName with
  | none => rw [hm] at hg; cases hg
  | some m =>
    rw [hm] at hg
    simp only at hg
    simp [hg]

/-! ### Signature texts -/

/-- The texts with a comma and a space between them. -/
def commaSep (l : List Str) : Str := (l.intersperse (chars! ", ")).flatten

theorem joinComma_eq (l : List Str) : joinComma l = commaSep l := by
  unfold commaSep
  induction l with
  | nil => rfl
  | cons a l ih =>
    cases l with
    | nil => simp [joinComma]
    | cons b l => simp [joinComma, ih, List.intersperse_cons₂]

end Rudy.Discovery
