import Verif.Proof.Discovery
/- Vocabulary and helper lemmas for Verif.Props.Methods. -/
namespace Rudy.Discovery
open Rudy.Symbols Rudy.Dwarf Rudy.Parse Rudy.Layout Rudy.TypeRes Rudy.Modules

/-- The entry `c` is a function with the typed parameters `ps`. -/
def IsFunction (db : Db) (c : Nat) (ps : List Param) : Prop :=
  Tagged db c .subprogram ∧ ∃ ret, Declares db c ps ret

/-- How a value of the type is received: by mutable or shared reference, or as it is. -/
inductive Receives : Layout → SelfType → Prop
  | borrowedMut (t : TypeDef) : Receives (.reference true t) .borrowedMut
  | borrowed (t : TypeDef) : Receives (.reference false t) .borrowed
  | owned (l : Layout) (h : ∀ b t, l ≠ .reference b t) : Receives l .owned

/-- A function with these parameters is a method of the type: its first parameter is called `self` (or
has no name) and its type, with all references and pointers removed, matches. -/
def TakesSelf (w : World) (t : Target) (f : Nat) (ps : List Param) (k : SelfType) : Prop :=
  ∃ p rest ty, ps = p :: rest ∧ (p.name = none ∨ p.name = some (chars! "self")) ∧ w.resolve f p.ty = .ok ty ∧
    ty.layout.dereferenced.matching t.layout = true ∧ Receives ty.layout k

/-- An entry for the type `t` in the debug file `f`: a structure in a module with the path of the module
of `t` that resolves to a matching type; `t` itself if it is in no module. -/
def TypeEntry (w : World) (t : Target) (f d : Nat) : Prop :=
  ((w.modules t.file).findByOffset t.off = none ∧ f = t.file ∧ d = t.off) ∨
  ∃ r m e ty, (w.modules t.file).findByOffset t.off = some r ∧ f ∈ w.debugFiles ∧
    (w.modules f).findByPath r.path = some m ∧ e ∈ m.entries ∧ IsChild (w.file f) e.off d ∧
    Tagged (w.file f) d .structureType ∧ w.resolve f d = .ok ty ∧ ty.layout.matching t.layout = true

/-- An impl block next to the type `t`: a namespace `{impl#…}` directly in the module of `t`. -/
def ImplBlock (w : World) (t : Target) (d : Nat) : Prop :=
  ∃ r n mid, (w.modules t.file).findByOffset t.off = some r ∧ IsChild (w.file t.file) r.die.off d ∧
    Tagged (w.file t.file) d .namespace ∧ Named (w.file t.file) d n ∧
    n = chars! "{impl#" ++ mid ∧ mid.getLast? = some '}'

theorem receives_iff (l : Layout) (k : SelfType) : Receives l k ↔ k = SelfType.of l := by
  constructor
  · intro h
    cases h with
    | borrowedMut => rfl
    | borrowed => rfl
    | owned _ h =>
      cases l <;> first | rfl | exact absurd rfl (h _ _)
  · rintro rfl
    cases l with
    | reference b t => cases b <;> constructor
    | _ => exact .owned _ (fun _ _ h => by cases h)

theorem isImplName_iff (n : Str) :
    isImplName n = true ↔ ∃ mid, n = chars! "{impl#" ++ mid ∧ mid.getLast? = some '}' := by
  simp only [isImplName, Bool.and_eq_true, decide_eq_true_eq]
  constructor
  · rintro ⟨⟨mid, rfl⟩, h⟩
    refine ⟨mid, rfl, ?_⟩
    rw [List.getLast?_append] at h
    cases hm : mid.getLast? with
    | none => rw [hm] at h; simp at h
    | some c => rw [hm] at h; simpa using h
  · rintro ⟨mid, rfl, h⟩
    refine ⟨⟨mid, rfl⟩, ?_⟩
    rw [List.getLast?_append, h]; rfl

theorem selfOf_ok (w : World) (t : Target) (f : Nat) (ps : List Param) (o : Option SelfType)
    (h : selfOf (w.resolve f) t ps = .ok o) (k : SelfType) : o = some k ↔ TakesSelf w t f ps k := by
  cases ps with
  | nil =>
    cases h
    simp only [TakesSelf]
    constructor
    · intro h; cases h
    · rintro ⟨p, rest, ty, h, _⟩; cases h
  | cons p ps =>
    simp only [selfOf] at h
    split at h
    · rename_i hn
      cases h
      simp only [Bool.and_eq_true, decide_eq_true_eq] at hn
      constructor
      · intro h; cases h
      · rintro ⟨q, rest, ty, h1, h2, _⟩
        cases h1
        rcases h2 with h2 | h2
        · rw [h2] at hn; simp at hn
        · exact absurd h2 hn.2
    · rename_i hn
      have hn' : p.name = none ∨ p.name = some (chars! "self") := by
        cases hp : p.name with
        | none => exact Or.inl rfl
        | some x =>
          right
          simp only [hp, Option.isSome_some, Bool.true_and, decide_eq_true_eq, ne_eq, not_not] at hn
          exact hn
      simp only [Res.bind_eq_ok, Res.ok.injEq] at h
      obtain ⟨ty, h1, rfl⟩ := h
      constructor
      · intro h
        split at h
        · rename_i hm
          cases h
          exact ⟨p, ps, ty, rfl, hn', h1, hm, (receives_iff _ _).2 rfl⟩
        · cases h
      · rintro ⟨q, rest, ty', h2, _, h4, h5, h6⟩
        cases h2
        rw [h1] at h4
        cases h4
        rw [if_pos h5, (receives_iff _ _).1 h6]

theorem mem_childFunctions (db : Db) (d : Nat) (is : List FnInfo) (h : childFunctions db d = .ok is) (i : FnInfo) :
    i ∈ is ↔ ∃ c, IsChild db d c ∧ Tagged db c .subprogram ∧ functionInfo db c = .ok i := by
  simp only [childFunctions, mapP, forEachChild, Res.bind_eq_ok, Res.ok.injEq] at h
  obtain ⟨os, ⟨cs, h1, h2⟩, rfl⟩ := h
  simp only [List.mem_filterMap, id]
  constructor
  · rintro ⟨o, h3, rfl⟩
    obtain ⟨c, hc, h4⟩ := (mem_collect _ _ _ _ h2 _).1 h3
    refine ⟨c, ⟨cs, h1, hc⟩, ?_⟩
    unfold optFunction at h4
    split at h4
    · rename_i ht
      simp only [Res.bind_eq_ok, Res.ok.injEq, Option.some.injEq] at h4
      obtain ⟨i', h5, rfl⟩ := h4
      exact ⟨(tagged_iff _ _ _).1 ht, h5⟩
    · cases h4
  · rintro ⟨c, ⟨cs', h3, hc⟩, ht, hi⟩
    rw [h1] at h3
    cases h3
    refine ⟨some i, (mem_collect _ _ _ _ h2 _).2 ⟨c, hc, ?_⟩, rfl⟩
    unfold optFunction
    rw [if_pos ((tagged_iff _ _ _).2 ht), hi]
    rfl

theorem mem_convertAll (w : World) (t : Target) (f : Nat) (is : List FnInfo) (ms : List Method)
    (h : convertAll w t f is = .ok ms) :
    (∀ m ∈ ms, ∃ i ∈ is, convert w t f i = .ok m) ∧ (∀ i ∈ is, ∃ m ∈ ms, convert w t f i = .ok m) := by
  induction is generalizing ms with
  | nil => cases h; simp
  | cons i is ih =>
    simp only [convertAll, Res.bind_eq_ok, Res.ok.injEq] at h
    obtain ⟨m, h1, r, h2, rfl⟩ := h
    obtain ⟨h3, h4⟩ := ih r h2
    constructor
    · intro x hx
      rcases List.mem_cons.1 hx with rfl | hx
      · exact ⟨i, by simp, h1⟩
      · obtain ⟨j, hj, hc⟩ := h3 x hx
        exact ⟨j, List.mem_cons_of_mem _ hj, hc⟩
    · intro j hj
      rcases List.mem_cons.1 hj with rfl | hj
      · exact ⟨m, by simp, h1⟩
      · obtain ⟨x, hx, hc⟩ := h4 j hj
        exact ⟨x, List.mem_cons_of_mem _ hx, hc⟩

theorem mem_directOf (w : World) (t : Target) (ds : List (Nat × Nat)) (ms : List Method)
    (h : directOf w t ds = .ok ms) :
    (∀ m ∈ ms, ∃ f d c i, (f, d) ∈ ds ∧ IsChild (w.file f) d c ∧ Tagged (w.file f) c .subprogram ∧
      functionInfo (w.file f) c = .ok i ∧ convert w t f i = .ok m) ∧
    (∀ f d c i, (f, d) ∈ ds → IsChild (w.file f) d c → Tagged (w.file f) c .subprogram →
      functionInfo (w.file f) c = .ok i → ∃ m ∈ ms, convert w t f i = .ok m) := by
  induction ds generalizing ms with
  | nil => cases h; simp
  | cons e ds ih =>
    obtain ⟨f, d⟩ := e
    simp only [directOf, Res.bind_eq_ok, Res.ok.injEq] at h
    obtain ⟨is, h1, xs, h2, r, h3, rfl⟩ := h
    obtain ⟨h4, h5⟩ := mem_convertAll w t f is xs h2
    obtain ⟨h6, h7⟩ := ih r h3
    constructor
    · intro m hm
      rcases List.mem_append.1 hm with hm | hm
      · obtain ⟨i, hi, hc⟩ := h4 m hm
        obtain ⟨c, a1, a2, a3⟩ := (mem_childFunctions _ _ _ h1 i).1 hi
        exact ⟨f, d, c, i, by simp, a1, a2, a3, hc⟩
      · obtain ⟨f', d', c, i, a0, a⟩ := h6 m hm
        exact ⟨f', d', c, i, List.mem_cons_of_mem _ a0, a⟩
    · intro f' d' c i hmem a1 a2 a3
      rcases List.mem_cons.1 hmem with he | hmem
      · cases he
        obtain ⟨m, hm, hc⟩ := h5 i ((mem_childFunctions _ _ _ h1 i).2 ⟨c, a1, a2, a3⟩)
        exact ⟨m, List.mem_append_left _ hm, hc⟩
      · obtain ⟨m, hm, hc⟩ := h7 f' d' c i hmem a1 a2 a3
        exact ⟨m, List.mem_append_right _ hm, hc⟩

theorem mem_inModules (w : World) (t : Target) (f : Nat) (es : List Die) (ds : List (Nat × Nat))
    (h : inModules w t f es = .ok ds) (g d : Nat) :
    (g, d) ∈ ds ↔ g = f ∧ ∃ e ty, e ∈ es ∧ IsChild (w.file f) e.off d ∧ Tagged (w.file f) d .structureType ∧
      w.resolve f d = .ok ty ∧ ty.layout.matching t.layout = true := by
  induction es generalizing ds with
  | nil => cases h; simp
  | cons e es ih =>
    simp only [inModules, forEachChild, Res.bind_eq_ok, Res.ok.injEq] at h
    obtain ⟨xs, ⟨cs, h1, h2⟩, r, h3, rfl⟩ := h
    rw [List.mem_append, ih r h3]
    have key : (g, d) ∈ xs.map (fun d => (f, d)) ↔ g = f ∧ ∃ ty, IsChild (w.file f) e.off d ∧
        Tagged (w.file f) d .structureType ∧ w.resolve f d = .ok ty ∧ ty.layout.matching t.layout = true := by
      simp only [List.mem_map, Prod.mk.injEq]
      constructor
      · rintro ⟨x, hx, rfl, rfl⟩
        obtain ⟨c, hc, hp⟩ := (mem_collect _ _ _ _ h2 _).1 hx
        simp only [matchingStruct, isMemberTag, Res.bind_eq_ok] at hp
        obtain ⟨d', hd, ty, hty, hm⟩ := hp
        split at hd
        · rename_i ht
          cases hd
          split at hm
          · rename_i hmm
            cases hm
            exact ⟨rfl, ty, ⟨cs, h1, hc⟩, (tagged_iff _ _ _).1 ht, hty, hmm⟩
          · cases hm
        · cases hd
      · rintro ⟨rfl, ty, ⟨cs', h4, hc⟩, ht, hty, hm⟩
        rw [h1] at h4
        cases h4
        refine ⟨d, (mem_collect _ _ _ _ h2 _).2 ⟨d, hc, ?_⟩, rfl, rfl⟩
        simp only [matchingStruct, isMemberTag, (tagged_iff _ _ _).2 ht, if_true, Res.bind_ok, hty, hm]
    rw [key]
    constructor
    · rintro (⟨rfl, ty, a⟩ | ⟨rfl, e', ty, he, a⟩)
      · exact ⟨rfl, e, ty, by simp, a⟩
      · exact ⟨rfl, e', ty, List.mem_cons_of_mem _ he, a⟩
    · rintro ⟨rfl, e', ty, he, a⟩
      rcases List.mem_cons.1 he with rfl | he
      · exact Or.inl ⟨rfl, ty, a⟩
      · exact Or.inr ⟨rfl, e', ty, he, a⟩

theorem mem_inFiles (w : World) (t : Target) (path : List Str) (fs : List Nat) (ds : List (Nat × Nat))
    (h : inFiles w t path fs = .ok ds) (f d : Nat) :
    (f, d) ∈ ds ↔ ∃ m e ty, f ∈ fs ∧ (w.modules f).findByPath path = some m ∧ e ∈ m.entries ∧
      IsChild (w.file f) e.off d ∧ Tagged (w.file f) d .structureType ∧ w.resolve f d = .ok ty ∧
      ty.layout.matching t.layout = true := by
  induction fs generalizing ds with
  | nil => cases h; simp
  | cons g fs ih =>
    simp only [inFiles] at h
    cases hm : (w.modules g).findByPath path with
    | none =>
      rw [hm] at h
      rw [ih ds h]
      constructor
      · rintro ⟨m, e, ty, hf, a⟩
        exact ⟨m, e, ty, List.mem_cons_of_mem _ hf, a⟩
      · rintro ⟨m, e, ty, hf, a1, a⟩
        rcases List.mem_cons.1 hf with rfl | hf
        · rw [hm] at a1; cases a1
        · exact ⟨m, e, ty, hf, a1, a⟩
    | some m0 =>
      rw [hm] at h
      simp only [Res.bind_eq_ok, Res.ok.injEq] at h
      obtain ⟨xs, h1, r, h2, rfl⟩ := h
      rw [List.mem_append, mem_inModules w t g _ _ h1, ih r h2]
      constructor
      · rintro (⟨rfl, e, ty, he, a⟩ | ⟨m, e, ty, hf, a⟩)
        · exact ⟨m0, e, ty, by simp, hm, he, a⟩
        · exact ⟨m, e, ty, List.mem_cons_of_mem _ hf, a⟩
      · rintro ⟨m, e, ty, hf, a1, he, a⟩
        rcases List.mem_cons.1 hf with rfl | hf
        · rw [hm] at a1; cases a1
          exact Or.inl ⟨rfl, e, ty, he, a⟩
        · exact Or.inr ⟨m, e, ty, hf, a1, he, a⟩

theorem mem_typeDies (w : World) (t : Target) (ds : List (Nat × Nat)) (h : typeDies w t = .ok ds) (f d : Nat) :
    (f, d) ∈ ds ↔ TypeEntry w t f d := by
  unfold typeDies at h
  unfold TypeEntry
  cases hr : (w.modules t.file).findByOffset t.off with
  | none =>
    rw [hr] at h
    cases h
    simp
  | some r =>
    rw [hr] at h
    simp only at h
    rw [mem_inFiles w t r.path _ _ h]
    simp

theorem mem_implNamespaces (w : World) (t : Target) (es : List Nat) (h : implNamespaces w t = .ok es) (d : Nat) :
    d ∈ es ↔ ImplBlock w t d := by
  unfold implNamespaces at h
  unfold ImplBlock
  cases hr : (w.modules t.file).findByOffset t.off with
  | none =>
    rw [hr] at h
    cases h
    simp
  | some r =>
    rw [hr] at h
    simp only [forEachChild, Res.bind_eq_ok] at h
    obtain ⟨cs, h1, h2⟩ := h
    rw [mem_collect _ _ _ _ h2]
    constructor
    · rintro ⟨c, hc, hp⟩
      simp only [implNamespace, isMemberTag, Res.bind_eq_ok] at hp
      obtain ⟨d', hd, hp⟩ := hp
      split at hd
      · rename_i ht
        cases hd
        split at hp
        · rename_i n hn
          split at hp
          · rename_i hi
            cases hp
            obtain ⟨mid, a, b⟩ := (isImplName_iff n).1 hi
            exact ⟨r, n, mid, rfl, ⟨cs, h1, hc⟩, (tagged_iff _ _ _).1 ht, (dieName_ok _ _ _).1 hn, a, b⟩
          · cases hp
        · cases hp
      · cases hd
    · rintro ⟨r', n, mid, hr', ⟨cs', h3, hc⟩, ht, hn, a, b⟩
      cases hr'
      rw [h1] at h3
      cases h3
      refine ⟨d, hc, ?_⟩
      have hi := (isImplName_iff n).2 ⟨mid, a, b⟩
      simp only [implNamespace, isMemberTag, (tagged_iff _ _ _).2 ht, if_true, Res.bind_ok,
        (dieName_ok _ _ _).2 hn, hi]

theorem mem_traitOfNamespaces (w : World) (t : Target) (es : List Nat) (ms : List Method)
    (h : traitOfNamespaces w t es = .ok ms) :
    (∀ m ∈ ms, ∃ d c i m', d ∈ es ∧ IsChild (w.file t.file) d c ∧ Tagged (w.file t.file) c .subprogram ∧
      functionInfo (w.file t.file) c = .ok i ∧ convert w t t.file i = .ok m' ∧ m'.selfType.isSome = true ∧
      m = withTrait m') ∧
    (∀ d c i m', d ∈ es → IsChild (w.file t.file) d c → Tagged (w.file t.file) c .subprogram →
      functionInfo (w.file t.file) c = .ok i → convert w t t.file i = .ok m' → m'.selfType.isSome = true →
      withTrait m' ∈ ms) := by
  induction es generalizing ms with
  | nil => cases h; simp
  | cons d es ih =>
    simp only [traitOfNamespaces, Res.bind_eq_ok, Res.ok.injEq] at h
    obtain ⟨is, h1, xs, h2, r, h3, rfl⟩ := h
    obtain ⟨h4, h5⟩ := mem_convertAll w t t.file is xs h2
    obtain ⟨h6, h7⟩ := ih r h3
    constructor
    · intro m hm
      rcases List.mem_append.1 hm with hm | hm
      · obtain ⟨m', hm', rfl⟩ := List.mem_map.1 hm
        rw [List.mem_filter] at hm'
        obtain ⟨i, hi, hc⟩ := h4 m' hm'.1
        obtain ⟨c, a1, a2, a3⟩ := (mem_childFunctions _ _ _ h1 i).1 hi
        exact ⟨d, c, i, m', by simp, a1, a2, a3, hc, hm'.2, rfl⟩
      · obtain ⟨d', c, i, m', a0, a⟩ := h6 m hm
        exact ⟨d', c, i, m', List.mem_cons_of_mem _ a0, a⟩
    · intro d' c i m' hmem a1 a2 a3 a4 a5
      rcases List.mem_cons.1 hmem with he | hmem
      · cases he
        obtain ⟨x, hx, hc⟩ := h5 i ((mem_childFunctions _ _ _ h1 i).2 ⟨c, a1, a2, a3⟩)
        rw [a4] at hc
        cases hc
        exact List.mem_append_left _ (List.mem_map.2 ⟨m', List.mem_filter.2 ⟨hx, a5⟩, rfl⟩)
      · exact List.mem_append_right _ (h7 d' c i m' hmem a1 a2 a3 a4 a5)

end Rudy.Discovery
