import Verif.Model.FnIndex
import Verif.Props.Modules
import Verif.Props.Address
/-
C53, C54: which functions of a debug file are found.
-/
namespace Rudy.Walker
variable {σ α : Type}

mutual
/-- A visitor that treats entries independently of its state is a fold over the entries reached. -/
theorem visitTree_fold (v : Visitor σ α) (step : σ → α → σ) (down : α → Bool) (good : α → Prop)
    (he : ∀ s d, good d → v.enter s d = (step s d, if down d then .walk else .skip))
    (hl : ∀ s d a, v.leave s d a = s) (t : Tree α) (hg : ∀ d ∈ reach down t, good d) (s : σ)
    (after : Option α) : visitTree v s after t = ((reach down t).foldl step s, .ok) := by
  match t with
  | .node d f sb ks =>
    simp only [reach] at hg ⊢
    simp only [visitTree, he s d (hg d (by simp))]
    cases hd : down d with
    | false => simp
    | true =>
      simp only [hd, if_true] at hg ⊢
      rw [visitForest_fold v step down good he hl ks (fun d' h' => hg d' (by simp [h']))]
      simp [hl]
theorem visitForest_fold (v : Visitor σ α) (step : σ → α → σ) (down : α → Bool) (good : α → Prop)
    (he : ∀ s d, good d → v.enter s d = (step s d, if down d then .walk else .skip))
    (hl : ∀ s d a, v.leave s d a = s) (ts : List (Tree α)) (hg : ∀ d ∈ reachList down ts, good d)
    (s : σ) (after : Option α) :
    visitForest v s after ts = ((reachList down ts).foldl step s, .ok) := by
  match ts with
  | [] => simp [visitForest, reachList]
  | t :: ts =>
    simp only [reachList] at hg ⊢
    simp only [visitForest]
    rw [visitTree_fold v step down good he hl t (fun d h => hg d (by simp [h]))]
    simp only
    rw [visitForest_fold v step down good he hl ts (fun d h => hg d (by simp [h]))]
    simp [List.foldl_append]
end

end Rudy.Walker

namespace Rudy.FnIndex
open Rudy.Walker Rudy.Dwarf Rudy.Address Rudy.Resolve Rudy.Modules

/-! ### Vocabulary -/

/-- Entries whose children are looked at: namespaces and structures. -/
def scope (d : Die) : Bool := d.tag == .namespace || d.tag == .structureType

/-- The entries of the Rust units of a file that are reached through namespaces and structures only,
in document order. -/
def candidates (us : List UnitOf) : List Die :=
  us.flatMap fun u => if u.1.die.isRustCu then reachList scope u.1.kids else []

/-- The linked function an entry describes: it is a subprogram with a linkage name, and the symbol
table has that name. -/
def linked (syms : Str → Option Sym) (relocatable : Bool) (d : Die) : Option Sym :=
  if d.tag = .subprogram then
    match d.attr .linkageName with
    | some (.str l) => syms (if relocatable then '_' :: l else l)
    | _ => none
  else none

/-- The linked functions of a file, with their symbols, in document order. -/
def linkedFns (syms : Str → Option Sym) (relocatable : Bool) (us : List UnitOf) : List (Die × Sym) :=
  (candidates us).filterMap fun d => (linked syms relocatable d).map fun s => (d, s)

/-- A file the index can be built from: units are rooted in compilation units which state their
language, linkage names are readable strings, and no function extends past the end of the address
space. -/
structure Readable (syms : Str → Option Sym) (relocatable : Bool) (us : List UnitOf) : Prop where
  roots : ∀ u ∈ us, u.1.die.tag = .compileUnit
  language : ∀ u ∈ us, ∃ b, u.1.die.attr .language = some (.lang b)
  names : ∀ d ∈ candidates us, d.tag = .subprogram →
    d.attr .linkageName = none ∨ ∃ l, d.attr .linkageName = some (.str l)
  ranges : ∀ d ∈ candidates us, ∀ s, linked syms relocatable d = some s → ∀ lo hi, d.range = some (lo, hi) →
    lo ≤ s.address + hi ∧ s.address + hi < u64Max1

/-- The absolute and relative range of a linked function. -/
def infoOf (file : Nat) (p : Die × Sym) : Option FnInfo :=
  p.1.range.map fun r =>
    { absStart := p.2.address, absEnd := p.2.address + r.2 - r.1, relStart := r.1, relEnd := r.2,
      file := file, name := p.2.name }

/-! ### Proofs -/

/-- The effect of one entry. -/
def step (syms : Str → Option Sym) (file : Nat) (relocatable : Bool) (b : Builder) (d : Die) : Builder :=
  match linked syms relocatable d with
  | none => b
  | some s =>
    { functions := put b.functions s.name { die := d, range := d.range }
      byAddress := b.byAddress ++ (infoOf file (d, s)).toList }

/-- An entry that does not stop the walk. -/
def Fine (syms : Str → Option Sym) (relocatable : Bool) (d : Die) : Prop :=
  (d.tag = .subprogram → d.attr .linkageName = none ∨ ∃ l, d.attr .linkageName = some (.str l)) ∧
  ∀ s, linked syms relocatable d = some s → ∀ lo hi, d.range = some (lo, hi) →
    lo ≤ s.address + hi ∧ s.address + hi < u64Max1

theorem registerFn_ok (a lo hi file name : Nat) (h1 : lo ≤ a + hi) (h2 : a + hi < u64Max1) :
    registerFn a (lo, hi) file name =
      .ok { absStart := a, absEnd := a + hi - lo, relStart := lo, relEnd := hi, file, name } := by
  simp only [registerFn, addU, subU]
  rw [if_pos h2]
  simp only [bind, Res.bind]
  rw [if_pos h1]
  rfl

theorem enter_fine (syms : Str → Option Sym) (file : Nat) (relocatable : Bool) (b : Builder) (d : Die)
    (h : Fine syms relocatable d) :
    (visitor syms file relocatable).enter b d =
      (step syms file relocatable b d, if scope d then .walk else .skip) := by
  by_cases ht : d.tag = .subprogram
  · have hs : scope d = false := by simp [scope, ht]
    rw [hs]
    simp only [visitor, ht, visitFunction, step, linked, if_true]
    rcases h.1 ht with hn | ⟨l, hn⟩
    · simp [Die.stringAttrOpt, hn]
    · simp only [Die.stringAttrOpt, hn]
      cases hsym : syms (if relocatable then '_' :: l else l) with
      | none => simp
      | some s =>
        have hlk : linked syms relocatable d = some s := by simp [linked, ht, hn, hsym]
        cases hr : d.range with
        | none => simp [infoOf, hr]
        | some r =>
          obtain ⟨lo, hi⟩ := r
          have := h.2 s hlk lo hi hr
          simp only [registerFn_ok _ _ _ _ _ this.1 this.2]
          simp [infoOf, hr]
  · have hl : linked syms relocatable d = none := by simp [linked, ht]
    simp only [step, hl]
    simp only [visitor, scope]
    obtain ⟨o, tg, at', rg, ul⟩ := d
    simp only at ht ⊢
    cases tg <;> first | rfl | exact absurd rfl ht

theorem unit_fold (syms : Str → Option Sym) (file : Nat) (relocatable : Bool) (b : Builder) (u : UnitOf)
    (hc : u.1.die.tag = .compileUnit) (lang : Bool) (hl : u.1.die.attr .language = some (.lang lang))
    (hf : lang = true → ∀ d ∈ reachList scope u.1.kids, Fine syms relocatable d) :
    walkUnit (fun d => decide (d.tag = .compileUnit)) cuVisitor (visitor syms file relocatable) b (encUnit u) =
      ((if u.1.die.isRustCu then reachList scope u.1.kids else []).foldl (step syms file relocatable) b, .ok) := by
  obtain ⟨t, n⟩ := u
  simp only at hc hl hf ⊢
  rw [encUnit, C42_walk_unit_follows_tree _ _ _ _ _ _ (by simp [hc])]
  cases t with
  | node d f s ks =>
    simp only [Tree.die, Tree.kids] at hc hl hf ⊢
    cases lang with
    | false => simp [visitRoot, cuVisitor, rustCu, hl, Die.isRustCu]
    | true =>
      simp only [visitRoot, cuVisitor, rustCu, hl, Die.isRustCu]
      rw [visitForest_fold _ (step syms file relocatable) scope (Fine syms relocatable)
        (fun s d h => enter_fine _ _ _ s d h) (fun _ _ _ => rfl) ks (hf rfl)]
      simp

theorem file_fold (syms : Str → Option Sym) (file : Nat) (relocatable : Bool) (us : List UnitOf)
    (h : Readable syms relocatable us) (b : Builder) :
    walkFile (fun d => decide (d.tag = .compileUnit)) cuVisitor (visitor syms file relocatable) b (us.map encUnit) =
      ((candidates us).foldl (step syms file relocatable) b, .ok) := by
  induction us generalizing b with
  | nil => rfl
  | cons u us ih =>
    obtain ⟨lang, hl⟩ := h.language u (by simp)
    have hr : u.1.die.isRustCu = lang := by simp only [Die.isRustCu, hl]; cases lang <;> rfl
    have hsub : ∀ d ∈ candidates us, d ∈ candidates (u :: us) := by
      intro d hd; simp only [candidates, List.flatMap_cons, List.mem_append]; right; exact hd
    have h' : Readable syms relocatable us :=
      ⟨fun v hv => h.roots v (by simp [hv]), fun v hv => h.language v (by simp [hv]),
        fun d hd => h.names d (hsub d hd), fun d hd => h.ranges d (hsub d hd)⟩
    simp only [List.map_cons, walkFile]
    rw [unit_fold syms file relocatable b u (h.roots u (by simp)) lang hl]
    · simp only
      rw [ih h']
      simp [candidates, List.foldl_append]
    · intro hlt d hd
      have hd' : d ∈ candidates (u :: us) := by
        simp only [candidates, List.flatMap_cons, List.mem_append]; left; simp [hr, hlt, hd]
      exact ⟨h.names d hd', h.ranges d hd'⟩

theorem fold_byAddress (syms : Str → Option Sym) (file : Nat) (relocatable : Bool) (ds : List Die) (b : Builder) :
    (ds.foldl (step syms file relocatable) b).byAddress = b.byAddress ++
      (ds.filterMap fun d => (linked syms relocatable d).map fun s => (d, s)).filterMap (infoOf file) := by
  induction ds generalizing b with
  | nil => simp
  | cons d ds ih =>
    simp only [List.foldl_cons]
    rw [ih]
    cases hl : linked syms relocatable d with
    | none => simp [step, hl]
    | some s =>
      cases hi : infoOf file (d, s) with
      | none => simp [step, hl, hi]
      | some f => simp [step, hl, hi]

theorem fold_functions (syms : Str → Option Sym) (file : Nat) (relocatable : Bool) (ds : List Die) (b : Builder)
    (n : Nat) :
    (ds.foldl (step syms file relocatable) b).functions n =
      match (ds.filterMap fun d => (linked syms relocatable d).map fun s => (d, s)).reverse.find?
          fun p => decide (p.2.name = n) with
      | some p => some { die := p.1, range := p.1.range }
      | none => b.functions n := by
  induction ds generalizing b with
  | nil => simp
  | cons d ds ih =>
    simp only [List.foldl_cons]
    rw [ih]
    cases hl : linked syms relocatable d with
    | none => simp [step, hl]
    | some s =>
      simp only [List.filterMap_cons, hl, Option.map_some, List.reverse_cons, List.find?_append]
      cases (ds.filterMap fun d => (linked syms relocatable d).map fun s => (d, s)).reverse.find?
          fun p => decide (p.2.name = n) with
      | some p => simp
      | none =>
        by_cases hn : s.name = n
        · simp [step, hl, put, hn]
        · have : ¬ n = s.name := fun e => hn e.symm
          simp [step, hl, put, hn, this]

/-! ### Properties -/

/-- C53: the index of a readable file lists, by name, exactly the linked functions: a name is found if
and only if some entry describes a linked function of that name, and then the last such entry in
document order is the one kept. -/
theorem C53_by_name (syms : Str → Option Sym) (file : Nat) (relocatable : Bool) (us : List UnitOf)
    (h : Readable syms relocatable us) :
    ∃ b, functionIndex syms file relocatable (us.map encUnit) = .ok b ∧
      ∀ n, b.functions n = ((linkedFns syms relocatable us).reverse.find? fun p => decide (p.2.name = n)).map
        fun p => { die := p.1, range := p.1.range } := by
  refine ⟨_, by simp only [functionIndex, file_fold syms file relocatable us h]; rfl, ?_⟩
  intro n
  rw [fold_functions]
  simp only [linkedFns]
  split
  · rename_i p hp; rw [hp]; rfl
  · rename_i hp; rw [hp]; rfl

/-- C53: by address, exactly the linked functions with code are found: whatever way the address tree
was sorted, looking an address up returns (up to order) the functions whose range contains it, each
with the range of its symbol. -/
theorem C53_by_address (syms : Str → Option Sym) (file : Nat) (relocatable : Bool) (us : List UnitOf)
    (h : Readable syms relocatable us) :
    ∃ b, functionIndex syms file relocatable (us.map encUnit) = .ok b ∧
      ∀ t, Built b.byAddress t → ∀ a,
        (t.queryAddress a true).Perm
          (((linkedFns syms relocatable us).filterMap (infoOf file)).filter
            fun f => decide (f.absStart ≤ a ∧ a < f.absEnd)) := by
  refine ⟨_, by simp only [functionIndex, file_fold syms file relocatable us h]; rfl, ?_⟩
  intro t ht a
  have := C01_query_absolute_exact _ t ht a
  rw [fold_byAddress] at this
  simpa [linkedFns] using this

/-- C53 in the terms of one function: if an entry of a Rust unit is reached through namespaces and
structures, has a linkage name in the symbol table and code, each address of its code finds it, under
the symbol's name and address. -/
theorem C53_function_found (syms : Str → Option Sym) (file : Nat) (us : List UnitOf)
    (h : Readable syms false us) (u : UnitOf) (hu : u ∈ us) (hr : u.1.die.isRustCu = true)
    (k x : Tree Die) (hk : k ∈ u.1.kids) (hx : Reached scope k x) (l : Str) (s : Sym) (lo hi : Nat)
    (ht : x.die.tag = .subprogram) (hn : x.die.attr .linkageName = some (.str l)) (hs : syms l = some s)
    (hrg : x.die.range = some (lo, hi)) (off : Nat) (ho : off < hi - lo) :
    ∃ b, functionIndex syms file false (us.map encUnit) = .ok b ∧ (b.functions s.name).isSome = true ∧
      ∀ t, Built b.byAddress t → ∃ f ∈ t.queryAddress (s.address + off) true,
        f.name = s.name ∧ f.absStart = s.address ∧ f.relStart = lo ∧ f.relEnd = hi := by
  have hc : x.die ∈ candidates us := by
    simp only [candidates, List.mem_flatMap]
    refine ⟨u, hu, ?_⟩
    rw [if_pos hr, reachList_mem]
    refine ⟨k, hk, reached_reach scope k x hx _ ?_⟩
    cases x; simp [reach, Tree.die]
  have hlk : linked syms false x.die = some s := by simp [linked, ht, hn, hs]
  have hm : (x.die, s) ∈ linkedFns syms false us := by
    simp only [linkedFns, List.mem_filterMap]
    exact ⟨x.die, hc, by simp [hlk]⟩
  obtain ⟨b, hb, hby⟩ := C53_by_name syms file false us h
  obtain ⟨b', hb', hba⟩ := C53_by_address syms file false us h
  have : b = b' := by rw [hb] at hb'; cases hb'; rfl
  subst this
  refine ⟨b, hb, ?_, ?_⟩
  · rw [hby]
    cases hf : (linkedFns syms false us).reverse.find? fun p => decide (p.2.name = s.name) with
    | some p => rfl
    | none =>
      rw [List.find?_eq_none] at hf
      have := hf (x.die, s) (by simpa using hm)
      simp at this
  · intro t htb
    have hrange := h.ranges _ hc s hlk lo hi hrg
    refine ⟨{ absStart := s.address, absEnd := s.address + hi - lo, relStart := lo, relEnd := hi,
              file := file, name := s.name }, ?_, rfl, rfl, rfl, rfl⟩
    rw [(hba t htb _).mem_iff, List.mem_filter, List.mem_filterMap]
    refine ⟨⟨_, hm, by simp [infoOf, hrg]⟩, ?_⟩
    simp; omega

theorem walkFile_append {σ α : Type} (isCu : α → Bool) (cu v : Visitor σ α) (s s' : σ) (as bs : List (List (Tok α)))
    (h : walkFile isCu cu v s as = (s', .ok)) : walkFile isCu cu v s (as ++ bs) = walkFile isCu cu v s' bs := by
  induction as generalizing s with
  | nil => simp only [walkFile] at h; cases h; rfl
  | cons a as ih =>
    simp only [List.cons_append, walkFile] at h ⊢
    rcases hw : walkUnit isCu cu v s a with ⟨s1, e⟩
    rw [hw] at h
    cases e <;> simp_all

/-- C53: a unit that does not state its language does not take away what was found before it: the index
of the file is that of the units before it. -/
theorem C53_units_before_failure_kept (syms : Str → Option Sym) (file : Nat) (relocatable : Bool)
    (us : List UnitOf) (u : UnitOf) (rest : List UnitOf) (h : Readable syms relocatable us)
    (hc : u.1.die.tag = .compileUnit) (hl : u.1.die.attr .language = none) :
    functionIndex syms file relocatable ((us ++ u :: rest).map encUnit) =
      functionIndex syms file relocatable (us.map encUnit) := by
  have hw : ∀ b, walkUnit (fun d => decide (d.tag = .compileUnit)) cuVisitor (visitor syms file relocatable) b
      (encUnit u) = (b, .err) := by
    intro b
    obtain ⟨t, n⟩ := u
    simp only at hc hl ⊢
    rw [encUnit, C42_walk_unit_follows_tree _ _ _ _ _ _ (by simp [hc])]
    cases t with
    | node d f s ks =>
      simp only [Tree.die] at hl
      simp [visitRoot, cuVisitor, rustCu, hl]
  simp only [functionIndex, List.map_append, List.map_cons]
  rw [walkFile_append _ _ _ _ _ _ _ (file_fold syms file relocatable us h {}), file_fold syms file relocatable us h]
  simp [walkFile, hw]

/-- C53 fails: a unit that does not state its language ends the indexing of the file: no function of
any later unit is found. -/
theorem C53_unit_without_language_fails (syms : Str → Option Sym) (file : Nat) (relocatable : Bool) (u : UnitOf)
    (us : List UnitOf) (hc : u.1.die.tag = .compileUnit)
    (hl : u.1.die.attr .language = none) :
    ∃ b, functionIndex syms file relocatable ((u :: us).map encUnit) = .ok b ∧
      (∀ n, b.functions n = none) ∧ b.byAddress = [] := by
  have hw : walkUnit (fun d => decide (d.tag = .compileUnit)) cuVisitor (visitor syms file relocatable) {}
      (encUnit u) = ({}, .err) := by
    obtain ⟨t, n⟩ := u
    simp only at hc hl ⊢
    rw [encUnit, C42_walk_unit_follows_tree _ _ _ _ _ _ (by simp [hc])]
    cases t with
    | node d f s ks =>
      simp only [Tree.die] at hl
      simp [visitRoot, cuVisitor, rustCu, hl]
  refine ⟨{}, ?_, fun _ => rfl, rfl⟩
  simp only [functionIndex, List.map_cons, walkFile, hw]

/-- C54: nothing is found by address unless one entry carries both the linkage name and the code. -/
theorem C54_found_needs_name_and_code (syms : Str → Option Sym) (file : Nat) (relocatable : Bool)
    (us : List UnitOf) (h : Readable syms relocatable us) :
    ∃ b, functionIndex syms file relocatable (us.map encUnit) = .ok b ∧
      ∀ f ∈ b.byAddress, ∃ d ∈ candidates us, d.tag = .subprogram ∧
        (∃ l, d.attr .linkageName = some (.str l)) ∧ d.range = some (f.relStart, f.relEnd) := by
  refine ⟨_, by simp only [functionIndex, file_fold syms file relocatable us h]; rfl, ?_⟩
  intro f hf
  rw [fold_byAddress] at hf
  simp only [List.nil_append, List.mem_filterMap] at hf
  obtain ⟨p, ⟨d, hd, hp⟩, hi⟩ := hf
  cases hlk : linked syms relocatable d with
  | none => simp [hlk] at hp
  | some s =>
    simp only [hlk, Option.map_some, Option.some.injEq] at hp
    subst hp
    simp only [infoOf, Option.map_eq_some_iff] at hi
    obtain ⟨r, hr, rfl⟩ := hi
    refine ⟨d, hd, ?_, ?_, hr⟩
    · by_cases ht : d.tag = .subprogram
      · exact ht
      · simp [linked, ht] at hlk
    · simp only [linked] at hlk
      split at hlk
      · split at hlk
        · exact ⟨_, by assumption⟩
        · cases hlk
      · cases hlk

/-- How the compiler describes an inherent method: a declaration with name and linkage name inside the
structure, and, elsewhere, a definition with the code that only refers to the declaration. -/
def methodFile (code : Nat × Nat) : List UnitOf :=
  [(.node { off := 11, tag := .compileUnit, attrs := [(.language, .lang true)], unitLength := 100 } true false
      [.node { off := 20, tag := .structureType, attrs := [(.name, .str (chars! "S"))] } true false
        [.node { off := 30, tag := .subprogram, attrs := [(.linkageName, .str (chars! "m_S"))] } false false []],
       .node { off := 40, tag := .subprogram, attrs := [(.specification, .ref 30)], range := some code } false false []],
    0)]

/-- C54 fails: the code of a method described by a declaration and a definition is not found at any
address, although the symbol is known and the method is listed by name. -/
theorem C54_method_code_missing_fails (code : Nat × Nat) (syms : Str → Option Sym) (s : Sym)
    (hs : syms (chars! "m_S") = some s) (file : Nat) :
    ∃ b, functionIndex syms file false ((methodFile code).map encUnit) = .ok b ∧
      (b.functions s.name).isSome = true ∧ b.byAddress = [] ∧
      ∀ t, Built b.byAddress t → ∀ a, t.queryAddress a true = [] := by
  have hr : Readable syms false (methodFile code) := by
    refine ⟨by simp [methodFile, Tree.die], ?_, ?_, ?_⟩
    · simp [methodFile, Tree.die, Die.attr]
    · simp [methodFile, candidates, Tree.die, Tree.kids, Die.isRustCu, Die.attr, reachList, reach, scope]
    · intro d hd s' hlk lo hi hrg
      simp [methodFile, candidates, Tree.die, Tree.kids, Die.isRustCu, Die.attr, reachList, reach, scope] at hd
      rcases hd with rfl | rfl | rfl
      · simp at hrg
      · simp at hrg
      · simp [linked, Die.attr] at hlk
  obtain ⟨b, hb, hn⟩ := C53_by_name syms file false _ hr
  obtain ⟨b', hb', ha⟩ := C54_found_needs_name_and_code syms file false _ hr
  have : b = b' := by rw [hb] at hb'; cases hb'; rfl
  subst this
  have hnil : b.byAddress = [] := by
    cases hba : b.byAddress with
    | nil => rfl
    | cons f fs =>
      obtain ⟨d, hd, h1, ⟨l, h2⟩, h3⟩ := ha f (by rw [hba]; simp)
      simp [methodFile, candidates, Tree.die, Tree.kids, Die.isRustCu, Die.attr, reachList, reach, scope] at hd
      rcases hd with rfl | rfl | rfl
      · simp at h3
      · simp at h3
      · simp [Die.attr] at h2
  refine ⟨b, hb, ?_, hnil, ?_⟩
  · rw [hn]
    simp [linkedFns, methodFile, candidates, Tree.die, Tree.kids, Die.isRustCu, Die.attr, reachList, reach,
      scope, linked, hs]
  · intro t ht a
    have := C01_query_absolute_exact _ t ht a
    rw [hnil] at this
    simpa using this

mutual
/-- A walk panics at the first entry whose callback does. -/
theorem visitTree_panic {σ α : Type} (v : Visitor σ α) (step : σ → α → σ) (down : α → Bool) (good bad : α → Prop)
    (he : ∀ s d, good d → v.enter s d = (step s d, if down d then .walk else .skip)) (hl : ∀ s d a, v.leave s d a = s)
    (hb : ∀ s d, bad d → (v.enter s d).2 = .panic) (t : Tree α) (hg : ∀ d ∈ reach down t, good d ∨ bad d) (s : σ) (after : Option α) :
    (∀ d ∈ reach down t, good d) ∧ (visitTree v s after t).2 = .ok ∨ (∃ d ∈ reach down t, bad d) ∧ (visitTree v s after t).2 = .panic := by
  match t with
  | .node d f k ks =>
    rcases hg d (by simp [reach]) with h | h
    · rw [visitTree, he s d h]
      cases hd : down d with
      | false => exact .inl ⟨by simpa [reach, hd] using h, rfl⟩
      | true =>
        simp only [reach, hd, if_true, List.mem_cons] at hg ⊢
        rcases visitForest_panic v step down good bad he hl hb ks (fun d' hd' => hg d' (.inr hd')) (step s d) after with ⟨h1, h2⟩ | ⟨⟨d', h1, h3⟩, h2⟩
        · refine .inl ⟨fun d' hd' => hd'.elim (fun e => e ▸ h) (h1 d'), ?_⟩
          rcases hv : visitForest v (step s d) after ks with ⟨s', e⟩
          rw [hv] at h2
          cases h2
          rfl
        · refine .inr ⟨⟨d', .inr h1, h3⟩, ?_⟩
          rcases hv : visitForest v (step s d) after ks with ⟨s', e⟩
          rw [hv] at h2
          cases h2
          rfl
    · refine .inr ⟨⟨d, by simp [reach], h⟩, ?_⟩
      have := hb s d h
      rw [visitTree]
      rcases hv : v.enter s d with ⟨s', a⟩
      rw [hv] at this
      cases this
      rfl
theorem visitForest_panic {σ α : Type} (v : Visitor σ α) (step : σ → α → σ) (down : α → Bool) (good bad : α → Prop)
    (he : ∀ s d, good d → v.enter s d = (step s d, if down d then .walk else .skip)) (hl : ∀ s d a, v.leave s d a = s)
    (hb : ∀ s d, bad d → (v.enter s d).2 = .panic) (ts : List (Tree α)) (hg : ∀ d ∈ reachList down ts, good d ∨ bad d) (s : σ) (after : Option α) :
    (∀ d ∈ reachList down ts, good d) ∧ (visitForest v s after ts).2 = .ok ∨ (∃ d ∈ reachList down ts, bad d) ∧ (visitForest v s after ts).2 = .panic := by
  match ts with
  | [] => exact .inl ⟨by simp [reachList], rfl⟩
  | t :: ts =>
    simp only [reachList, List.mem_append] at hg ⊢
    rw [visitForest]
    rcases visitTree_panic v step down good bad he hl hb t (fun d hd => hg d (.inl hd)) s (firstOr after ts) with ⟨h1, h2⟩ | ⟨⟨d, h1, h3⟩, h2⟩
    · rcases hv : visitTree v s (firstOr after ts) t with ⟨s', e⟩
      rw [hv] at h2
      cases h2
      rcases visitForest_panic v step down good bad he hl hb ts (fun d hd => hg d (.inr hd)) s' after with ⟨h3, h4⟩ | ⟨⟨d, h3, h5⟩, h4⟩
      · exact .inl ⟨fun d hd => hd.elim (h1 d) (h3 d), h4⟩
      · exact .inr ⟨⟨d, .inr h3, h5⟩, h4⟩
    · rcases hv : visitTree v s (firstOr after ts) t with ⟨s', e⟩
      rw [hv] at h2
      cases h2
      exact .inr ⟨⟨d, .inl h1, h3⟩, rfl⟩
end

/-- Specification: the range of the function, moved to its symbol, does not fit into the address space. -/
def PastTheEnd (syms : Str → Option Sym) (relocatable : Bool) (d : Die) : Prop :=
  ∃ s, linked syms relocatable d = some s ∧ ∃ lo hi, d.range = some (lo, hi) ∧ ¬ (lo ≤ s.address + hi ∧ s.address + hi < u64Max1)

theorem enter_past (syms : Str → Option Sym) (file : Nat) (relocatable : Bool) (b : Builder) (d : Die) (h : PastTheEnd syms relocatable d) :
    ((visitor syms file relocatable).enter b d).2 = .panic := by
  obtain ⟨s, hs, lo, hi, hr, hn⟩ := h
  simp only [linked] at hs
  split at hs
  · rename_i ht
    split at hs
    · rename_i l hl
      have : registerFn s.address (lo, hi) file s.name = .panic := by
        simp only [registerFn, addU, subU]
        by_cases h2 : s.address + hi < u64Max1
        · rw [if_pos h2]
          simp only [bind, Res.bind]
          rw [if_neg (fun h1 => hn ⟨h1, h2⟩)]
        · rw [if_neg h2]; rfl
      simp only [visitor, ht, visitFunction, Die.stringAttrOpt, hl, hs, hr, this]
    · cases hs
  · cases hs

/-- C53: building the index crashes exactly if a function of the file, moved to its symbol, ends after the last address or before the first; if it does, nothing of the file is found. -/
theorem C53_crashes_iff (syms : Str → Option Sym) (file : Nat) (relocatable : Bool) (us : List UnitOf) (hroots : ∀ u ∈ us, u.1.die.tag = .compileUnit)
    (hlang : ∀ u ∈ us, ∃ b, u.1.die.attr .language = some (.lang b))
    (hnames : ∀ d ∈ candidates us, d.tag = .subprogram → d.attr .linkageName = none ∨ ∃ l, d.attr .linkageName = some (.str l)) :
    functionIndex syms file relocatable (us.map encUnit) = .panic ↔ ∃ d ∈ candidates us, PastTheEnd syms relocatable d := by
  have gb : ∀ d ∈ candidates us, Fine syms relocatable d ∨ PastTheEnd syms relocatable d := by
    intro d hd
    by_cases h : PastTheEnd syms relocatable d
    · exact .inr h
    · refine .inl ⟨hnames d hd, fun s hs lo hi hr => ?_⟩
      by_cases h' : lo ≤ s.address + hi ∧ s.address + hi < u64Max1
      · exact h'
      · exact absurd ⟨s, hs, lo, hi, hr, h'⟩ h
  have key : ∀ b, (∀ d ∈ candidates us, Fine syms relocatable d) ∧
      (walkFile (fun d => decide (d.tag = .compileUnit)) cuVisitor (visitor syms file relocatable) b (us.map encUnit)).2 = .ok ∨
      (∃ d ∈ candidates us, PastTheEnd syms relocatable d) ∧
      (walkFile (fun d => decide (d.tag = .compileUnit)) cuVisitor (visitor syms file relocatable) b (us.map encUnit)).2 = .panic := by
    clear hnames
    induction us with
    | nil => exact fun b => .inl ⟨by simp [candidates], rfl⟩
    | cons u us ih =>
      intro b
      obtain ⟨lang, hl⟩ := hlang u (by simp)
      have hr : u.1.die.isRustCu = lang := by simp only [Die.isRustCu, hl]; cases lang <;> rfl
      have hcons : candidates (u :: us) = (if u.1.die.isRustCu then reachList scope u.1.kids else []) ++ candidates us := by simp [candidates]
      rw [hcons] at gb ⊢
      simp only [List.mem_append] at gb ⊢
      simp only [List.map_cons, walkFile]
      have hu : (∀ d ∈ (if u.1.die.isRustCu then reachList scope u.1.kids else []), Fine syms relocatable d) ∧
          (walkUnit (fun d => decide (d.tag = .compileUnit)) cuVisitor (visitor syms file relocatable) b (encUnit u)).2 = .ok ∨
          (∃ d ∈ (if u.1.die.isRustCu then reachList scope u.1.kids else []), PastTheEnd syms relocatable d) ∧
          (walkUnit (fun d => decide (d.tag = .compileUnit)) cuVisitor (visitor syms file relocatable) b (encUnit u)).2 = .panic := by
        have hroot := hroots u (by simp)
        obtain ⟨t, n⟩ := u
        rw [hr] at gb ⊢
        simp only at hl hroot gb ⊢
        rw [encUnit, C42_walk_unit_follows_tree _ _ _ _ _ _ (by simp [hroot])]
        cases t with
        | node d f k ks =>
          simp only [Tree.die, Tree.kids] at hl gb ⊢
          cases lang with
          | false => exact .inl ⟨by simp, by simp [visitRoot, cuVisitor, rustCu, hl]⟩
          | true =>
            simp only [if_true] at gb ⊢
            rcases visitForest_panic (visitor syms file relocatable) (step syms file relocatable) scope (Fine syms relocatable) (PastTheEnd syms relocatable)
              (fun s d h => enter_fine _ _ _ s d h) (fun _ _ _ => rfl) (fun s d h => enter_past _ _ _ s d h) ks (fun d hd => gb d (.inl hd)) b
              ((dfsLoop (List.replicate n .null) 0).2.map (·.2)) with ⟨h1, h2⟩ | ⟨h1, h2⟩
            · refine .inl ⟨h1, ?_⟩
              rcases hv : visitForest (visitor syms file relocatable) b ((dfsLoop (List.replicate n .null) 0).2.map (·.2)) ks with ⟨s', e⟩
              rw [hv] at h2
              cases h2
              simp [visitRoot, cuVisitor, rustCu, hl, hv]
            · refine .inr ⟨h1, ?_⟩
              rcases hv : visitForest (visitor syms file relocatable) b ((dfsLoop (List.replicate n .null) 0).2.map (·.2)) ks with ⟨s', e⟩
              rw [hv] at h2
              cases h2
              simp [visitRoot, cuVisitor, rustCu, hl, hv]
      rcases hw : walkUnit (fun d => decide (d.tag = .compileUnit)) cuVisitor (visitor syms file relocatable) b (encUnit u) with ⟨b', e⟩
      rw [hw] at hu
      rcases hu with ⟨h1, h2⟩ | ⟨⟨d, h1, h3⟩, h2⟩
      · cases h2
        rcases ih (fun v hv => hroots v (by simp [hv])) (fun v hv => hlang v (by simp [hv])) (fun d hd => gb d (.inr hd)) b' with ⟨h3, h4⟩ | ⟨⟨d, h3, h5⟩, h4⟩
        · exact .inl ⟨fun d hd => hd.elim (h1 d) (h3 d), by simp only [hw]; exact h4⟩
        · exact .inr ⟨⟨d, .inr h3, h5⟩, by simp only [hw]; exact h4⟩
      · cases h2
        exact .inr ⟨⟨d, .inl h1, h3⟩, by simp only [hw]⟩
  simp only [functionIndex]
  rcases hw : walkFile (fun d => decide (d.tag = .compileUnit)) cuVisitor (visitor syms file relocatable) {} (us.map encUnit) with ⟨b, e⟩
  have := key {}
  rw [hw] at this
  rcases this with ⟨h1, h2⟩ | ⟨h1, h2⟩
  · cases h2
    simp only [hw]
    refine ⟨fun h => (by cases h), fun ⟨d, hd, s, hs, lo, hi, hr, hn⟩ => absurd ((h1 d hd).2 s hs lo hi hr) hn⟩
  · cases h2
    simp only [hw]
    exact ⟨fun _ => h1, fun _ => trivial⟩

/-- C54 fails: functions described inside an enumeration (or any entry that is neither a namespace nor
a structure) are not found by name or address, whatever they are. -/
theorem C54_enclosed_function_missing_fails (syms : Str → Option Sym) (file : Nat) (relocatable : Bool)
    (cu e : Die) (f f' s s' : Bool) (ks : List (Tree Die)) (n : Nat) (hc : cu.tag = .compileUnit)
    (hl : cu.attr .language = some (.lang true)) (h1 : scope e = false) (h2 : e.tag ≠ .subprogram) :
    ∃ b, functionIndex syms file relocatable ([(.node cu f s [.node e f' s' ks], n)].map encUnit) = .ok b ∧
      (∀ n, b.functions n = none) ∧ b.byAddress = [] := by
  have hcand : candidates [(.node cu f s [.node e f' s' ks], n)] = [e] := by
    simp [candidates, Tree.die, Tree.kids, Die.isRustCu, hl, reachList, reach, h1]
  have hlk : linked syms relocatable e = none := by simp [linked, h2]
  have hr : Readable syms relocatable [(.node cu f s [.node e f' s' ks], n)] := by
    refine ⟨by simp [Tree.die, hc], by simp [Tree.die, hl], ?_, ?_⟩
    · rw [hcand]; intro d hd ht; simp at hd; subst hd; exact absurd ht h2
    · rw [hcand]; intro d hd s' hs'; simp at hd; subst hd; rw [hlk] at hs'; cases hs'
  refine ⟨_, by simp only [functionIndex, file_fold syms file relocatable _ hr]; rfl, ?_, ?_⟩
  · intro n'; rw [hcand]; simp [step, hlk]
  · rw [hcand]; simp [step, hlk]

/-! ### A concrete file -/

/-- A file with a free function in a module and an associated function with its own code. -/
def plainFile : List UnitOf :=
  [(.node { off := 11, tag := .compileUnit, attrs := [(.language, .lang true)], unitLength := 100 } true false
      [.node { off := 20, tag := .namespace, attrs := [(.name, .str (chars! "a"))] } true false
        [.node { off := 30, tag := .subprogram, attrs := [(.linkageName, .str (chars! "f"))], range := some (16, 48) } false false []],
       .node { off := 50, tag := .structureType } true false
        [.node { off := 60, tag := .subprogram, attrs := [(.linkageName, .str (chars! "g"))], range := some (64, 80) } false false []]],
    0)]

/-- Its symbol table. -/
def plainSyms : Str → Option Sym := fun l =>
  if l = chars! "f" then some { name := 1, address := 4096 }
  else if l = chars! "g" then some { name := 2, address := 8192 } else none

/-- The concrete file is readable, and address 4100 is in `f`. -/
theorem plainFile_readable : Readable plainSyms false plainFile := by
  refine ⟨by decide, ?_, ?_, ?_⟩
  · simp [plainFile, Tree.die, Die.attr]
  · simp [plainFile, candidates, Tree.die, Tree.kids, Die.isRustCu, Die.attr, reachList, reach, scope]
  · intro d hd s hlk lo hi hrg
    simp [plainFile, candidates, Tree.die, Tree.kids, Die.isRustCu, Die.attr, reachList, reach, scope] at hd
    rcases hd with rfl | rfl | rfl | rfl
    · simp at hrg
    · simp [linked, Die.attr, plainSyms] at hlk hrg; subst hlk; simp [u64Max1]; omega
    · simp at hrg
    · simp [linked, Die.attr, plainSyms] at hlk hrg; subst hlk; simp [u64Max1]; omega

example : ∃ b, functionIndex plainSyms 0 false (plainFile.map encUnit) = .ok b ∧
    ((b.functions 1).map fun e => e.die.off) = some 30 ∧ ((b.functions 2).map fun e => e.die.off) = some 60 ∧
    (b.functions 3).isNone = true := by
  obtain ⟨b, h, hn⟩ := C53_by_name plainSyms 0 false plainFile plainFile_readable
  exact ⟨b, h, by rw [hn]; decide, by rw [hn]; decide, by rw [hn]; decide⟩

/-- `C53_crashes_iff` at work: the same file, with a symbol table that puts `g` at the last address. -/
example : functionIndex (fun l => if l = chars! "g" then some { name := 2, address := u64Max1 - 1 } else plainSyms l) 0 false (plainFile.map encUnit) = .panic := by
  refine (C53_crashes_iff _ 0 false plainFile plainFile_readable.roots plainFile_readable.language plainFile_readable.names).2
    ⟨{ off := 60, tag := .subprogram, attrs := [(.linkageName, .str (chars! "g"))], range := some (64, 80) }, ?_, { name := 2, address := u64Max1 - 1 }, rfl, 64, 80, rfl, by simp [u64Max1]⟩
  simp [plainFile, candidates, Tree.die, Tree.kids, Die.isRustCu, Die.attr, reachList, reach, scope]

end Rudy.FnIndex
