import Verif.Props.Image
import Verif.Props.Discovery
/-
C97: from the executable to the list of its functions.
-/
namespace Rudy.Image
open Rudy Rudy.Walker Rudy.Dwarf Rudy.Parse Rudy.Layout Rudy.Symbols Rudy.FnIndex Rudy.Entries Rudy.Modules
open Rudy.TypeRes (resolveType shallow WellFormed Decodes)
open Rudy.Discovery (SameName InForce commaSep Param Params Declares Found okOf)
open Rudy.Shown (Called Is)
open Rudy.Listing (rd page)

/-! ### Vocabulary -/

/-- The symbol table has code for the function `n`, at `a`; if it has code for `n` more than once, this is the last. -/
def CodeOf (w : Libs) (x : Executable) (n : SymbolName) (a : Nat) : Prop :=
  ∃ pre e post, x.symbols = pre ++ e :: post ∧ e.isText = true ∧ demangle w.demangler e.raw = some n ∧ e.address = a ∧
    ∀ e' ∈ post, e'.isText = true → ∀ n', demangle w.demangler e'.raw = some n' → ¬ SameName n' n

/-- The entry `d` is that of a function, and its linkage name, which is in the symbol table, stands for `n`. -/
def Names (w : Libs) (x : Executable) (d : Die) (n : SymbolName) : Prop :=
  d.tag = .subprogram ∧ ∃ l, d.attr .linkageName = some (.str l) ∧ (∃ e ∈ x.symbols, e.raw = l) ∧ demangle w.demangler l = some n

/-- The entry of the function `n`: the last one, in the modules and structures of the Rust units, that names it. -/
def EntryOf (w : Libs) (x : Executable) (us : List UnitOf) (n : SymbolName) (d : Die) : Prop :=
  ∃ pre post, candidates us = pre ++ d :: post ∧ Names w x d n ∧ ∀ d' ∈ post, ¬ Names w x d' n

/-- The type at `e` is described in the debug information, and it is called `text`. -/
def TypeCalled (w : Libs) (x : Executable) (e : Nat) (text : Str) : Prop :=
  (∃ desc, Is (typedef w.lib x) (fileDb x.units) e desc) ∧ Called (typedef w.lib x) (fileDb x.units) w.lib.render e text

/-- How a parameter is called: by its name, or by its place. -/
def argName (i : Nat) (d : Die) : Str :=
  match d.attr .name with
  | some (.str n) => n
  | _ => '_' :: natStr i

/-- The parameters among the entries directly inside a function, from the one at place `i` on, as they are written in its signature. -/
inductive Args (called : Nat → Str → Prop) : Nat → List (Tree Die) → List Str → Prop
  | nil {i : Nat} : Args called i [] []
  | arg {i ty : Nat} {k : Tree Die} {ks : List (Tree Die)} {text : Str} {texts : List Str} : k.die.tag = .formalParameter → k.die.attr .type = some (.ref ty) →
      called ty text → Args called (i + 1) ks texts → Args called i (k :: ks) ((argName i k.die ++ chars! ": " ++ text) :: texts)
  | other {i : Nat} {k : Tree Die} {ks : List (Tree Die)} {texts : List Str} : ¬ (k.die.tag = .formalParameter ∧ ∃ ty, k.die.attr .type = some (.ref ty)) →
      Args called i ks texts → Args called i (k :: ks) texts

/-- The types of the parameters among the entries directly inside a function, in order. -/
inductive ArgTypes : List (Tree Die) → List Nat → Prop
  | nil : ArgTypes [] []
  | arg {ty : Nat} {k : Tree Die} {ks : List (Tree Die)} {tys : List Nat} : k.die.tag = .formalParameter → k.die.attr .type = some (.ref ty) →
      ArgTypes ks tys → ArgTypes (k :: ks) (ty :: tys)
  | other {k : Tree Die} {ks : List (Tree Die)} {tys : List Nat} : ¬ (k.die.tag = .formalParameter ∧ ∃ ty, k.die.attr .type = some (.ref ty)) →
      ArgTypes ks tys → ArgTypes (k :: ks) tys

/-- The result of a function as it is written in its signature: not at all if there is none or it is `()`. -/
inductive Result (called : Nat → Str → Prop) (d : Die) : Str → Prop
  | none : (∀ ty, d.attr .type ≠ some (.ref ty)) → Result called d []
  | unit {ty : Nat} : d.attr .type = some (.ref ty) → called ty (chars! "()") → Result called d []
  | some {ty : Nat} {text : Str} : d.attr .type = some (.ref ty) → called ty text → text ≠ chars! "()" → Result called d (chars! " -> " ++ text)

/-- The line for the function `n`: its path, and its signature if it has an entry. -/
def Line (w : Libs) (x : Executable) (us : List UnitOf) (n : SymbolName) (line : Str) : Prop :=
  (∃ t ∈ nodes us, EntryOf w x us n t.die ∧ ∃ args tail, Args (TypeCalled w x) 0 t.kids args ∧ Result (TypeCalled w x) t.die tail ∧
    line = chars! "  " ++ joinSep (n.modulePath ++ [n.lookupName]) ++ chars! ": fn " ++ n.lookupName ++ chars! "(" ++ commaSep args ++ chars! ")" ++ tail ++
      chars! " (callable)") ∨
  ((∀ d, ¬ EntryOf w x us n d) ∧
    line = chars! "  " ++ joinSep (n.modulePath ++ [n.lookupName]) ++ chars! ": fn " ++ n.display ++ chars! "(?) (not callable)")

/-- The type at `ty` is that of the result or of a parameter of the function `t`. -/
def InSignature (t : Tree Die) (ty : Nat) : Prop :=
  t.die.attr .type = some (.ref ty) ∨ ∃ k ∈ t.kids, k.die.tag = .formalParameter ∧ k.die.attr .type = some (.ref ty)

/-- The type at `e` is an `RwLock`, or a reference to one, or a reference to a reference to one … -/
inductive Locks (typedef : Nat → Option Layout) (db : Db) : Nat → Prop
  | lock {e : Nat} {t : TypeDef} {a b : Nat} : typedef e = some (.smartPtr .rwLock t a b) → Locks typedef db e
  | ref {e x : Nat} {m : Bool} {t : TypeDef} : typedef e = some (.reference m t) → Parse.Typed db e x → Locks typedef db x → Locks typedef db e

/-- The page for these lines. -/
def linesPage : List Str → List Str
  | [] => [chars! "No functions found"]
  | l :: ls => (chars! "Found " ++ natStr (ls.length + 1) ++ chars! " function(s):") :: l :: ls

/-! ### Proofs -/

/-- The function a symbol of the table stands for. -/
def fnAt (w : Libs) (e : Listed) : Option Symbol :=
  if e.isText then (demangle w.demangler e.raw).map fun n => ⟨n, e.address, 0⟩ else none

theorem insertedFns_eq (w : Libs) (x : Executable) : insertedFns [.binary (entries w x) 0] = x.symbols.filterMap (fnAt w) := by
  rw [insertedFns, inserted_eq]
  induction x.symbols with
  | nil => rfl
  | cons e es ih =>
    simp only [List.filterMap_cons, evAt, fnAt]
    cases hd : demangle w.demangler e.raw with
    | none =>
      simp only [Option.map_none, ite_self]
      exact ih
    | some n =>
      simp only [Option.map_some, List.filter_cons]
      cases ht : e.isText
      · simpa using ih
      · simpa using ih

theorem inForce_iff_code (w : Libs) (x : Executable) (s : Symbol) :
    InForce [.binary (entries w x) 0] s ↔ CodeOf w x s.name s.address ∧ s.debugFile = 0 := by
  unfold InForce CodeOf
  rw [insertedFns_eq]
  have hfn : ∀ e s, fnAt w e = some s ↔ e.isText = true ∧ ∃ n, demangle w.demangler e.raw = some n ∧ s = ⟨n, e.address, 0⟩ := by
    intro e s
    unfold fnAt
    cases e.isText
    · simp
    · simp only [if_true, Option.map_eq_some_iff, true_and]
      exact ⟨fun ⟨n, h1, h2⟩ => ⟨n, h1, h2.symm⟩, fun ⟨n, h1, h2⟩ => ⟨n, h1, h2.symm⟩⟩
  constructor
  · rintro ⟨b, a, h, hn⟩
    rw [List.filterMap_eq_append_iff] at h
    obtain ⟨l1, l2, hx, h1, h2⟩ := h
    rw [List.filterMap_eq_cons_iff] at h2
    obtain ⟨l3, e, l4, rfl, h3, h4, h5⟩ := h2
    obtain ⟨ht, n, hd, rfl⟩ := (hfn _ _).1 h4
    refine ⟨⟨l1 ++ l3, e, l4, by rw [hx]; simp, ht, hd, rfl, ?_⟩, rfl⟩
    intro e' he' ht' n' hd'
    refine hn ⟨n', e'.address, 0⟩ ?_
    rw [← h5]
    exact List.mem_filterMap.2 ⟨e', he', (hfn _ _).2 ⟨ht', n', hd', rfl⟩⟩
  · obtain ⟨n, a, f⟩ := s
    rintro ⟨⟨pre, e, post, hx, ht, hd, rfl, hlast⟩, rfl⟩
    refine ⟨pre.filterMap (fnAt w), post.filterMap (fnAt w), ?_, ?_⟩
    · rw [hx, List.filterMap_append, List.filterMap_cons, (hfn e ⟨n, e.address, 0⟩).2 ⟨ht, n, hd, rfl⟩]
    · intro t htm
      obtain ⟨e', he', h⟩ := List.mem_filterMap.1 htm
      obtain ⟨ht', n', hd', rfl⟩ := (hfn _ _).1 h
      exact hlast e' he' ht' n' hd'

theorem names_iff (w : Libs) (x : Executable) (d : Die) (n : SymbolName) :
    Names w x d n ↔ ∃ s, linked (syms w x) false d = some s ∧ s.name = nameId w x n ∧ ∃ e ∈ x.symbols, demangle w.demangler e.raw = some n := by
  constructor
  · rintro ⟨ht, l, hl, ⟨e, he, hr⟩, hd⟩
    have hlisted : ∃ e ∈ x.symbols, demangle w.demangler e.raw = some n := ⟨e, he, by rw [hr]; exact hd⟩
    cases hs : syms w x l with
    | some s =>
      obtain ⟨e', he', n', hr', hn', rfl⟩ := syms_some w x l s hs
      rw [hd] at hn'
      cases hn'
      exact ⟨_, by simp only [linked, ht, if_true, hl, Bool.false_eq_true, if_false]; exact hs, rfl, hlisted⟩
    | none =>
      simp only [syms, symbolIndex, C06_symbols_by_file_last_wins, Option.map_eq_none_iff, List.getLast?_eq_none_iff, List.map_eq_nil_iff,
        List.filter_eq_nil_iff] at hs
      have := hs ⟨e.raw, ⟨n, e.address, 0⟩, e.isText⟩ ((mem_inserted w x _).2 ⟨e, he, n, by rw [hr]; exact hd, rfl⟩)
      simp [hr] at this
  · rintro ⟨s, hs, hn, hlisted⟩
    simp only [linked, Bool.false_eq_true, if_false] at hs
    split at hs
    · rename_i ht
      split at hs
      · rename_i l hl
        obtain ⟨e, he, n', hr, hd, rfl⟩ := syms_some w x l s hs
        have h1 := nameAt_nameId w x n hlisted
        have h2 := nameAt_nameId w x n' ⟨e, he, by rw [hr]; exact hd⟩
        simp only at hn
        rw [hn, h1] at h2
        cases h2
        exact ⟨ht, l, hl, ⟨e, he, hr⟩, hd⟩
      · cases hs
    · cases hs

/-- The index of functions by name has the entries of the functions. -/
theorem fnEntry_iff {w : Libs} {x : Executable} {us : List UnitOf} {fns : FnIndex.Builder} (hby : ∀ n, fns.functions n =
      ((linkedFns (syms w x) false us).reverse.find? fun p => decide (p.2.name = n)).map fun p => { die := p.1, range := p.1.range })
    (n : SymbolName) (hn : ∃ e ∈ x.symbols, demangle w.demangler e.raw = some n) (o : Nat) :
    (fns.functions (nameId w x n)).map (fun e => e.die.off) = some o ↔ ∃ d, EntryOf w x us n d ∧ d.off = o := by
  rw [hby, Option.map_map, Option.map_eq_some_iff]
  have key : ∀ d, (∃ p, (linkedFns (syms w x) false us).reverse.find? (fun p => decide (p.2.name = nameId w x n)) = some p ∧ p.1 = d) ↔ EntryOf w x us n d := by
    intro d
    unfold EntryOf
    simp only [linkedFns]
    generalize candidates us = cs
    induction cs using List.reverseRecOn with
    | nil => simp
    | append_singleton cs c ih =>
      have hlast : ∀ P : Die → Prop, (∃ pre post, cs ++ [c] = pre ++ d :: post ∧ P d ∧ ∀ d' ∈ post, ¬ P d') ↔
          (P c ∧ d = c) ∨ (¬ P c ∧ ∃ pre post, cs = pre ++ d :: post ∧ P d ∧ ∀ d' ∈ post, ¬ P d') := by
        intro P
        constructor
        · rintro ⟨pre, post, h, hd, hno⟩
          rcases List.eq_nil_or_concat post with rfl | ⟨post', c', rfl⟩
          · have := List.append_inj' h rfl
            obtain ⟨rfl, h2⟩ := this
            cases h2
            exact .inl ⟨hd, rfl⟩
          · have h' : cs ++ [c] = (pre ++ d :: post') ++ [c'] := by simpa using h
            obtain ⟨h1, h2⟩ := List.append_inj' h' rfl
            cases h2
            exact .inr ⟨hno c (by simp), pre, post', h1, hd, fun d' hd' => hno d' (by simp [hd'])⟩
        · rintro (⟨hc, rfl⟩ | ⟨hc, pre, post, rfl, hd, hno⟩)
          · exact ⟨cs, [], rfl, hc, by simp⟩
          · refine ⟨pre, post ++ [c], by simp, hd, ?_⟩
            intro d' hd'
            rcases List.mem_append.1 hd' with h | h
            · exact hno d' h
            · cases List.mem_singleton.1 h; exact hc
      rw [hlast fun d => Names w x d n, ← ih, List.filterMap_append, List.reverse_append, List.filterMap_cons, List.filterMap_nil]
      cases hl : linked (syms w x) false c with
      | none =>
        have : ¬ Names w x c n := by
          intro h
          obtain ⟨s, hs, -⟩ := (names_iff w x c n).1 h
          rw [hl] at hs; cases hs
        simp [this]
      | some s =>
        by_cases hs : s.name = nameId w x n
        · have : Names w x c n := (names_iff w x c n).2 ⟨s, hl, hs, hn⟩
          simp [this, hs, eq_comm]
        · have : ¬ Names w x c n := by
            intro h
            obtain ⟨s', hs', h', -⟩ := (names_iff w x c n).1 h
            rw [hl] at hs'; cases hs'
            exact hs h'
          simp [this, hs]
  constructor
  · rintro ⟨p, hp, rfl⟩
    exact ⟨p.1, (key p.1).1 ⟨p, hp, rfl⟩, rfl⟩
  · rintro ⟨d, hd, rfl⟩
    obtain ⟨p, hp, rfl⟩ := (key d).2 hd
    exact ⟨p, hp, rfl⟩

/-- Entries reached in the Rust units are entries of the file. -/
theorem candidate_node {us : List UnitOf} {d : Die} (h : d ∈ candidates us) : ∃ t ∈ nodes us, t.die = d := by
  simp only [candidates, List.mem_flatMap] at h
  obtain ⟨u, hu, hd⟩ := h
  split at hd
  · have : d ∈ (subtrees u.1).map Tree.die := by
      rw [subtrees_die]
      cases hu1 : u.1 with
      | node dd f s ks =>
        rw [hu1] at hd
        simp only [Tree.kids] at hd
        have := (reachList_sublist scope ks).subset hd
        simp only [Tree.entries, List.mem_cons]
        exact .inr this
    obtain ⟨t, ht, rfl⟩ := List.mem_map.1 this
    exact ⟨t, List.mem_flatMap.2 ⟨u, hu, ht⟩, rfl⟩
  · cases hd

theorem entry_node' {us : List UnitOf} {x : Executable} (hu : x.units = us.map encUnit) (ho : Offsets us) {t : Tree Die} (ht : t ∈ nodes us) :
    (fileDb x.units).entry t.die.off = some t.die := by rw [hu]; exact entry_node us ho t ht

/-- The name of an entry. -/
def nameOf (d : Die) : Option Str :=
  match d.attr .name with
  | some (.str n) => some n
  | _ => none

theorem typed_node {us : List UnitOf} {x : Executable} (hu : x.units = us.map encUnit) (ho : Offsets us) {t : Tree Die} (ht : t ∈ nodes us) (ty : Nat) :
    Parse.Typed (fileDb x.units) t.die.off ty ↔ t.die.attr .type = some (.ref ty) := by
  constructor
  · rintro ⟨d, h1, h2⟩
    rw [entry_node' hu ho ht] at h1
    cases h1
    exact h2
  · exact fun h => ⟨_, entry_node' hu ho ht, h⟩

theorem isParam_node {us : List UnitOf} {x : Executable} (hu : x.units = us.map encUnit) (ho : Offsets us) {t : Tree Die} (ht : t ∈ nodes us) (p : Param) :
    Discovery.IsParam (fileDb x.units) t.die.off p ↔
      t.die.tag = .formalParameter ∧ t.die.attr .type = some (.ref p.ty) ∧ p.name = nameOf t.die := by
  have he := entry_node' hu ho ht
  unfold Discovery.IsParam
  rw [typed_node hu ho ht]
  have h1 : Tagged (fileDb x.units) t.die.off .formalParameter ↔ t.die.tag = .formalParameter := by
    constructor
    · rintro ⟨d, h1, h2⟩; rw [he] at h1; cases h1; exact h2
    · exact fun h => ⟨_, he, h⟩
  have h2 : (∀ n, p.name = some n ↔ Parse.Named (fileDb x.units) t.die.off n) ↔ p.name = nameOf t.die := by
    have h3 : ∀ n, Parse.Named (fileDb x.units) t.die.off n ↔ nameOf t.die = some n := by
      intro n
      unfold nameOf
      constructor
      · rintro ⟨d, h1, h2⟩; rw [he] at h1; cases h1; rw [h2]
      · intro h
        refine ⟨_, he, ?_⟩
        split at h
        · rename_i m hm; cases h; exact hm
        · cases h
    simp only [h3]
    constructor
    · intro h
      cases hn : nameOf t.die with
      | some n => exact (h n).2 hn
      | none =>
        cases hp : p.name with
        | none => rfl
        | some n => rw [(h n).1 hp] at hn; cases hn
    · intro h n; rw [h]
  rw [h1, h2]

theorem paramText_eq (i : Nat) (d : Die) (td : TypeDef) : Discovery.paramText i (nameOf d, td) = argName i d ++ chars! ": " ++ td.displayName := by
  unfold nameOf argName
  split <;> rfl

/-- What `depth` levels are enough for: the type at `ty` is found, under the name it is called by. -/
def Resolves (w : Libs) (x : Executable) (depth ty : Nat) : Prop :=
  ∃ text td, TypeCalled w x ty text ∧ resolveType (typedef w.lib x) (fileDb x.units) depth ty = .ok td ∧ td.displayName = text

theorem args_found {w : Libs} {x : Executable} {us : List UnitOf} (hu : x.units = us.map encUnit) (ho : Offsets us) (depth : Nat) (ks : List (Tree Die))
    (hks : ∀ k ∈ ks, k ∈ nodes us)
    (hr : ∀ k ∈ ks, k.die.tag = .formalParameter → ∀ ty, k.die.attr .type = some (.ref ty) → Resolves w x depth ty) (i : Nat) :
    ∃ ps rs texts, Params (fileDb x.units) (ks.map fun k => k.die.off) ps ∧
      Discovery.resolveParams (resolveType (typedef w.lib x) (fileDb x.units) depth) ps = .ok rs ∧
      Args (TypeCalled w x) i ks texts ∧ rs.mapIdx (fun j p => Discovery.paramText (i + j) p) = texts ∧
      ∃ tys, ArgTypes ks tys ∧ List.Forall₂ (fun ty td => resolveType (typedef w.lib x) (fileDb x.units) depth ty = .ok td) tys (rs.map (·.2)) := by
  induction ks generalizing i with
  | nil => exact ⟨[], [], [], .nil, rfl, .nil, rfl, [], .nil, .nil⟩
  | cons k ks ih =>
    have hk := hks k (List.mem_cons_self ..)
    have ih := ih (fun k h => hks k (List.mem_cons_of_mem _ h)) fun k h => hr k (List.mem_cons_of_mem _ h)
    by_cases hp : k.die.tag = .formalParameter ∧ ∃ ty, k.die.attr .type = some (.ref ty)
    · obtain ⟨ht, ty, hty⟩ := hp
      obtain ⟨ps, rs, texts, h1, h2, h3, h4, tys, h8, h9⟩ := ih (i + 1)
      obtain ⟨text, td, h5, h6, h7⟩ := hr k (List.mem_cons_self ..) ht ty hty
      refine ⟨⟨nameOf k.die, ty⟩ :: ps, (nameOf k.die, td) :: rs, _, .param ((isParam_node hu ho hk _).2 ⟨ht, hty, rfl⟩) h1, ?_, .arg ht hty h5 h3, ?_, ty :: tys, .arg ht hty h8, .cons h6 h9⟩
      · simp only [Discovery.resolveParams, h6, h2, Res.bind_ok]
      · rw [List.mapIdx_cons, Nat.add_zero, paramText_eq, h7, ← h4]
        congr 2
        funext j p
        rw [Nat.add_assoc, Nat.add_comm 1 j]
    · obtain ⟨ps, rs, texts, h1, h2, h3, h4, tys, h8, h9⟩ := ih i
      refine ⟨ps, rs, texts, .other ?_ h1, h2, .other hp h3, h4, tys, .other hp h8, h9⟩
      rintro ⟨p, h⟩
      obtain ⟨h5, h6, -⟩ := (isParam_node hu ho hk p).1 h
      exact hp ⟨h5, _, h6⟩

theorem world_of {w : Libs} {x : Executable} {us : List UnitOf} (hc : Compiled w x us) (stack depth : Nat) :
    ∃ fns ix b, binary w stack depth x = .ok b ∧ b.world = world w depth x fns ix ∧ moduleIndex x.units = .ok ix ∧
      ∀ n, fns.functions n = ((linkedFns (syms w x) false us).reverse.find? fun p => decide (p.2.name = n)).map
        fun p => { die := p.1, range := p.1.range } := by
  obtain ⟨fns, hfns, hby⟩ := C53_by_name (syms w x) 0 false us hc.functions
  obtain ⟨ix, hix, -⟩ := C39_entry_in_its_module us hc.file
  exact ⟨fns, ix, _, by simp only [binary, hc.units, hfns, hix, Res.bind_ok]; rfl, rfl, by rw [hc.units]; exact hix, hby⟩

theorem CodeOf.listed {w : Libs} {x : Executable} {n : SymbolName} {a : Nat} (h : CodeOf w x n a) :
    ∃ e ∈ x.symbols, demangle w.demangler e.raw = some n := by
  obtain ⟨pre, e, post, hx, -, hd, -⟩ := h
  exact ⟨e, by rw [hx]; simp, hd⟩

theorem EntryOf.unique {w : Libs} {x : Executable} {us : List UnitOf} {n : SymbolName} {d d' : Die} (h : EntryOf w x us n d) (h' : EntryOf w x us n d') :
    d = d' := by
  obtain ⟨p, q, h1, h2, h3⟩ := h
  obtain ⟨p', q', h1', h2', h3'⟩ := h'
  have e : p ++ d :: q = p' ++ d' :: q' := h1.symm.trans h1'
  rcases List.append_eq_append_iff.1 e with ⟨r, hr, hr'⟩ | ⟨r, hr, hr'⟩
  · cases r with
    | nil => simp only [List.nil_append] at hr'; cases hr'; rfl
    | cons a r =>
      cases hr'
      exact absurd h2' (h3 d' (by simp))
  · cases r with
    | nil => simp only [List.nil_append] at hr'; cases hr'; rfl
    | cons a r =>
      cases hr'
      exact absurd h2 (h3' d (by simp))

/-- What is found out about a function with an entry. -/
theorem describe_entry {w : Libs} {x : Executable} {us : List UnitOf} (hc : Compiled w x us) {depth : Nat} {fns : FnIndex.Builder} {ix : ModuleIndex}
    (hby : ∀ n, fns.functions n = ((linkedFns (syms w x) false us).reverse.find? fun p => decide (p.2.name = n)).map
        fun p => { die := p.1, range := p.1.range })
    (s : Symbol) (hs : InForce [.binary (entries w x) 0] s) {t : Tree Die} (ht : t ∈ nodes us) (hd : EntryOf w x us s.name t.die)
    (hres : ∀ ty, InSignature t ty → Resolves w x depth ty) :
    ∃ rs o texts tail, Discovery.describe (world w depth x fns ix) s = .ok
        { name := s.name.lookupName, fullName := s.name.display, signature := Discovery.signature s.name rs o, address := s.address, callable := true
          modulePath := s.name.modulePath, ret := o, params := rs } ∧
      Args (TypeCalled w x) 0 t.kids texts ∧ rs.mapIdx (fun j p => Discovery.paramText j p) = texts ∧
      Discovery.retText o = tail ∧ Result (TypeCalled w x) t.die tail ∧
      (∀ ty, t.die.attr .type = some (.ref ty) → ∃ td, o = some td ∧ resolveType (typedef w.lib x) (fileDb x.units) depth ty = .ok td) ∧
      ((∀ ty, t.die.attr .type ≠ some (.ref ty)) → o = none) ∧
      ∃ tys, ArgTypes t.kids tys ∧ List.Forall₂ (fun ty td => resolveType (typedef w.lib x) (fileDb x.units) depth ty = .ok td) tys (rs.map (·.2)) := by
  have hg := Discovery.getFunction_inForce (world w depth x fns ix) _ rfl s hs
  obtain ⟨hcode, -⟩ := (inForce_iff_code w x s).1 hs
  have hfe : (world w depth x fns ix).fnEntry s.debugFile s.name = (fns.functions (nameId w x s.name)).map fun e => e.die.off := rfl
  rw [hfe, (fnEntry_iff hby s.name hcode.listed t.die.off).2 ⟨_, hd, rfl⟩] at hg
  obtain ⟨ps, rs, texts, h1, h2, h3, h4, hargs⟩ := args_found hc.units hc.offsets depth t.kids (fun k hk => nodes_kids ht hk)
    (fun k hk h ty hty => hres ty (.inr ⟨k, hk, h, hty⟩)) 0
  have hch : (fileDb x.units).children t.die.off = .ok (t.kids.map fun k => k.die.off) := by
    rw [hc.units]; exact children_node us hc.offsets t ht
  have hret : ∃ ret, (∀ ty, ret = some ty ↔ t.die.attr .type = some (.ref ty)) := by
    cases ha : t.die.attr .type with
    | none => exact ⟨none, by simp⟩
    | some v =>
      cases v with
      | ref ty => exact ⟨some ty, by simp⟩
      | _ => exact ⟨none, by simp⟩
  obtain ⟨ret, hret⟩ := hret
  obtain ⟨i, hi, hi1, hi2⟩ := Discovery.functionInfo_of_declares (fileDb x.units) t.die.off ps ret
    ⟨⟨_, hch, h1⟩, fun ty => by rw [typed_node hc.units hc.offsets ht]; exact hret ty⟩
  have htail : ∃ o tail, (match ret with
      | none => Res.ok none
      | some r => (resolveType (typedef w.lib x) (fileDb x.units) depth r).bind fun t => .ok (some t)) = .ok o ∧ Discovery.retText o = tail ∧
      Result (TypeCalled w x) t.die tail ∧
      (∀ ty, t.die.attr .type = some (.ref ty) → ∃ td, o = some td ∧ resolveType (typedef w.lib x) (fileDb x.units) depth ty = .ok td) ∧
      ((∀ ty, t.die.attr .type ≠ some (.ref ty)) → o = none) := by
    cases hrt : ret with
    | none =>
      rw [hrt] at hret
      have hno : ∀ ty, t.die.attr .type ≠ some (.ref ty) := fun ty h => by
        have := (hret ty).2 h
        cases this
      exact ⟨none, [], rfl, rfl, .none hno, fun ty h => absurd h (hno ty), fun _ => rfl⟩
    | some ty =>
      rw [hrt] at hret
      have hty := (hret ty).1 rfl
      obtain ⟨text, td, h5, h6, h7⟩ := hres ty (.inl hty)
      refine ⟨some td, _, by simp only [h6, Res.bind_ok], rfl, ?_, fun ty' h' => ⟨td, rfl, ?_⟩, fun h' => absurd hty (h' ty)⟩
      · simp only [Discovery.retText, h7]
        split
        · rename_i he; subst he; exact .unit hty h5
        · rename_i he; exact .some hty h5 he
      · rw [hty] at h'
        cases h'
        exact h6
  obtain ⟨o, tail, h8, h9, h10, h11, h12⟩ := htail
  have hcf : Discovery.createFunction (world w depth x fns ix) s s.debugFile t.die.off = .ok
      { name := s.name.lookupName, fullName := s.name.display, signature := Discovery.signature s.name rs o, address := s.address, callable := true
        modulePath := s.name.modulePath, ret := o, params := rs } := by
    have hfi : Discovery.functionInfo ((world w depth x fns ix).file s.debugFile) t.die.off = .ok i := hi
    have hrp : Discovery.resolveParams ((world w depth x fns ix).resolve s.debugFile) i.params = .ok rs := by rw [hi1]; exact h2
    have hrr : (match i.ret with
      | none => Res.ok none
      | some r => ((world w depth x fns ix).resolve s.debugFile r).bind fun t => .ok (some t)) = .ok o := by rw [hi2]; exact h8
    simp only [Discovery.createFunction, hfi, hrp, Res.bind_ok]
    revert hrr
    cases i.ret with
    | none => intro hrr; simp only at hrr ⊢; cases hrr; rfl
    | some r => intro hrr; simp only at hrr ⊢; rw [hrr]; rfl
  refine ⟨rs, o, texts, tail, ?_, h3, ?_, h9, h10, h11, h12, hargs⟩
  · unfold Discovery.describe
    rw [hg]
    simp only [Option.map_some]
    rw [hcf]
  · simpa using h4

theorem describe_line {w : Libs} {x : Executable} {us : List UnitOf} (hc : Compiled w x us) {depth : Nat} {fns : FnIndex.Builder} {ix : ModuleIndex}
    (hby : ∀ n, fns.functions n = ((linkedFns (syms w x) false us).reverse.find? fun p => decide (p.2.name = n)).map
        fun p => { die := p.1, range := p.1.range })
    (s : Symbol) (hs : InForce [.binary (entries w x) 0] s)
    (hr : ∀ t ∈ nodes us, EntryOf w x us s.name t.die → ∀ ty, InSignature t ty → Resolves w x depth ty) :
    ∃ r, Discovery.describe (world w depth x fns ix) s = .ok r ∧ Line w x us s.name (Listing.functionLine r) := by
  have hg := Discovery.getFunction_inForce (world w depth x fns ix) _ rfl s hs
  obtain ⟨hcode, -⟩ := (inForce_iff_code w x s).1 hs
  have hfe : (world w depth x fns ix).fnEntry s.debugFile s.name = (fns.functions (nameId w x s.name)).map fun e => e.die.off := rfl
  rw [hfe] at hg
  have hiff := fnEntry_iff hby s.name hcode.listed
  cases ho : (fns.functions (nameId w x s.name)).map fun e => e.die.off with
  | none =>
    rw [ho] at hg
    refine ⟨Discovery.basic s, by unfold Discovery.describe; rw [hg]; rfl, .inr ⟨fun d hd => ?_, ?_⟩⟩
    · have := (hiff d.off).2 ⟨d, hd, rfl⟩
      rw [ho] at this; cases this
    · simp [Listing.functionLine, Discovery.basic, Listing.callableWord, List.append_assoc]
  | some o =>
    obtain ⟨d, hd, rfl⟩ := (hiff o).1 ho
    obtain ⟨t, ht, rfl⟩ := candidate_node (us := us) (d := d) (by obtain ⟨p, q, h, -⟩ := hd; rw [h]; simp)
    obtain ⟨rs, o, texts, tail, h1, h3, h4, h9, h10, -⟩ := describe_entry hc hby (ix := ix) s hs ht hd (hr t ht hd)
    refine ⟨_, h1, .inl ⟨t, ht, hd, texts, tail, h3, h10, ?_⟩⟩
    simp only [Listing.functionLine, Discovery.signature, Discovery.joinComma_eq, h9, Listing.callableWord, if_true, List.append_assoc]
    rw [← h4]
    rfl

theorem TypeCalled.unique {w : Libs} {x : Executable} {us : List UnitOf} (hc : Compiled w x us) {e : Nat} {a b : Str} (ha : TypeCalled w x e a) (hb : TypeCalled w x e b) :
    a = b := by
  have hw : WellFormed (fileDb x.units) := by rw [hc.units]; exact C95_well_formed us hc.offsets hc.apart
  have hdec : Decodes (fileDb x.units) := C95_decodes _
  obtain ⟨⟨desc, hI⟩, hC⟩ := ha
  obtain ⟨N1, h1⟩ := Shown.types_at hw hdec hI
  obtain ⟨N2, h2⟩ := Shown.called_ok hw hdec hC
  obtain ⟨N3, h3⟩ := Shown.called_ok hw hdec hb.2
  have h4 := (h1 (max N1 (max N2 N3)) (by omega)).2.1
  rw [← h2 (max N1 (max N2 N3)) (by omega) _ h4, ← h3 (max N1 (max N2 N3)) (by omega) _ h4]

theorem Args.unique {called : Nat → Str → Prop} (hu : ∀ e a b, called e a → called e b → a = b) {i : Nat} {ks : List (Tree Die)} {as bs : List Str}
    (ha : Args called i ks as) (hb : Args called i ks bs) : as = bs := by
  induction ha generalizing bs with
  | nil => cases hb; rfl
  | arg h1 h2 h3 h4 ih =>
    cases hb with
    | arg h1' h2' h3' h4' =>
      rw [h2] at h2'
      cases h2'
      rw [hu _ _ _ h3 h3', ih h4']
    | other h _ => exact absurd ⟨h1, _, h2⟩ h
  | other h1 h2 ih =>
    cases hb with
    | arg h1' h2' h3' h4' => exact absurd ⟨h1', _, h2'⟩ h1
    | other _ h => exact ih h

theorem Result.unique {called : Nat → Str → Prop} (hu : ∀ e a b, called e a → called e b → a = b) {d : Die} {a b : Str}
    (ha : Result called d a) (hb : Result called d b) : a = b := by
  cases ha with
  | none h =>
    cases hb with
    | none _ => rfl
    | unit h' _ => exact absurd h' (h _)
    | some h' _ _ => exact absurd h' (h _)
  | unit h h1 =>
    cases hb with
    | none h' => rfl
    | unit _ _ => rfl
    | some h' h2 h3 =>
      rw [h] at h'
      cases h'
      exact absurd (hu _ _ _ h2 h1) h3
  | some h h1 hne =>
    cases hb with
    | none h' => exact absurd h (h' _)
    | unit h' h2 =>
      rw [h] at h'
      cases h'
      exact absurd (hu _ _ _ h1 h2) hne
    | some h' h2 h3 =>
      rw [h] at h'
      cases h'
      rw [hu _ _ _ h1 h2]

/-- C97: what the line says is determined: a function has one line. -/
theorem C97_line_unique {w : Libs} {x : Executable} {us : List UnitOf} (hc : Compiled w x us) {n : SymbolName} {a b : Str}
    (ha : Line w x us n a) (hb : Line w x us n b) : a = b := by
  have hu := fun e a b (h1 : TypeCalled w x e a) (h2 : TypeCalled w x e b) => h1.unique hc h2
  rcases ha with ⟨t, ht, hE, as, tail, h1, h2, rfl⟩ | ⟨hE, rfl⟩
  · rcases hb with ⟨t', ht', hE', as', tail', h1', h2', rfl⟩ | ⟨hE', rfl⟩
    · have hd := hE.unique hE'
      have : t = t' := List.inj_on_of_nodup_map hc.offsets ht ht' (by rw [hd])
      subst this
      rw [h1.unique hu h1', h2.unique hu h2']
    · exact absurd hE (hE' _)
  · rcases hb with ⟨t', ht', hE', as', tail', h1', h2', rfl⟩ | ⟨hE', rfl⟩
    · exact absurd hE' (hE _)
    · rfl

/-- C97, from the executable to the list of its functions: `rd functions a::b::f` prints a line for each function `f` in modules that end in `a::b` for which the symbol
table has code, in the order of their names, and no other line but the count. The line of a function with an entry in the modules and structures of the Rust units says
the parameters and result its entry declares, with the names of their types; a function without says that it has none and cannot be called. Nothing is assumed about functions that are
not printed. -/
theorem C97_functions_partial {w : Libs} {x : Executable} {us : List UnitOf} (hc : Compiled w x us) (ms : List Str) (f : Str)
    (hm : ∀ m ∈ ms, CleanSegment m) (hf : CleanSegment f) (hh : looksLikeHash f = false)
    (hty : ∀ n a t, CodeOf w x n a → n.lookupName = f → (∃ outer, n.modulePath = outer ++ ms) → t ∈ nodes us → EntryOf w x us n t.die →
      ∀ ty, InSignature t ty → ∃ text, TypeCalled w x ty text) :
    ∃ N, ∀ stack depth, N ≤ depth → ∃ b, binary w stack depth x = .ok b ∧
      ∀ (σ : Type) (L : Remote.Lldb σ) (other : Wire.Json → Str) (s : σ) (text sub : Str) (more : List Str),
      Front.words text = sub :: joinSep (ms ++ [f]) :: more → Front.expand sub = chars! "functions" →
      ∃ names lines, rd L other b.program.backend s text = some (.text (page (linesPage lines)), s) ∧ List.Forall₂ (Line w x us) names lines ∧
        names.Pairwise (fun a b => a.cmp b = .lt) ∧
        ∀ n, n ∈ names ↔ (∃ a, CodeOf w x n a) ∧ n.lookupName = f ∧ ∃ outer, n.modulePath = outer ++ ms := by
  have hw : WellFormed (fileDb x.units) := by rw [hc.units]; exact C95_well_formed us hc.offsets hc.apart
  have hdec : Decodes (fileDb x.units) := C95_decodes _
  obtain ⟨N, hN⟩ := Shown.list_bound (nodes us) (fun k depth => ∀ ty, k.die.attr .type = some (.ref ty) → (∃ text, TypeCalled w x ty text) → Resolves w x depth ty) (by
    intro k _
    by_cases hk : ∃ ty, k.die.attr .type = some (.ref ty) ∧ ∃ text, TypeCalled w x ty text
    · obtain ⟨ty, hk, text, hcl⟩ := hk
      obtain ⟨⟨desc, hI⟩, hC⟩ := hcl
      obtain ⟨N1, h1⟩ := Shown.types_at hw hdec hI
      obtain ⟨N2, h2⟩ := Shown.called_ok hw hdec hC
      refine ⟨max N1 N2, fun depth hd ty' hk' _ => ?_⟩
      rw [hk] at hk'
      cases hk'
      have h3 := (h1 depth (by omega)).2.1
      exact ⟨text, _, ⟨⟨desc, hI⟩, hC⟩, h3, h2 depth (by omega) _ h3⟩
    · exact ⟨0, fun _ _ ty h1 h2 => absurd ⟨ty, h1, h2⟩ hk⟩)
  refine ⟨N, fun stack depth hd => ?_⟩
  obtain ⟨fns, ix, b, hb, hbw, -, hby⟩ := world_of hc stack depth
  refine ⟨b, hb, fun σ L other s text sub more hwords hsub => ?_⟩
  let p : SymbolName := ⟨f, [], ms, joinSep (ms ++ [f])⟩
  have hp : SymbolName.parse (joinSep (ms ++ [f])) = some p := by rw [SymbolName.parse, C11_roundtrip ms f hm hf hh]; rfl
  let ops : List IndexOp := [.binary (entries w x) 0]
  let ss := (Discovery.allSymbols (buildIndex ops)).filter fun s => Discovery.matchesPattern s.name p
  have hmem : ∀ y, y ∈ ss ↔ Discovery.Fits ops p y := fun y => Discovery.mem_matches ops p y
  have hline : ∀ y ∈ ss, ∃ r, Discovery.describe (world w depth x fns ix) y = .ok r ∧ Line w x us y.name (Listing.functionLine r) := by
    intro y hy
    obtain ⟨h1, h2, h3⟩ := (hmem y).1 hy
    obtain ⟨hcode, -⟩ := (inForce_iff_code w x y).1 h1
    refine describe_line hc hby y h1 fun t ht hE ty hty' => ?_
    have hT := hty y.name y.address t hcode h2 h3 ht hE ty hty'
    rcases hty' with h | ⟨k, hk, -, h⟩
    · exact hN depth hd t ht ty h hT
    · exact hN depth hd k (nodes_kids ht hk) ty h hT
  have hall : ∀ l : List Symbol, (∀ y ∈ l, ∃ r, Discovery.describe (world w depth x fns ix) y = .ok r ∧ Line w x us y.name (Listing.functionLine r)) →
      ∃ fs, Discovery.describeAll (world w depth x fns ix) l = .ok fs ∧ List.Forall₂ (Line w x us) (l.map (·.name)) (fs.map Listing.functionLine) := by
    intro l
    induction l with
    | nil => exact fun _ => ⟨[], rfl, .nil⟩
    | cons y l ih =>
      intro h
      obtain ⟨r, h1, h2⟩ := h y (List.mem_cons_self ..)
      obtain ⟨fs, h3, h4⟩ := ih fun y hy => h y (List.mem_cons_of_mem _ hy)
      exact ⟨r :: fs, by simp only [Discovery.describeAll, h1, h3, Res.bind_ok], .cons h2 h4⟩
  obtain ⟨fs, hfs, hlines⟩ := hall ss hline
  refine ⟨ss.map (·.name), fs.map Listing.functionLine, ?_, hlines, ?_, ?_⟩
  · have hdisc : Discovery.discover b.program.world (joinSep (ms ++ [f])) = .ok fs := by
      show Discovery.discover b.world _ = _
      rw [hbw]
      simp only [Discovery.discover, hp, Res.ofOption, Res.bind_ok, Discovery.discoverFunctions]
      exact hfs
    rw [Listing.C84_functions L other b.program s text sub _ more hwords hsub fs hdisc]
    cases fs with
    | nil => rfl
    | cons a fs => simp [linesPage, Listing.functionPage]
  · rw [List.pairwise_map]
    exact (Discovery.allSymbols_sorted ops).filter _
  · intro n
    simp only [List.mem_map]
    constructor
    · rintro ⟨y, hy, rfl⟩
      obtain ⟨h1, h2, h3⟩ := (hmem y).1 hy
      exact ⟨⟨_, ((inForce_iff_code w x y).1 h1).1⟩, h2, h3⟩
    · rintro ⟨⟨a, ha⟩, h2, h3⟩
      exact ⟨⟨n, a, 0⟩, (hmem _).2 ⟨(inForce_iff_code w x _).2 ⟨ha, rfl⟩, h2, h3⟩, rfl⟩

theorem params_exist (x : Executable) (ks : List (Tree Die)) :
    ∃ ps, Params (fileDb x.units) (ks.map fun k => k.die.off) ps := by
  induction ks with
  | nil => exact ⟨[], .nil⟩
  | cons k ks ih =>
    obtain ⟨ps, h⟩ := ih
    by_cases hp : ∃ p, Discovery.IsParam (fileDb x.units) k.die.off p
    · obtain ⟨p, hp⟩ := hp
      exact ⟨p :: ps, .param hp h⟩
    · exact ⟨ps, .other hp h⟩

theorem locks_panic {typedef : Nat → Option Layout} {db : Db} {e : Nat} (h : Locks typedef db e) (depth : Nat) :
    TypeRes.builtin (shallow typedef db depth) typedef db e = .panic := by
  induction h generalizing depth with
  | lock h => simp [TypeRes.builtin, h, TypeRes.primitive, TypeRes.smartPtr, TypeRes.smartInner]
  | @ref e' x m t h ht hl ih =>
    have : TypeRes.entryShallow (shallow typedef db depth) db e' = .panic := by
      unfold TypeRes.entryShallow
      have h1 := (typed_iff _ _ _).2 ht
      unfold entryType at h1
      rw [h1, Res.bind_ok]
      cases depth with
      | zero => rfl
      | succ d => rw [shallow, ih d]; rfl
    simp [TypeRes.builtin, h, TypeRes.primitive, this]

/-- C97 is false of the code for functions that take an `RwLock`: if the first parameter of one of the functions that fit is one or a reference to one, `rd functions`
fails without a reason, and lists none of the others. -/
theorem C97_rwlock_fails {w : Libs} {x : Executable} {us : List UnitOf} (hc : Compiled w x us) (ms : List Str) (f : Str)
    (hm : ∀ m ∈ ms, CleanSegment m) (hf : CleanSegment f) (hh : looksLikeHash f = false)
    {n : SymbolName} {a : Nat} (hcode : CodeOf w x n a) (hn : n.lookupName = f) (hpath : ∃ outer, n.modulePath = outer ++ ms)
    {t : Tree Die} (ht : t ∈ nodes us) (hE : EntryOf w x us n t.die)
    {pre post : List (Tree Die)} {k : Tree Die} (hk : t.kids = pre ++ k :: post) (hfirst : ∀ k' ∈ pre, k'.die.tag ≠ .formalParameter)
    (htag : k.die.tag = .formalParameter) {ty : Nat} (hty : k.die.attr .type = some (.ref ty))
    (hrw : Locks (typedef w.lib x) (fileDb x.units) ty) (stack depth : Nat) :
    ∃ b, binary w stack depth x = .ok b ∧
      ∀ (σ : Type) (L : Remote.Lldb σ) (other : Wire.Json → Str) (s : σ) (text sub : Str) (more : List Str),
      Front.words text = sub :: joinSep (ms ++ [f]) :: more → Front.expand sub = chars! "functions" →
      rd L other b.program.backend s text = some (.failed [], s) := by
  obtain ⟨fns, ix, b, hb, hbw, -, hby⟩ := world_of hc stack depth
  refine ⟨b, hb, fun σ L other s text sub more hwords hsub => Listing.C84_crash L other b.program s text sub _ more hwords s (.inl ⟨hsub, ?_, rfl⟩)⟩
  show Discovery.discover b.world _ = _
  rw [hbw]
  refine (Discovery.C40_crashes_iff _ [.binary (entries w x) 0] rfl _ ⟨f, [], ms, joinSep (ms ++ [f])⟩ (by rw [SymbolName.parse, C11_roundtrip ms f hm hf hh]; rfl)).2
    ⟨⟨n, a, 0⟩, t.die.off, ⟨(inForce_iff_code w x _).2 ⟨hcode, rfl⟩, hn, hpath⟩, ?_, .inr ?_⟩
  · exact (fnEntry_iff hby n hcode.listed _).2 ⟨_, hE, rfl⟩
  · have hch : (fileDb x.units).children t.die.off = .ok (t.kids.map fun k => k.die.off) := by
      rw [hc.units]; exact children_node us hc.offsets t ht
    have hkids : ∀ k ∈ t.kids, k ∈ nodes us := fun k hk => nodes_kids ht hk
    obtain ⟨ps, hps⟩ := params_exist x post
    have hall : ∀ pre : List (Tree Die), (∀ k' ∈ pre, k' ∈ nodes us) → (∀ k' ∈ pre, k'.die.tag ≠ .formalParameter) →
        Params (fileDb x.units) ((pre ++ k :: post).map fun k => k.die.off) (⟨nameOf k.die, ty⟩ :: ps) := by
      intro pre
      induction pre with
      | nil => exact fun _ _ => .param ((isParam_node hc.units hc.offsets (hkids k (by rw [hk]; simp)) _).2 ⟨htag, hty, rfl⟩) hps
      | cons k' pre ih =>
        intro h1 h2
        refine .other ?_ (ih (fun k h => h1 k (by simp [h])) fun k h => h2 k (by simp [h]))
        rintro ⟨p, hp⟩
        exact h2 k' (by simp) ((isParam_node hc.units hc.offsets (h1 k' (by simp)) p).1 hp).1
    have hret : ∃ ret, (∀ ty, ret = some ty ↔ t.die.attr .type = some (.ref ty)) := by
      cases ha : t.die.attr .type with
      | none => exact ⟨none, by simp⟩
      | some v =>
        cases v with
        | ref ty => exact ⟨some ty, by simp⟩
        | _ => exact ⟨none, by simp⟩
    obtain ⟨ret, hret⟩ := hret
    refine ⟨⟨nameOf k.die, ty⟩ :: ps, ret, ⟨⟨_, hch, ?_⟩, fun ty => (hret ty).trans (typed_node hc.units hc.offsets ht ty).symm⟩,
      .inl ⟨[], _, ps, rfl, by simp, ?_⟩⟩
    · rw [hk]
      exact hall pre (fun k' h => hkids k' (by rw [hk]; simp [h])) hfirst
    · show resolveType _ _ _ _ = _
      rw [resolveType, locks_panic hrw]; rfl

/-! ### An executable -/

/-- A file with the module `tool`: the structure `S` with the functions `get(&self) -> u8` and `new() -> S`, the function `area(s: S, _: u8) -> u8`, the function
`open(l: &RwLock<u8>)`, and the function `zap` without code; the function `stop` has code, but no entry. -/
def toolFile : List UnitOf :=
  [(.node { off := 10, tag := .compileUnit, attrs := [(.language, .lang true)], unitLength := 200 } true false
      [.node { off := 20, tag := .namespace, attrs := [(.name, .str (chars! "tool"))] } true true
        [.node { off := 30, tag := .structureType, attrs := [(.name, .str (chars! "S")), (.byteSize, .data 1), (.alignment, .data 1)] } true true
          [.node { off := 31, tag := .member, attrs := [(.name, .str (chars! "a")), (.dataMemberLocation, .data 0), (.type, .ref 60)] } false true [],
           .node { off := 32, tag := .subprogram, attrs := [(.name, .str (chars! "get")), (.linkageName, .str (chars! "tool::S::get")), (.type, .ref 60)] } true true
            [.node { off := 33, tag := .formalParameter, attrs := [(.name, .str (chars! "self")), (.type, .ref 61)] } false false []],
           .node { off := 34, tag := .subprogram, attrs := [(.name, .str (chars! "new")), (.linkageName, .str (chars! "tool::S::new")), (.type, .ref 30)] } false false []],
         .node { off := 40, tag := .subprogram, attrs := [(.name, .str (chars! "area")), (.linkageName, .str (chars! "tool::area")), (.type, .ref 60)] } true true
          [.node { off := 41, tag := .formalParameter, attrs := [(.name, .str (chars! "s")), (.type, .ref 30)] } false true [],
           .node { off := 42, tag := .formalParameter, attrs := [(.type, .ref 60)] } false true [],
           .node { off := 43, tag := .variable, attrs := [(.name, .str (chars! "r")), (.type, .ref 60)] } false false []],
         .node { off := 45, tag := .subprogram, attrs := [(.name, .str (chars! "open")), (.linkageName, .str (chars! "tool::open"))] } true true
          [.node { off := 46, tag := .formalParameter, attrs := [(.name, .str (chars! "l")), (.type, .ref 62)] } false false []],
         .node { off := 47, tag := .subprogram, attrs := [(.name, .str (chars! "zap")), (.linkageName, .str (chars! "tool::zap"))] } false false []],
       .node { off := 60, tag := .baseType, attrs := [(.name, .str (chars! "u8")), (.byteSize, .data 1)] } false true [],
       .node { off := 61, tag := .pointerType, attrs := [(.name, .str (chars! "&tool::S")), (.type, .ref 30)] } false true [],
       .node { off := 62, tag := .pointerType, attrs := [(.name, .str (chars! "&std::sync::RwLock<u8>")), (.type, .ref 72)] } false true [],
       .node { off := 70, tag := .namespace, attrs := [(.name, .str (chars! "std"))] } true false
        [.node { off := 71, tag := .namespace, attrs := [(.name, .str (chars! "sync"))] } true false
          [.node { off := 72, tag := .structureType, attrs := [(.name, .str (chars! "RwLock<u8>"))] } false false []]]], 2)]

/-- The libraries: symbols are not mangled. -/
def toolLibs : Libs where
  demangler := some
  lib := TypeNames.plainLib false
  tree := Address.new
  lossy := fun _ => []
  floatStr := fun _ _ => []
  isFloat := fun _ => false
  inWorkspace := true

/-- The executable. -/
def toolImage : Executable where
  symbols := [⟨chars! "tool::S::get", 4000, true, 32⟩, ⟨chars! "tool::area", 4100, true, 32⟩, ⟨chars! "tool::open", 4200, true, 32⟩,
    ⟨chars! "tool::S::new", 4300, true, 32⟩, ⟨chars! "tool::sub::area", 4400, true, 32⟩, ⟨chars! "tool::DATA", 9000, false, 8⟩]
  units := toolFile.map encUnit
  files := [⟨none, none⟩]
  loc := fun _ => none
  frameBase := fun _ => none

theorem toolFile_ok : FileOk toolFile := by
  refine ⟨by decide, ?_, by decide⟩
  have w : ∀ t : Tree Die, t.die.tag = .compileUnit → (t.entries.Pairwise fun a b => a.off < b.off) →
      (∀ d ∈ t.entries, d.off < t.die.off + t.die.unitLength) →
      (∀ d ∈ t.entries, d.tag = .namespace → Modules.nameOf d ≠ []) → Modules.WellFormed t := by
    intro t h1 h2 h3 h4
    refine ⟨h1, h2, h3, ?_⟩
    intro d hd ht
    have := h4 d hd ht
    simp only [Modules.nameOf] at this
    split at this
    · exact ⟨_, by assumption⟩
    · exact absurd rfl this
  intro u hu _
  simp only [toolFile, List.mem_cons, List.not_mem_nil, or_false] at hu
  subst hu
  exact w _ rfl (by decide) (by decide) (by decide)

theorem toolFile_offsets : Offsets toolFile := by unfold Offsets; decide

theorem toolFile_apart : NamesApart toolFile := ⟨by decide, fun p hp ht => absurd ht ((by decide : ∀ p ∈ nodes toolFile, p.die.tag ≠ .variantPart) p hp)⟩

theorem tool_compiled : Compiled toolLibs toolImage toolFile where
  units := rfl
  file := toolFile_ok
  offsets := toolFile_offsets
  apart := toolFile_apart
  functions := by
    refine ⟨by decide, ?_, ?_, ?_⟩
    · intro u hu
      simp only [toolFile, List.mem_cons, List.not_mem_nil, or_false] at hu
      subst hu
      exact ⟨true, rfl⟩
    · have : ∀ d ∈ candidates toolFile, d.tag = .subprogram → (match d.attr .linkageName with | some (.str _) => true | _ => false) = true := by decide
      intro d hd ht
      have := this d hd ht
      split at this
      · exact .inr ⟨_, by assumption⟩
      · cases this
    · intro d hd s hs lo hi hr
      exact absurd hr (by rw [(by decide : ∀ d ∈ candidates toolFile, d.range = none) d hd]; simp)
  tokenizes := plainLib_tokenizes false
  sorts := Address.built_new

/-- The types of the file. -/
theorem tool_types : typedef toolLibs.lib toolImage 30 = some (.alias (chars! "S")) ∧ typedef toolLibs.lib toolImage 60 = some (.uint 1) ∧
    typedef toolLibs.lib toolImage 61 = some (.reference false (.mk none (.alias (chars! "S")))) ∧
    typedef toolLibs.lib toolImage 72 = some (.smartPtr .rwLock (.mk none (.uint 1)) 0 0) ∧
    typedef toolLibs.lib toolImage 62 = some (.reference false (.mk none (.smartPtr .rwLock (.mk none (.uint 1)) 0 0))) := by
  have hS : TypeNames.Names (TypeNames.plainLib false).render (chars! "tool::S") (chars! "tool::S") (.alias (chars! "S")) := by
    refine .path _ _ _ (.other [chars! "tool"] (chars! "S") [] [] [] ⟨by simp [TypeNames.IsIdent]; decide, by simp [TypeNames.IsIdent]; decide, by decide⟩ (by decide) (by intro h; cases h) ?_ .nil)
    rintro (h | ⟨r, rs, h, hr⟩)
    · cases h
    · cases h; exact absurd hr (by decide)
  have hL : TypeNames.Names (TypeNames.plainLib false).render (chars! "std::sync::RwLock<u8>") (chars! "std::sync::RwLock<u8>") (.smartPtr .rwLock (.mk none (.uint 1)) 0 0) :=
    .path _ _ _ (.std [chars! "std", chars! "sync"] (chars! "RwLock") [chars! "u8"] [chars! "u8"] [.uint 1] _ (.inr ⟨_, _, rfl, by decide⟩)
      ⟨by simp [TypeNames.IsIdent]; decide, by simp [TypeNames.IsIdent]; decide, by decide⟩ (.smart _ _ _ _ (by simp [TypeNames.smartTable]))
      (.cons _ _ _ _ _ _ (TypeNames.names_u8 _) .nil))
  have key : ∀ (d : Die) (ms : List Str) (nm p : Str) (l : Layout), InModule toolFile d ms → d.attr .name = some (.str nm) →
      TypeNames.Names (TypeNames.plainLib false).render (Expr.joinWith (chars! "::") (ms ++ [nm])) p l → typedef toolLibs.lib toolImage d.off = some l := by
    intro d ms nm p l h1 h2 h3
    have h4 := C95_named (TypeNames.plainLib false) (TypeNames.plainLib_lexes false) _ toolFile_ok toolFile_offsets d ms h1 nm p l h2 h3
    have h5 := C96_types tool_compiled d.off
    exact (Res.ok.inj (h5.symm.trans h4))
  exact ⟨
    key { off := 30, tag := .structureType, attrs := [(.name, .str (chars! "S")), (.byteSize, .data 1), (.alignment, .data 1)] } [chars! "tool"] _ _ _
      ⟨_, List.mem_cons_self .., rfl, by decide⟩ rfl hS,
    key { off := 60, tag := .baseType, attrs := [(.name, .str (chars! "u8")), (.byteSize, .data 1)] } [] _ _ _
      ⟨_, List.mem_cons_self .., rfl, by decide⟩ rfl (TypeNames.names_u8 _),
    key { off := 61, tag := .pointerType, attrs := [(.name, .str (chars! "&tool::S")), (.type, .ref 30)] } [] _ _ _
      ⟨_, List.mem_cons_self .., rfl, by decide⟩ rfl (.ref _ _ _ hS (by simp) (by simp)),
    key { off := 72, tag := .structureType, attrs := [(.name, .str (chars! "RwLock<u8>"))] } [chars! "std", chars! "sync"] _ _ _
      ⟨_, List.mem_cons_self .., rfl, by decide⟩ rfl hL,
    key { off := 62, tag := .pointerType, attrs := [(.name, .str (chars! "&std::sync::RwLock<u8>")), (.type, .ref 72)] } [] _ _ _
      ⟨_, List.mem_cons_self .., rfl, by decide⟩ rfl (.ref _ _ _ hL (by simp) (by simp))⟩

theorem tool_u8 : Is (typedef toolLibs.lib toolImage) (fileDb toolImage.units) 60 (.plain (.uint 1)) :=
  ⟨⟨tool_types.2.1, by simp [Shown.Plain]⟩, by simp [Shown.Desc.parts]⟩

theorem tool_S : Is (typedef toolLibs.lib toolImage) (fileDb toolImage.units) 30 (.struct (chars! "S") 1 1 [(chars! "a", 0, 60)]) := by
  refine ⟨⟨?_, ⟨_, rfl, rfl⟩, ⟨_, rfl, rfl⟩, ⟨_, rfl, rfl⟩, ⟨_, rfl, rfl⟩, [31, 32, 34], rfl, ?_, ?_⟩, ?_⟩
  · simp [TypeRes.Ordinary, tool_types.1]
  · intro c hc
    rintro ⟨d, h1, h2⟩
    exact absurd h2 (by
      have : ∀ c ∈ [31, 32, 34], ((fileDb toolImage.units).entry c).map Die.tag ≠ some .variantPart := by decide
      have := this c hc
      rw [h1] at this
      simpa using this)
  · rw [show [31, 32, 34].filter (fun c => decide (tag (fileDb toolImage.units) c = some .member)) = [31] from by decide]
    exact .cons ⟨⟨_, rfl, rfl⟩, ⟨_, rfl, rfl⟩, ⟨_, rfl, rfl⟩⟩ .nil
  · simp only [Shown.Desc.parts, List.map_cons, List.map_nil, List.mem_singleton, forall_eq]
    exact .built (d := .plain (.uint 1)) (by simp [TypeRes.Ordinary, tool_types.2.1]) ⟨tool_types.2.1, by simp [Shown.Plain]⟩ (by simp [Shown.Desc.parts])

theorem tool_u8_called : TypeCalled toolLibs toolImage 60 (chars! "u8") :=
  ⟨⟨_, tool_u8⟩, .known (t := .prim (chars! "u8")) (.plain tool_u8.1 (.prim (by simp [TypeText.fixedTable]))) trivial (by simp [TypeRes.Ordinary, tool_types.2.1])⟩

theorem tool_S_called : TypeCalled toolLibs toolImage 30 (chars! "S") := ⟨⟨_, tool_S⟩, .struct tool_S⟩

/-- The entry of `area`. -/
def toolArea : Tree Die :=
  .node { off := 40, tag := .subprogram, attrs := [(.name, .str (chars! "area")), (.linkageName, .str (chars! "tool::area")), (.type, .ref 60)] } true true
    [.node { off := 41, tag := .formalParameter, attrs := [(.name, .str (chars! "s")), (.type, .ref 30)] } false true [],
     .node { off := 42, tag := .formalParameter, attrs := [(.type, .ref 60)] } false true [],
     .node { off := 43, tag := .variable, attrs := [(.name, .str (chars! "r")), (.type, .ref 60)] } false false []]

theorem tool_area_node : toolArea ∈ nodes toolFile := by
  simp [nodes, toolFile, subtrees, subtreesList, toolArea]

/-- The names of the functions of the executable. -/
def toolArea1 : SymbolName := ⟨chars! "area", [], [chars! "tool"], chars! "tool::area"⟩
/-- See `toolArea1`. -/
def toolArea2 : SymbolName := ⟨chars! "area", [], [chars! "tool", chars! "sub"], chars! "tool::sub::area"⟩

/-- What an entry names. -/
def linkOf (d : Die) : Option SymbolName :=
  match d.attr .linkageName with
  | some (.str l) => demangle some l
  | _ => none

theorem tool_names {d : Die} {n : SymbolName} (h : Names toolLibs toolImage d n) : d.tag = .subprogram ∧ linkOf d = some n := by
  obtain ⟨h1, l, h2, -, h3⟩ := h
  exact ⟨h1, by unfold linkOf; rw [h2]; exact h3⟩

theorem tool_area_code {n : SymbolName} {a : Nat} (h : CodeOf toolLibs toolImage n a) (hn : n.lookupName = chars! "area") : n = toolArea1 ∨ n = toolArea2 := by
  obtain ⟨e, he, hd⟩ := h.listed
  have hall : ∀ e ∈ toolImage.symbols, ((demangle some e.raw).map SymbolName.lookupName = some (chars! "area")) → demangle some e.raw = some toolArea1 ∨ demangle some e.raw = some toolArea2 := by
    with_unfolding_all decide
  have hd : demangle some e.raw = some n := hd
  have := hall e he (by rw [hd, Option.map_some, hn])
  rw [hd] at this
  simpa using this

theorem tool_area_entry : EntryOf toolLibs toolImage toolFile toolArea1 toolArea.die := by
  refine ⟨(candidates toolFile).takeWhile (fun d => d.off != 40), ((candidates toolFile).dropWhile (fun d => d.off != 40)).tail, by decide, ⟨rfl, _, rfl, ⟨_, List.mem_cons_of_mem _ (List.mem_cons_self ..), rfl⟩, by with_unfolding_all decide⟩, ?_⟩
  intro d hd h
  obtain ⟨h1, h2⟩ := tool_names h
  exact (by with_unfolding_all decide : ∀ d ∈ ((candidates toolFile).dropWhile (fun d => d.off != 40)).tail, d.tag = .subprogram → linkOf d ≠ some toolArea1) d hd h1 h2

theorem tool_sub_no_entry (d : Die) : ¬ EntryOf toolLibs toolImage toolFile toolArea2 d := by
  rintro ⟨pre, post, h, hn, -⟩
  obtain ⟨h1, h2⟩ := tool_names hn
  exact (by with_unfolding_all decide : ∀ d ∈ candidates toolFile, d.tag = .subprogram → linkOf d ≠ some toolArea2) d (by rw [h]; simp) h1 h2

theorem names_unique (l l' : List SymbolName) (h : l.Pairwise fun a b => a.cmp b = .lt) (h' : l'.Pairwise fun a b => a.cmp b = .lt)
    (hm : ∀ n, n ∈ l ↔ n ∈ l') : l = l' := by
  have hne : ∀ a b : SymbolName, a.cmp b = .lt → a ≠ b := by
    rintro a b h rfl
    rw [Std.ReflCmp.compare_self (cmp := SymbolName.cmp) (a := a)] at h
    cases h
  refine List.Perm.eq_of_pairwise ?_ h h' ((List.perm_ext_iff_of_nodup (h.imp (hne _ _)) (h'.imp (hne _ _))).2 hm)
  intro a b _ _ h1 h2
  rw [Std.OrientedCmp.eq_swap (cmp := SymbolName.cmp), h1] at h2
  cases h2

/-- `C97_functions_partial` at work: the user types `rd f area`. -/
example {σ : Type} (L : Remote.Lldb σ) (other : Wire.Json → Str) (s : σ) : ∃ N b, binary toolLibs N N toolImage = .ok b ∧
    rd L other b.program.backend s (chars! "f area") = some (.text (page [chars! "Found 2 function(s):",
      chars! "  tool::area: fn area(s: S, _1: u8) -> u8 (callable)", chars! "  tool::sub::area: fn tool::sub::area(?) (not callable)"]), s) := by
  have hsig : ∀ ty, InSignature toolArea ty → ty = 30 ∨ ty = 60 := by
    rintro ty (h | ⟨k, hk, ht, h⟩)
    · cases h; exact .inr rfl
    · simp only [toolArea, Tree.kids, List.mem_cons, List.not_mem_nil, or_false] at hk
      rcases hk with rfl | rfl | rfl <;> cases h
      · exact .inl rfl
      · exact .inr rfl
      · cases ht
  obtain ⟨N, hN⟩ := C97_functions_partial tool_compiled [] (chars! "area") (by simp) (clean_of_check _ (by decide) (by decide) (by decide) (by decide)) (by decide) (by
    intro n a t hcode hn _ ht hE ty hty
    rcases tool_area_code hcode hn with rfl | rfl
    · have hd := hE.unique tool_area_entry
      have : t = toolArea := List.inj_on_of_nodup_map toolFile_offsets ht tool_area_node (by rw [hd])
      subst this
      rcases hsig ty hty with rfl | rfl
      · exact ⟨_, tool_S_called⟩
      · exact ⟨_, tool_u8_called⟩
    · exact absurd hE (tool_sub_no_entry _))
  obtain ⟨b, hb, hb'⟩ := hN N N (Nat.le_refl _)
  refine ⟨N, b, hb, ?_⟩
  obtain ⟨names, lines, h1, h2, h3, h4⟩ := hb' σ L other s (chars! "f area") (chars! "f") [] (by decide) (by decide)
  have hnames : names = [toolArea1, toolArea2] := by
    refine names_unique _ _ h3 (by decide) fun n => (h4 n).trans ?_
    simp only [List.mem_cons, List.not_mem_nil, or_false]
    constructor
    · rintro ⟨⟨a, ha⟩, hn, -⟩
      exact tool_area_code ha hn
    · rintro (rfl | rfl)
      · refine ⟨⟨4100, toolImage.symbols.take 1, ⟨chars! "tool::area", 4100, true, 32⟩, _, rfl, rfl, by with_unfolding_all decide, rfl, ?_⟩, rfl, _, (List.append_nil _).symm⟩
        intro e he _ n hn h
        have hd : demangle some e.raw = some n := hn
        have := (by with_unfolding_all decide : ∀ e ∈ toolImage.symbols.drop 2, (demangle some e.raw).map SymbolName.fullPath ≠ some toolArea1.fullPath) e he
        rw [hd, Option.map_some, h.2.2] at this
        exact this rfl
      · refine ⟨⟨4400, toolImage.symbols.take 4, ⟨chars! "tool::sub::area", 4400, true, 32⟩, _, rfl, rfl, by with_unfolding_all decide, rfl, ?_⟩, rfl, _, (List.append_nil _).symm⟩
        intro e he _ n hn h
        have hd : demangle some e.raw = some n := hn
        have := (by with_unfolding_all decide : ∀ e ∈ toolImage.symbols.drop 5, (demangle some e.raw).map SymbolName.fullPath ≠ some toolArea2.fullPath) e he
        rw [hd, Option.map_some, h.2.2] at this
        exact this rfl
  subst hnames
  rw [h1]
  cases h2 with
  | cons l1 h2 =>
    cases h2 with
    | cons l2 h2 =>
      cases h2
      have e1 := C97_line_unique tool_compiled l1 (.inl ⟨toolArea, tool_area_node, tool_area_entry, _, _,
        .arg rfl rfl tool_S_called (.arg rfl rfl tool_u8_called (.other (by rintro ⟨h, -⟩; cases h) .nil)), .some rfl tool_u8_called (by decide), rfl⟩)
      have e2 := C97_line_unique tool_compiled l2 (.inr ⟨tool_sub_no_entry, rfl⟩)
      rw [e1, e2]
      rfl

/-- The entry of `open`. -/
def toolOpen : Tree Die :=
  .node { off := 45, tag := .subprogram, attrs := [(.name, .str (chars! "open")), (.linkageName, .str (chars! "tool::open"))] } true true
    [.node { off := 46, tag := .formalParameter, attrs := [(.name, .str (chars! "l")), (.type, .ref 62)] } false false []]

/-- `C97_rwlock_fails` at work: the user types `rd f tool::open`. -/
example {σ : Type} (L : Remote.Lldb σ) (other : Wire.Json → Str) (s : σ) (stack depth : Nat) : ∃ b, binary toolLibs stack depth toolImage = .ok b ∧
    rd L other b.program.backend s (chars! "f tool::open") = some (.failed [], s) := by
  have hcode : CodeOf toolLibs toolImage ⟨chars! "open", [], [chars! "tool"], chars! "tool::open"⟩ 4200 := by
    refine ⟨toolImage.symbols.take 2, ⟨chars! "tool::open", 4200, true, 32⟩, _, rfl, rfl, by with_unfolding_all decide, rfl, ?_⟩
    intro e he _ n hn h
    have hd : demangle some e.raw = some n := hn
    have := (by with_unfolding_all decide : ∀ e ∈ toolImage.symbols.drop 3, (demangle some e.raw).map SymbolName.fullPath ≠ some (chars! "tool::open")) e he
    rw [hd, Option.map_some, h.2.2] at this
    exact this rfl
  have hE : EntryOf toolLibs toolImage toolFile ⟨chars! "open", [], [chars! "tool"], chars! "tool::open"⟩ toolOpen.die := by
    refine ⟨(candidates toolFile).takeWhile (fun d => d.off != 45), ((candidates toolFile).dropWhile (fun d => d.off != 45)).tail, by decide, ⟨rfl, _, rfl,
      ⟨_, List.mem_cons_of_mem _ (List.mem_cons_of_mem _ (List.mem_cons_self ..)), rfl⟩, by with_unfolding_all decide⟩, ?_⟩
    intro d hd h
    obtain ⟨h1, h2⟩ := tool_names h
    exact (by with_unfolding_all decide : ∀ d ∈ ((candidates toolFile).dropWhile (fun d => d.off != 45)).tail, d.tag = .subprogram →
      linkOf d ≠ some ⟨chars! "open", [], [chars! "tool"], chars! "tool::open"⟩) d hd h1 h2
  obtain ⟨b, hb, h⟩ := C97_rwlock_fails tool_compiled [chars! "tool"] (chars! "open")
    (by simp only [List.mem_singleton, forall_eq]; exact clean_of_check _ (by decide) (by decide) (by decide) (by decide))
    (clean_of_check _ (by decide) (by decide) (by decide) (by decide)) (by decide) hcode rfl ⟨[], rfl⟩ (t := toolOpen)
    (by simp [nodes, toolFile, subtrees, subtreesList, toolOpen]) hE (pre := []) rfl (by simp) rfl rfl
    (.ref tool_types.2.2.2.2 ⟨_, rfl, rfl⟩ (.lock tool_types.2.2.2.1)) stack depth
  exact ⟨b, hb, h σ L other s (chars! "f tool::open") (chars! "f") [] (by decide) (by decide)⟩

end Rudy.Image
