import Verif.Proof.Receivers
import Verif.Props.ImagePlaces
import Verif.Props.Methods
/-
C99: from the executable to the list of the methods of a type.
-/
namespace Rudy.Image
open Rudy Rudy.Walker Rudy.Dwarf Rudy.Parse Rudy.Layout Rudy.Symbols Rudy.FnIndex Rudy.Entries Rudy.Modules
open Rudy.TypeRes (resolveType shallow Decodes Ordinary)
open Rudy.Discovery (SameName commaSep Param Params Declares okOf Method FnInfo)
open Rudy.Shown (Is Desc Known Describes ty full)
open Rudy.Listing (rd page)

/-! ### Vocabulary -/

/-- The entry is that of a parameter, of the type at `ty`. -/
def IsArg (k : Tree Die) (ty : Nat) : Prop := k.die.tag = .formalParameter ∧ k.die.attr .type = some (.ref ty)

/-- `p`, of the type at `ty`, is the first parameter among these entries, and `rest` is what follows. -/
def FirstArg (ks : List (Tree Die)) (p : Tree Die) (ty : Nat) (rest : List (Tree Die)) : Prop :=
  ∃ pre, ks = pre ++ p :: rest ∧ (∀ q ∈ pre, ∀ t, ¬ IsArg q t) ∧ IsArg p ty

/-- The name of an entry, or this. -/
def nameOr (d : Die) (other : Str) : Str :=
  match d.attr .name with
  | some (.str n) => n
  | _ => other

/-- The parameters among these entries, as they are written in a signature. -/
inductive Takes (called : Nat → Str → Prop) : List (Tree Die) → List Str → Prop
  | nil : Takes called [] []
  | arg {k : Tree Die} {ty : Nat} {ks : List (Tree Die)} {text : Str} {texts : List Str} : IsArg k ty → called ty text → Takes called ks texts →
      Takes called (k :: ks) ((nameOr k.die (chars! "_") ++ chars! ": " ++ text) :: texts)
  | other {k : Tree Die} {ks : List (Tree Die)} {texts : List Str} : (∀ ty, ¬ IsArg k ty) → Takes called ks texts → Takes called (k :: ks) texts

/-- The symbol table has code for the function with this entry, which has the name of the function in the symbol table. -/
def HasCode (w : Libs) (x : Executable) (d : Die) : Prop :=
  ∃ l n e n', d.attr .linkageName = some (.str l) ∧ demangle w.demangler l = some n ∧
    e ∈ x.symbols ∧ e.isText = true ∧ demangle w.demangler e.raw = some n' ∧ SameName n n'

/-- `line` is the line for the function `k` in a list of the functions of the type `own`, called `S`. Its first parameter is the receiver (`self`) if it is called `self`, or has no
name, and has the type, or is a reference to it. -/
def FnLine (w : Libs) (x : Executable) (S : Str) (own : Desc) (k : Tree Die) (self : Bool) (line : Str) : Prop :=
  ∃ args tail word, Result (TypeCalled w x) k.die tail ∧ ((HasCode w x k.die ∧ word = chars! " (callable)") ∨ (¬ HasCode w x k.die ∧ word = chars! " (not callable)")) ∧
    line = chars! "  - fn " ++ nameOr k.die (chars! "<anonymous>") ++ chars! "(" ++ commaSep args ++ chars! ")" ++ tail ++ word ∧
    ((self = true ∧ ∃ p t rest recv more, FirstArg k.kids p t rest ∧ (nameOf p.die = some (chars! "self") ∨ nameOf p.die = none) ∧
        Receiver (typedef w.lib x) (fileDb x.units) S own t recv ∧ Takes (TypeCalled w x) rest more ∧ args = recv :: more) ∨
     (self = false ∧ Takes (TypeCalled w x) k.kids args ∧ ∀ p t rest, FirstArg k.kids p t rest →
        (∃ n, nameOf p.die = some n ∧ n ≠ chars! "self") ∨ ∀ recv, ¬ Receiver (typedef w.lib x) (fileDb x.units) S own t recv))

/-- The code for the function with this entry is at `a`: so says the last line of the symbol table for a function of that name. -/
def CodeAt (w : Libs) (x : Executable) (d : Die) (a : Nat) : Prop :=
  ∃ l n n', d.attr .linkageName = some (.str l) ∧ demangle w.demangler l = some n ∧ SameName n n' ∧ CodeOf w x n' a

/-- The first parameter of the function is a receiver (`self`) of the type `own`, called `S`. -/
def HasReceiver (w : Libs) (x : Executable) (S : Str) (own : Desc) (k : Tree Die) : Prop :=
  ∃ p t rest recv, FirstArg k.kids p t rest ∧ (nameOf p.die = some (chars! "self") ∨ nameOf p.die = none) ∧ Receiver (typedef w.lib x) (fileDb x.units) S own t recv

/-- The functions among the entries. -/
def functionsIn (ks : List (Tree Die)) : List (Tree Die) := ks.filter fun k => decide (k.die.tag = .subprogram)

/-- The functions among these entries, with whether they have a receiver, and their lines. -/
inductive FnLines (w : Libs) (x : Executable) (S : Str) (own : Desc) : List (Tree Die) → List (Bool × Str) → Prop
  | nil : FnLines w x S own [] []
  | fn {k : Tree Die} {ks : List (Tree Die)} {self : Bool} {line : Str} {ls : List (Bool × Str)} : k.die.tag = .subprogram → FnLine w x S own k self line →
      FnLines w x S own ks ls → FnLines w x S own (k :: ks) ((self, line) :: ls)
  | other {k : Tree Die} {ks : List (Tree Die)} {ls : List (Bool × Str)} : k.die.tag ≠ .subprogram → FnLines w x S own ks ls → FnLines w x S own (k :: ks) ls

/-- The entries of the type `own` among these. All other structures are described by their entries. -/
inductive OfType (w : Libs) (x : Executable) (own : Desc) : List (Tree Die) → List (Tree Die) → Prop
  | nil : OfType w x own [] []
  | same {k : Tree Die} {ks hs : List (Tree Die)} {desc : Desc} : k.die.tag = .structureType → Is (typedef w.lib x) (fileDb x.units) k.die.off desc → SameKind desc own →
      OfType w x own ks hs → OfType w x own (k :: ks) (k :: hs)
  | different {k : Tree Die} {ks hs : List (Tree Die)} {desc : Desc} : Is (typedef w.lib x) (fileDb x.units) k.die.off desc → ¬ SameKind desc own →
      OfType w x own ks hs → OfType w x own (k :: ks) hs
  | other {k : Tree Die} {ks hs : List (Tree Die)} : k.die.tag ≠ .structureType → OfType w x own ks hs → OfType w x own (k :: ks) hs

mutual
/-- The namespaces of a tree with the path `p`, in document order; `pre` is the path of what the tree is in. -/
def modulesIn (p pre : List Str) : Tree Die → List (Tree Die)
  | .node d f s ks =>
    if d.tag = .namespace then (if pre ++ [Modules.nameOf d] = p then [.node d f s ks] else []) ++ modulesInList p (pre ++ [Modules.nameOf d]) ks else []
/-- The same for siblings. -/
def modulesInList (p pre : List Str) : List (Tree Die) → List (Tree Die)
  | [] => []
  | t :: ts => modulesIn p pre t ++ modulesInList p pre ts
end

/-- The namespaces of the Rust units with the path `p`. -/
def modulesAt (us : List UnitOf) (p : List Str) : List (Tree Die) :=
  us.flatMap fun u => if u.1.die.isRustCu then modulesInList p [] u.1.kids else []

/-- The entry is that of an `impl` block: a namespace `{impl#…}`. -/
def isImplBlock (k : Tree Die) : Bool :=
  decide (k.die.tag = .namespace) && match k.die.attr .name with
    | some (.str n) => (chars! "{impl#").isPrefixOf n && n.getLast? == some '}'
    | _ => false

/-- The page for these methods of a type. -/
def methodsPage (name : Str) (lines : List Str) : List Str :=
  (chars! "Methods for " ++ name ++ chars! ":") :: if lines = [] then [chars! "  (no methods found)"] else lines

/-! ### Proofs -/

section
variable {w : Libs} {x : Executable} {us : List UnitOf}

theorem okOf_name (hc : Compiled w x us) {t : Tree Die} (ht : t ∈ nodes us) : Discovery.okOf (dieName (fileDb x.units) t.die.off) = nameOf t.die := by
  simp only [dieName, stringAttr, entry_node' hc.units hc.offsets ht, Die.stringAttr, nameOf]
  split <;> simp_all [Discovery.okOf]

theorem okOf_linkage (hc : Compiled w x us) {t : Tree Die} (ht : t ∈ nodes us) (l : Str) :
    Discovery.okOf (stringAttr .linkageName (fileDb x.units) t.die.off) = some l ↔ t.die.attr .linkageName = some (.str l) := by
  simp only [stringAttr, entry_node' hc.units hc.offsets ht, Die.stringAttr]
  split <;> simp_all [Discovery.okOf]

theorem nameOr_eq (d : Die) (o : Str) : (nameOf d).getD o = nameOr d o := by
  unfold nameOf nameOr
  split <;> split <;> simp_all

theorem called_resolves (hc : Compiled w x us) {t : Nat} {text : Str} (h : TypeCalled w x t text) :
    ∃ N, ∀ depth, N ≤ depth → ∃ td, resolveType (typedef w.lib x) (fileDb x.units) depth t = .ok td ∧ td.displayName = text := by
  have hw : TypeRes.WellFormed (fileDb x.units) := by rw [hc.units]; exact C95_well_formed us hc.offsets hc.apart
  have hdec : Decodes (fileDb x.units) := C95_decodes _
  obtain ⟨⟨desc, hI⟩, hC⟩ := h
  obtain ⟨N1, h1⟩ := Shown.types_at hw hdec hI
  obtain ⟨N2, h2⟩ := Shown.called_ok hw hdec hC
  refine ⟨max N1 N2, fun depth hd => ?_⟩
  have h3 := (h1 depth (by omega)).2.1
  exact ⟨_, h3, h2 depth (by omega) _ h3⟩

theorem isArg_node (hc : Compiled w x us) {k : Tree Die} (hk : k ∈ nodes us) {t : Nat} (h : IsArg k t) : Discovery.IsParam (fileDb x.units) k.die.off ⟨nameOf k.die, t⟩ :=
  (isParam_node hc.units hc.offsets hk _).2 ⟨h.1, h.2, rfl⟩

theorem notArg_node (hc : Compiled w x us) {k : Tree Die} (hk : k ∈ nodes us) (h : ∀ t, ¬ IsArg k t) : ¬ ∃ p, Discovery.IsParam (fileDb x.units) k.die.off p := by
  rintro ⟨p, hp⟩
  obtain ⟨h1, h2, -⟩ := (isParam_node hc.units hc.offsets hk p).1 hp
  exact h p.ty ⟨h1, h2⟩

/-- The parameters as the code finds and writes them. -/
theorem takes_found (hc : Compiled w x us) {ks : List (Tree Die)} {texts : List Str} (h : Takes (TypeCalled w x) ks texts) (hks : ∀ k ∈ ks, k ∈ nodes us) :
    ∃ ps, Params (fileDb x.units) (ks.map fun k => k.die.off) ps ∧ ∃ N, ∀ depth, N ≤ depth →
      Discovery.methodParamTexts (resolveType (typedef w.lib x) (fileDb x.units) depth) ps = .ok texts ∧
      ∃ qs, Discovery.methodParams (resolveType (typedef w.lib x) (fileDb x.units) depth) ps = .ok qs ∧
        ∃ tys, ArgTypes ks tys ∧ List.Forall₂ (fun ty td => resolveType (typedef w.lib x) (fileDb x.units) depth ty = .ok td) tys (qs.map (·.2)) := by
  induction h with
  | nil => exact ⟨[], .nil, 0, fun _ _ => ⟨rfl, _, rfl, [], .nil, .nil⟩⟩
  | @arg k t ks text texts hk hcl _ ih =>
    obtain ⟨ps, hp, N, hN⟩ := ih fun k h => hks k (List.mem_cons_of_mem _ h)
    obtain ⟨M, hM⟩ := called_resolves hc hcl
    refine ⟨⟨nameOf k.die, t⟩ :: ps, .param (isArg_node hc (hks k (List.mem_cons_self ..)) hk) hp, max N M, fun depth hd => ?_⟩
    obtain ⟨h1, qs, h2, tys, h5, h6⟩ := hN depth (by omega)
    obtain ⟨td, h3, h4⟩ := hM depth (by omega)
    constructor
    · simp only [Discovery.methodParamTexts, Discovery.methodParamText, h3, h1, Res.bind_ok, nameOr_eq, h4]
    · exact ⟨(nameOf k.die, td) :: qs, by simp only [Discovery.methodParams, h3, h2, Res.bind_ok], t :: tys, .arg hk.1 hk.2 h5, .cons h3 h6⟩
  | @other k ks texts hk _ ih =>
    obtain ⟨ps, hp, N, hN⟩ := ih fun k h => hks k (List.mem_cons_of_mem _ h)
    refine ⟨ps, .other (notArg_node hc (hks k (List.mem_cons_self ..)) hk) hp, N, fun depth hd => ?_⟩
    obtain ⟨h1, qs, h2, tys, h5, h6⟩ := hN depth hd
    exact ⟨h1, qs, h2, tys, .other (fun ⟨h, ty, h'⟩ => hk ty ⟨h, h'⟩) h5, h6⟩

theorem first_types {ks : List (Tree Die)} {p : Tree Die} {t : Nat} {rest : List (Tree Die)} (h : FirstArg ks p t rest) {tys : List Nat} (hr : ArgTypes rest tys) : ArgTypes ks (t :: tys) := by
  obtain ⟨pre, rfl, hpre, hp⟩ := h
  induction pre with
  | nil => exact .arg hp.1 hp.2 hr
  | cons q pre ih => exact .other (fun ⟨h, ty, h'⟩ => hpre q (by simp) ty ⟨h, h'⟩) (ih fun k hk => hpre k (List.mem_cons_of_mem _ hk))

theorem first_param (hc : Compiled w x us) {ks : List (Tree Die)} {p : Tree Die} {t : Nat} {rest : List (Tree Die)} (h : FirstArg ks p t rest) (hks : ∀ k ∈ ks, k ∈ nodes us)
    {ps : List Param} (hr : Params (fileDb x.units) (rest.map fun k => k.die.off) ps) : Params (fileDb x.units) (ks.map fun k => k.die.off) (⟨nameOf p.die, t⟩ :: ps) := by
  obtain ⟨pre, rfl, hpre, hp⟩ := h
  induction pre with
  | nil => exact .param (isArg_node hc (hks p (by simp)) hp) hr
  | cons q pre ih =>
    refine .other (notArg_node hc (hks q (by simp)) (hpre q (by simp))) ?_
    exact ih (fun k hk => hks k (List.mem_cons_of_mem _ hk)) fun k hk => hpre k (List.mem_cons_of_mem _ hk)

theorem takes_first {called : Nat → Str → Prop} {ks : List (Tree Die)} {texts : List Str} (h : Takes called ks texts) {p : Tree Die} {t : Nat} {rest : List (Tree Die)}
    (hf : FirstArg ks p t rest) : ∃ text, called t text := by
  obtain ⟨pre, rfl, hpre, hp⟩ := hf
  induction pre generalizing texts with
  | nil =>
    cases h with
    | arg h1 h2 _ =>
      have := h1.2.symm.trans hp.2
      cases this
      exact ⟨_, h2⟩
    | other h1 _ => exact absurd hp (h1 _)
  | cons q pre ih =>
    cases h with
    | arg h1 h2 _ => exact absurd h1 (hpre q (by simp) _)
    | other h1 h2 => exact ih h2 fun q hq => hpre q (List.mem_cons_of_mem _ hq)

/-- The parameters found begin with the first parameter. -/
theorem params_first (hc : Compiled w x us) {ks : List (Tree Die)} (hks : ∀ k ∈ ks, k ∈ nodes us) {q : Param} {ps : List Param}
    (h : Params (fileDb x.units) (ks.map fun k => k.die.off) (q :: ps)) : ∃ p rest, FirstArg ks p q.ty rest ∧ nameOf p.die = q.name := by
  induction ks with
  | nil => cases h
  | cons k ks ih =>
    cases h with
    | param hk _ =>
      obtain ⟨h1, h2, h3⟩ := (isParam_node hc.units hc.offsets (hks k (by simp)) q).1 hk
      exact ⟨k, ks, ⟨[], rfl, by simp, h1, h2⟩, h3.symm⟩
    | other hk hr =>
      obtain ⟨p, rest, ⟨pre, h1, h2, h3⟩, h4⟩ := ih (fun k h => hks k (List.mem_cons_of_mem _ h)) hr
      refine ⟨p, rest, ⟨k :: pre, by rw [h1]; rfl, ?_, h3⟩, h4⟩
      intro q' hq' t' ht'
      rcases List.mem_cons.1 hq' with rfl | hq'
      · exact hk ⟨_, isArg_node hc (hks q' (by simp)) ht'⟩
      · exact h2 q' hq' t' ht'

theorem result_found (hc : Compiled w x us) {k : Tree Die} (hk : k ∈ nodes us) {tail : Str} (h : Result (TypeCalled w x) k.die tail) :
    ∃ ret, (∀ t, ret = some t ↔ Parse.Typed (fileDb x.units) k.die.off t) ∧ ∃ N, ∀ depth, N ≤ depth →
      Discovery.methodRetText (resolveType (typedef w.lib x) (fileDb x.units) depth) ret = .ok tail ∧
      ∃ o, Discovery.methodRet (resolveType (typedef w.lib x) (fileDb x.units) depth) ret = .ok o ∧
        (∀ ty, k.die.attr .type = some (.ref ty) → ∃ td, o = some td ∧ resolveType (typedef w.lib x) (fileDb x.units) depth ty = .ok td) ∧
        ((∀ ty, k.die.attr .type ≠ some (.ref ty)) → o = none) := by
  simp only [typed_node hc.units hc.offsets hk]
  cases h with
  | none h => exact ⟨none, fun t => ⟨nofun, fun h' => absurd h' (h t)⟩, 0, fun _ _ => ⟨rfl, _, rfl, fun ty h' => absurd h' (h ty), fun _ => rfl⟩⟩
  | unit h h1 =>
    rename_i t
    obtain ⟨M, hM⟩ := called_resolves hc h1
    refine ⟨some t, fun t' => by rw [h]; simp, M, fun depth hd => ?_⟩
    obtain ⟨td, h3, h4⟩ := hM depth hd
    exact ⟨by simp only [Discovery.methodRetText, h3, Discovery.retText, h4, if_true], some td, by simp only [Discovery.methodRet, h3],
      fun ty hty => by rw [h] at hty; cases hty; exact ⟨td, rfl, h3⟩, fun hty => absurd h (hty _)⟩
  | some h h1 hne =>
    rename_i t text
    obtain ⟨M, hM⟩ := called_resolves hc h1
    refine ⟨some t, fun t' => by rw [h]; simp, M, fun depth hd => ?_⟩
    obtain ⟨td, h3, h4⟩ := hM depth hd
    exact ⟨by simp only [Discovery.methodRetText, h3, Discovery.retText, h4, if_neg hne], some td, by simp only [Discovery.methodRet, h3],
      fun ty hty => by rw [h] at hty; cases hty; exact ⟨td, rfl, h3⟩, fun hty => absurd h (hty _)⟩

theorem code_found (hc : Compiled w x us) {k : Tree Die} (hk : k ∈ nodes us) :
    (((Discovery.okOf (stringAttr .linkageName (fileDb x.units) k.die.off)).bind (demangle w.demangler)).bind (symbolIndex w x).getFunction).isSome = true ↔
      HasCode w x k.die := by
  have hget : ∀ n, ((symbolIndex w x).getFunction n).isSome = true ↔ ∃ e n', e ∈ x.symbols ∧ e.isText = true ∧ demangle w.demangler e.raw = some n' ∧ SameName n n' := by
    intro n
    have := C06_get_function_last_wins [.binary (entries w x) 0] n
    rw [symbolIndex, this, insertedFns_eq, List.getLast?_isSome, ne_eq, List.filter_eq_nil_iff]
    constructor
    · intro h
      have h : ∃ s ∈ x.symbols.filterMap (fnAt w), SameName n s.name := by
        refine Classical.byContradiction fun hn => h fun s hs hh => hn ⟨s, hs, ?_⟩
        simpa [SameName] using hh
      obtain ⟨s, hs, hsn⟩ := h
      obtain ⟨e, he, hf⟩ := List.mem_filterMap.1 hs
      unfold fnAt at hf
      split at hf
      · rename_i ht
        obtain ⟨n', h1, rfl⟩ := Option.map_eq_some_iff.1 hf
        exact ⟨e, n', he, ht, h1, hsn⟩
      · cases hf
    · rintro ⟨e, n', he, ht, hd, hs⟩ h
      exact h ⟨n', e.address, 0⟩ (List.mem_filterMap.2 ⟨e, he, by simp [fnAt, ht, hd]⟩) (by simpa [SameName] using hs)
  constructor
  · intro h
    cases hl : Discovery.okOf (stringAttr .linkageName (fileDb x.units) k.die.off) with
    | none => rw [hl] at h; cases h
    | some l =>
      rw [hl, Option.bind_some] at h
      cases hn : demangle w.demangler l with
      | none => rw [hn] at h; cases h
      | some n =>
        rw [hn, Option.bind_some] at h
        obtain ⟨e, n', h1, h2, h3, h4⟩ := (hget n).1 h
        exact ⟨l, n, e, n', (okOf_linkage hc hk l).1 hl, hn, h1, h2, h3, h4⟩
  · rintro ⟨l, n, e, n', hl, hn, h1, h2, h3, h4⟩
    rw [(okOf_linkage hc hk l).2 hl, Option.bind_some, hn, Option.bind_some]
    exact (hget n).2 ⟨e, n', h1, h2, h3, h4⟩

theorem codeAt_found (hc : Compiled w x us) {k : Tree Die} (hk : k ∈ nodes us) {a : Nat} (h : CodeAt w x k.die a) :
    ∃ s, ((Discovery.okOf (stringAttr .linkageName (fileDb x.units) k.die.off)).bind (demangle w.demangler)).bind (symbolIndex w x).getFunction = some s ∧ s.address = a := by
  obtain ⟨l, n, n', hl, hn, hs, pre, e, post, hsym, ht, hd, rfl, hlast⟩ := h
  rw [(okOf_linkage hc hk l).2 hl, Option.bind_some, hn, Option.bind_some]
  refine ⟨⟨n', e.address, 0⟩, ?_, rfl⟩
  rw [symbolIndex, C06_get_function_last_wins, insertedFns_eq, hsym, List.filterMap_append, List.filterMap_cons]
  have hfe : fnAt w e = some ⟨n', e.address, 0⟩ := by simp [fnAt, ht, hd]
  have hnone : ((post.filterMap (fnAt w)).filter fun s => decide (n.lookupName = s.name.lookupName ∧ n.modulePath = s.name.modulePath ∧ n.fullPath = s.name.fullPath)) = [] := by
    rw [List.filter_eq_nil_iff]
    intro s hs' hh
    obtain ⟨e', he', hf⟩ := List.mem_filterMap.1 hs'
    unfold fnAt at hf
    split at hf
    · rename_i ht'
      obtain ⟨n'', h1, rfl⟩ := Option.map_eq_some_iff.1 hf
      have hh : SameName n n'' := by simpa [SameName] using hh
      exact hlast e' he' ht' n'' h1 (by
        obtain ⟨a1, a2, a3⟩ := hs
        obtain ⟨b1, b2, b3⟩ := hh
        exact ⟨b1.symm.trans a1, b2.symm.trans a2, b3.symm.trans a3⟩)
    · cases hf
  rw [hfe]
  simp only [List.filter_append, List.filter_cons, hnone]
  rw [if_pos (by simpa [SameName] using hs)]
  simp

/-- What is found for the function `k`. -/
def Made (w : Libs) (x : Executable) (S : Str) (own : Desc) (depth : Nat) (k : Tree Die) (m : Method) : Prop :=
  m.name = nameOr k.die (chars! "<anonymous>") ∧ (m.selfType.isSome = true ↔ HasReceiver w x S own k) ∧ (∀ a, CodeAt w x k.die a → m.address = a) ∧ (¬ HasCode w x k.die → m.address = 0) ∧
    (∀ ty, k.die.attr .type = some (.ref ty) → ∃ td, m.ret = some td ∧ resolveType (typedef w.lib x) (fileDb x.units) depth ty = .ok td) ∧
    ((∀ ty, k.die.attr .type ≠ some (.ref ty)) → m.ret = none) ∧
    (HasReceiver w x S own k → ∃ ty tys, ArgTypes k.kids (ty :: tys) ∧ List.Forall₂ (fun ty td => resolveType (typedef w.lib x) (fileDb x.units) depth ty = .ok td) tys (m.params.map (·.2)))

/-- A method as it is listed. -/
def lineOf (m : Method) : Bool × Str := (m.selfType.isSome, Listing.methodLine m)

theorem fn_found (hc : Compiled w x us) {S : Str} (hS : S ≠ chars! "unknown") {own : Desc} (ho : Own S own) {k : Tree Die} (hk : k ∈ nodes us) {self : Bool} {line : Str}
    (h : FnLine w x S own k self line) :
    ∃ i, Discovery.functionInfo (fileDb x.units) k.die.off = .ok i ∧ ∃ N, ∀ depth, N ≤ depth → ∀ (fns : FnIndex.Builder) (ix : ModuleIndex) (o : Nat) (lay : Layout) (hlay : Stands (typedef w.lib x) (fileDb x.units) S own lay),
      ∃ m, Discovery.convert (world w depth x fns ix) ⟨0, o, lay⟩ 0 i = .ok m ∧ lineOf m = (self, line) ∧ m.synthetic = false ∧ Made w x S own depth k m := by
  have hw : TypeRes.WellFormed (fileDb x.units) := by rw [hc.units]; exact C95_well_formed us hc.offsets hc.apart
  have hdec : Decodes (fileDb x.units) := C95_decodes _
  have hkids : ∀ k' ∈ k.kids, k' ∈ nodes us := fun k' h => nodes_kids hk h
  obtain ⟨args, tail, word, hres, hword, rfl, hargs⟩ := h
  obtain ⟨ret, hret, N1, hN1⟩ := result_found hc hk hres
  have hrecv : self = true ↔ HasReceiver w x S own k := by
    rcases hargs with ⟨rfl, p, t, rest, recv, more, hf, hn, hr, -⟩ | ⟨rfl, -, hno⟩
    · exact iff_of_true rfl ⟨p, t, rest, recv, hf, hn, hr⟩
    · refine iff_of_false (by simp) ?_
      rintro ⟨p, t, rest, recv, hf, hn, hr⟩
      rcases hno p t rest hf with ⟨n, h1, h2⟩ | h
      · rcases hn with hn | hn
        · rw [h1] at hn; cases hn; exact h2 rfl
        · rw [h1] at hn; cases hn
      · exact h recv hr
  have hch : (fileDb x.units).children k.die.off = .ok (k.kids.map fun k => k.die.off) := by
    rw [hc.units]; exact children_node us hc.offsets k hk
  have key : ∀ (ps : List Param) (N2 : Nat), Params (fileDb x.units) (k.kids.map fun k => k.die.off) ps →
      (∀ depth, N2 ≤ depth → ∀ (o : Nat) (lay : Layout) (hlay : Stands (typedef w.lib x) (fileDb x.units) S own lay), ∃ st texts qs, Discovery.selfOf (resolveType (typedef w.lib x) (fileDb x.units) depth) ⟨0, o, lay⟩ ps = .ok st ∧
        st.isSome = self ∧ Discovery.methodParamTexts (resolveType (typedef w.lib x) (fileDb x.units) depth) (ps.drop (if st.isSome then 1 else 0)) = .ok texts ∧
        Discovery.methodParams (resolveType (typedef w.lib x) (fileDb x.units) depth) (ps.drop (if st.isSome then 1 else 0)) = .ok qs ∧
        (st.map Discovery.SelfType.text).toList ++ texts = args ∧
        (self = true → ∃ ty tys, ArgTypes k.kids (ty :: tys) ∧ List.Forall₂ (fun ty td => resolveType (typedef w.lib x) (fileDb x.units) depth ty = .ok td) tys (qs.map (·.2)))) →
      ∃ i, Discovery.functionInfo (fileDb x.units) k.die.off = .ok i ∧ ∃ N, ∀ depth, N ≤ depth → ∀ (fns : FnIndex.Builder) (ix : ModuleIndex) (o : Nat) (lay : Layout) (hlay : Stands (typedef w.lib x) (fileDb x.units) S own lay),
        ∃ m, Discovery.convert (world w depth x fns ix) ⟨0, o, lay⟩ 0 i = .ok m ∧
          lineOf m = (self, chars! "  - fn " ++ nameOr k.die (chars! "<anonymous>") ++ chars! "(" ++ commaSep args ++ chars! ")" ++ tail ++ word) ∧ m.synthetic = false ∧ Made w x S own depth k m := by
    intro ps N2 hps hN2
    obtain ⟨i, hi, hi1, hi2⟩ := Discovery.functionInfo_of_declares (fileDb x.units) k.die.off ps ret ⟨⟨_, hch, hps⟩, hret⟩
    have hi' := hi
    simp only [Discovery.functionInfo, Discovery.parameterList, mapP, forEachChild, Res.bind_eq_ok, Res.ok.injEq] at hi'
    obtain ⟨qs0, -, rfl⟩ := hi'
    refine ⟨_, hi, max N1 N2, fun depth hd fns ix o lay hlay => ?_⟩
    obtain ⟨st, texts, qs, h1, h2, h3, h4, h5, h10⟩ := hN2 depth (by omega) o lay hlay
    obtain ⟨h6, oo, h7, h8, h9⟩ := hN1 depth (by omega)
    simp only at hi1 hi2
    subst hi1
    rw [hi2] at *
    have e1 : Discovery.selfOf ((world w depth x fns ix).resolve 0) ⟨0, o, lay⟩ qs0 = .ok st := h1
    have e3 : Discovery.methodParamTexts ((world w depth x fns ix).resolve 0) (qs0.drop (if st.isSome then 1 else 0)) = .ok texts := h3
    have e4 : Discovery.methodParams ((world w depth x fns ix).resolve 0) (qs0.drop (if st.isSome then 1 else 0)) = .ok qs := h4
    have e6 : Discovery.methodRetText ((world w depth x fns ix).resolve 0) ret = .ok tail := h6
    have e7 : Discovery.methodRet ((world w depth x fns ix).resolve 0) ret = .ok oo := h7
    refine ⟨_, by simp only [Discovery.convert, Discovery.methodSignature, e1, e3, e4, e6, e7, Res.bind_ok]; rfl, ?_, rfl, ?_⟩
    rotate_left
    · refine ⟨by simp only [okOf_name hc hk, nameOr_eq], by rw [← hrecv, ← h2], ?_, ?_, h8, h9, fun hr => h10 (hrecv.2 hr)⟩
      · intro a ha
        obtain ⟨s, hs, rfl⟩ := codeAt_found hc hk ha
        have hs : ((Discovery.okOf (stringAttr .linkageName (fileDb x.units) k.die.off)).bind (world w depth x fns ix).demangle).bind (world w depth x fns ix).index.getFunction = some s := hs
        simp only [Discovery.linkOf, hs]
      · intro hno
        have hno := mt (code_found hc hk).1 hno
        have hs : ((Discovery.okOf (stringAttr .linkageName (fileDb x.units) k.die.off)).bind (world w depth x fns ix).demangle).bind (world w depth x fns ix).index.getFunction = none := by
          cases hh : ((Discovery.okOf (stringAttr .linkageName (fileDb x.units) k.die.off)).bind (demangle w.demangler)).bind (symbolIndex w x).getFunction with
          | none => exact hh
          | some s => rw [hh] at hno; exact absurd rfl hno
        simp only [Discovery.linkOf, hs]
    simp only [lineOf, Listing.methodLine, h2, h5, Prod.mk.injEq, true_and, okOf_name hc hk, nameOr_eq, Discovery.joinComma_eq]
    have hcall : (Discovery.linkOf (world w depth x fns ix) { name := nameOr k.die (chars! "<anonymous>"), linkage := Discovery.okOf (stringAttr .linkageName (fileDb x.units) k.die.off), die := k.die.off, params := qs0, ret := ret }).2.1 = true ↔ HasCode w x k.die := by
      rw [← code_found hc hk]
      simp only [Discovery.linkOf]
      show (match ((Discovery.okOf (stringAttr .linkageName (fileDb x.units) k.die.off)).bind (demangle w.demangler)).bind (symbolIndex w x).getFunction with
        | some s => (s.address, true, s.name.display)
        | none => (0, false, _)).2.1 = true ↔ _
      cases ((Discovery.okOf (stringAttr .linkageName (fileDb x.units) k.die.off)).bind (demangle w.demangler)).bind (symbolIndex w x).getFunction <;> simp
    have hwd : Listing.callableWord (Discovery.linkOf (world w depth x fns ix) { name := nameOr k.die (chars! "<anonymous>"), linkage := Discovery.okOf (stringAttr .linkageName (fileDb x.units) k.die.off), die := k.die.off, params := qs0, ret := ret }).2.1 = word := by
      rcases hword with ⟨h, rfl⟩ | ⟨h, rfl⟩
      · rw [hcall.2 h]; rfl
      · rw [Bool.eq_false_iff.2 fun hh => h (hcall.1 hh)]; rfl
    rw [hwd]
    simp only [List.append_assoc]
    rfl
  rcases hargs with ⟨rfl, p, t, rest, recv, more, hf, hn, hr, ht, rfl⟩ | ⟨rfl, ht, hno⟩
  · obtain ⟨ps, hps, N2, hN2⟩ := takes_found hc ht (fun k' h => hkids k' (by obtain ⟨pre, h1, -⟩ := hf; rw [h1]; simp [h]))
    obtain ⟨N3, hN3⟩ := receiver_found hw hdec ho hr
    refine key _ (max N2 N3) (first_param hc hf hkids hps) fun depth hd o lay hlay => ?_
    obtain ⟨h1, qs, h2, tys, h6, h7⟩ := hN2 depth (by omega)
    obtain ⟨td, h3, h4, h5⟩ := hN3 depth lay (by omega) hlay
    refine ⟨some (Discovery.SelfType.of td.layout), more, qs, ?_, rfl, h1, h2, by simp [h5], fun _ => ⟨_, tys, first_types hf h6, h7⟩⟩
    have : ((nameOf p.die).isSome && decide (nameOf p.die ≠ some (chars! "self"))) = false := by rcases hn with h | h <;> simp [h]
    simp only [Discovery.selfOf, this, Bool.false_eq_true, if_false, h3, Res.bind_ok, h4, if_true]
  · obtain ⟨ps, hps, N2, hN2⟩ := takes_found hc ht hkids
    have hself : ∃ N3, ∀ depth, N3 ≤ depth → ∀ (o : Nat) (lay : Layout) (hlay : Stands (typedef w.lib x) (fileDb x.units) S own lay),
        Discovery.selfOf (resolveType (typedef w.lib x) (fileDb x.units) depth) ⟨0, o, lay⟩ ps = .ok none := by
      cases ps with
      | nil => exact ⟨0, fun _ _ _ _ _ => rfl⟩
      | cons q ps =>
        obtain ⟨p, rest, hf, hpn⟩ := params_first hc hkids hps
        rcases hno p q.ty rest hf with ⟨n, h1, h2⟩ | h
        · rw [hpn] at h1
          exact ⟨0, fun _ _ _ _ _ => by simp [Discovery.selfOf, h1, h2]⟩
        · obtain ⟨text, ⟨desc, hI⟩, -⟩ := takes_first ht hf
          obtain ⟨N3, hN3⟩ := receiver_none hw hdec hS ho hI h
          refine ⟨N3, fun depth hd o lay hlay => ?_⟩
          obtain ⟨td, h3, h4⟩ := hN3 depth lay hd hlay
          simp only [Discovery.selfOf]
          split
          · rfl
          · simp only [h3, Res.bind_ok, h4, Bool.false_eq_true, if_false]
    obtain ⟨N3, hN3⟩ := hself
    refine key ps (max N2 N3) hps fun depth hd o lay hlay => ?_
    obtain ⟨h1, qs, h2, -⟩ := hN2 depth (by omega)
    exact ⟨none, args, qs, hN3 depth (by omega) o lay hlay, rfl, h1, h2, rfl, by simp⟩

theorem collect_cons {α : Type} {p : Parser α} {db : Db} {c : Nat} {cs : List Nat} {a : α} {as : List α} (h : p db c = .ok a) (hs : collect p db cs = .ok as) :
    collect p db (c :: cs) = .ok (a :: as) := by simp only [collect, h, hs, Res.bind_ok]

theorem collect_skip {α : Type} {p : Parser α} {db : Db} {c : Nat} {cs : List Nat} {as : List α} (h : p db c = .err) (hs : collect p db cs = .ok as) :
    collect p db (c :: cs) = .ok as := by simp only [collect, h, hs]

theorem tag_node (hc : Compiled w x us) {t : Tree Die} (ht : t ∈ nodes us) : tag (fileDb x.units) t.die.off = some t.die.tag := by
  simp [tag, entry_node' hc.units hc.offsets ht]

/-- The functions directly inside an entry, as the code finds them. -/
theorem fns_found (hc : Compiled w x us) {S : Str} (hS : S ≠ chars! "unknown") {own : Desc} (ho : Own S own) {ks : List (Tree Die)} {ls : List (Bool × Str)}
    (h : FnLines w x S own ks ls) (hks : ∀ k ∈ ks, k ∈ nodes us) :
    ∃ os, collect Discovery.optFunction (fileDb x.units) (ks.map fun k => k.die.off) = .ok os ∧ ∃ N, ∀ depth, N ≤ depth →
      ∀ (fns : FnIndex.Builder) (ix : ModuleIndex) (o : Nat) (lay : Layout) (hlay : Stands (typedef w.lib x) (fileDb x.units) S own lay),
      ∃ ms, Discovery.convertAll (world w depth x fns ix) ⟨0, o, lay⟩ 0 (os.filterMap id) = .ok ms ∧ ms.map lineOf = ls ∧ (∀ m ∈ ms, m.synthetic = false) ∧
        List.Forall₂ (Made w x S own depth) (functionsIn ks) ms := by
  induction h with
  | nil => exact ⟨[], rfl, 0, fun _ _ _ _ _ _ _ => ⟨[], rfl, rfl, by simp, .nil⟩⟩
  | @fn k ks self line ls ht hl _ ih =>
    have hk := hks k (List.mem_cons_self ..)
    obtain ⟨os, h1, N, hN⟩ := ih fun k h => hks k (List.mem_cons_of_mem _ h)
    obtain ⟨i, h2, M, hM⟩ := fn_found hc hS ho hk hl
    refine ⟨some i :: os, collect_cons ?_ h1, max N M, fun depth hd fns ix o lay hlay => ?_⟩
    · simp only [Discovery.optFunction, tag_node hc hk, ht, if_true, h2, Res.bind_ok]
    · obtain ⟨ms, h3, h4, h5, hmade⟩ := hN depth (by omega) fns ix o lay hlay
      obtain ⟨m, h6, h7, h8, hmade1⟩ := hM depth (by omega) fns ix o lay hlay
      refine ⟨m :: ms, ?_, by rw [List.map_cons, h7, h4], ?_, ?_⟩
      · simp only [List.filterMap_cons, id, Discovery.convertAll, h6, Res.bind_ok]
        have h3 : Discovery.convertAll (world w depth x fns ix) ⟨0, o, lay⟩ 0 (os.filterMap fun a => a) = .ok ms := h3
        rw [h3, Res.bind_ok]
      · intro m' hm'
        rcases List.mem_cons.1 hm' with rfl | hm'
        · exact h8
        · exact h5 m' hm'
      · rw [functionsIn, List.filter_cons, if_pos (by simpa using ht)]
        exact .cons hmade1 hmade
  | @other k ks ls ht _ ih =>
    have hk := hks k (List.mem_cons_self ..)
    obtain ⟨os, h1, N, hN⟩ := ih fun k h => hks k (List.mem_cons_of_mem _ h)
    refine ⟨none :: os, collect_cons ?_ h1, N, by rw [functionsIn, List.filter_cons, if_neg (by simpa using ht)]; exact hN⟩
    simp only [Discovery.optFunction, tag_node hc hk, Option.some.injEq, ht, if_false]

theorem fnLines_append {S : Str} {own : Desc} {as bs : List (Tree Die)} {ls : List (Bool × Str)} (h : FnLines w x S own (as ++ bs) ls) :
    ∃ l1 l2, ls = l1 ++ l2 ∧ FnLines w x S own as l1 ∧ FnLines w x S own bs l2 := by
  induction as generalizing ls with
  | nil => exact ⟨[], ls, rfl, .nil, h⟩
  | cons a as ih =>
    cases h with
    | fn h1 h2 h3 =>
      obtain ⟨l1, l2, rfl, h4, h5⟩ := ih h3
      exact ⟨_ :: l1, l2, rfl, .fn h1 h2 h4, h5⟩
    | other h1 h3 =>
      obtain ⟨l1, l2, rfl, h4, h5⟩ := ih h3
      exact ⟨l1, l2, rfl, .other h1 h4, h5⟩

/-- The functions in the entries of the type. -/
theorem direct_found (hc : Compiled w x us) {S : Str} (hS : S ≠ chars! "unknown") {own : Desc} (ho : Own S own) {hs : List (Tree Die)} {ls : List (Bool × Str)}
    (h : FnLines w x S own (hs.flatMap Tree.kids) ls) (hhs : ∀ k ∈ hs, k ∈ nodes us) :
    ∃ N, ∀ depth, N ≤ depth → ∀ (fns : FnIndex.Builder) (ix : ModuleIndex) (o : Nat) (lay : Layout) (hlay : Stands (typedef w.lib x) (fileDb x.units) S own lay),
      ∃ ms, Discovery.directOf (world w depth x fns ix) ⟨0, o, lay⟩ (hs.map fun k => (0, k.die.off)) = .ok ms ∧ ms.map lineOf = ls ∧ (∀ m ∈ ms, m.synthetic = false) ∧
        List.Forall₂ (Made w x S own depth) (functionsIn (hs.flatMap Tree.kids)) ms := by
  induction hs generalizing ls with
  | nil => cases h; exact ⟨0, fun _ _ _ _ _ _ _ => ⟨[], rfl, rfl, by simp, .nil⟩⟩
  | cons k hs ih =>
    have hk := hhs k (List.mem_cons_self ..)
    rw [List.flatMap_cons] at h
    obtain ⟨l1, l2, rfl, h1, h2⟩ := fnLines_append h
    obtain ⟨os, h3, N, hN⟩ := fns_found hc hS ho h1 fun k' hk' => nodes_kids hk hk'
    obtain ⟨M, hM⟩ := ih h2 fun k h => hhs k (List.mem_cons_of_mem _ h)
    refine ⟨max N M, fun depth hd fns ix o lay hlay => ?_⟩
    obtain ⟨ms, h4, h5, h6, hmade⟩ := hN depth (by omega) fns ix o lay hlay
    obtain ⟨ms', h7, h8, h9, hmade'⟩ := hM depth (by omega) fns ix o lay hlay
    have hch : (fileDb x.units).children k.die.off = .ok (k.kids.map fun k => k.die.off) := by
      rw [hc.units]; exact children_node us hc.offsets k hk
    have hcf : Discovery.childFunctions ((world w depth x fns ix).file 0) k.die.off = .ok (os.filterMap id) := by
      show Discovery.childFunctions (fileDb x.units) k.die.off = _
      simp only [Discovery.childFunctions, mapP, forEachChild, hch, h3, Res.bind_ok]
    refine ⟨ms ++ ms', ?_, by rw [List.map_append, h5, h8], ?_, by rw [functionsIn, List.flatMap_cons, List.filter_append]; exact List.rel_append hmade hmade'⟩
    · simp only [List.map_cons, Discovery.directOf, hcf, Res.bind_ok, h4, h7]
    · intro m hm
      rcases List.mem_append.1 hm with hm | hm
      · exact h6 m hm
      · exact h9 m hm

theorem Made.withTrait {S : Str} {own : Desc} {depth : Nat} {k : Tree Die} {m : Method} (h : Made w x S own depth k m) : Made w x S own depth k (Discovery.withTrait m) := by
  unfold Discovery.withTrait
  split <;> exact h

theorem withTrait_line (m : Method) : lineOf (Discovery.withTrait m) = lineOf m ∧ (Discovery.withTrait m).synthetic = m.synthetic := by
  unfold Discovery.withTrait
  split <;> exact ⟨rfl, rfl⟩

/-- The methods in the `impl` blocks. -/
theorem trait_found (hc : Compiled w x us) {S : Str} (hS : S ≠ chars! "unknown") {own : Desc} (ho : Own S own) {hs : List (Tree Die)} {ls : List (Bool × Str)}
    (h : FnLines w x S own (hs.flatMap Tree.kids) ls) (hhs : ∀ k ∈ hs, k ∈ nodes us) :
    ∃ N, ∀ depth, N ≤ depth → ∀ (fns : FnIndex.Builder) (ix : ModuleIndex) (o : Nat) (lay : Layout) (hlay : Stands (typedef w.lib x) (fileDb x.units) S own lay),
      ∃ ms, Discovery.traitOfNamespaces (world w depth x fns ix) ⟨0, o, lay⟩ (hs.map fun k => k.die.off) = .ok ms ∧
        ms.map lineOf = ls.filter (·.1) ∧ (∀ m ∈ ms, m.synthetic = false) ∧
        ∃ all, ms = all.filter (·.selfType.isSome) ∧ List.Forall₂ (Made w x S own depth) (functionsIn (hs.flatMap Tree.kids)) all := by
  induction hs generalizing ls with
  | nil => cases h; exact ⟨0, fun _ _ _ _ _ _ _ => ⟨[], rfl, rfl, by simp, [], rfl, .nil⟩⟩
  | cons k hs ih =>
    have hk := hhs k (List.mem_cons_self ..)
    rw [List.flatMap_cons] at h
    obtain ⟨l1, l2, rfl, h1, h2⟩ := fnLines_append h
    obtain ⟨os, h3, N, hN⟩ := fns_found hc hS ho h1 fun k' hk' => nodes_kids hk hk'
    obtain ⟨M, hM⟩ := ih h2 fun k h => hhs k (List.mem_cons_of_mem _ h)
    refine ⟨max N M, fun depth hd fns ix o lay hlay => ?_⟩
    obtain ⟨ms, h4, h5, h6, hmade⟩ := hN depth (by omega) fns ix o lay hlay
    obtain ⟨ms', h7, h8, h9, all', rfl, hmade'⟩ := hM depth (by omega) fns ix o lay hlay
    have hch : (fileDb x.units).children k.die.off = .ok (k.kids.map fun k => k.die.off) := by
      rw [hc.units]; exact children_node us hc.offsets k hk
    have hcf : Discovery.childFunctions ((world w depth x fns ix).file 0) k.die.off = .ok (os.filterMap id) := by
      show Discovery.childFunctions (fileDb x.units) k.die.off = _
      simp only [Discovery.childFunctions, mapP, forEachChild, hch, h3, Res.bind_ok]
    refine ⟨(ms.filter (·.selfType.isSome)).map Discovery.withTrait ++ all'.filter (·.selfType.isSome), ?_, ?_, ?_, ms.map Discovery.withTrait ++ all', ?_, ?_⟩
    · simp only [List.map_cons, Discovery.traitOfNamespaces, hcf, Res.bind_ok, h4, h7]
    · rw [List.map_append, h8, List.filter_append, ← h5, List.map_map, List.filter_map]
      congr 1
      exact List.map_congr_left fun m _ => (withTrait_line m).1
    · intro m hm
      rcases List.mem_append.1 hm with hm | hm
      · obtain ⟨m', hm', rfl⟩ := List.mem_map.1 hm
        rw [(withTrait_line m').2]
        exact h6 m' (List.mem_filter.1 hm').1
      · exact h9 m hm
    · rw [List.filter_append, List.filter_map]
      congr 3
      funext m
      exact congrArg Prod.fst (withTrait_line m).1.symm
    · rw [functionsIn, List.flatMap_cons, List.filter_append]
      refine List.rel_append ?_ hmade'
      rw [List.forall₂_map_right_iff]
      exact hmade.imp fun _ _ h => h.withTrait

theorem ofType_append {own : Desc} {as bs hs : List (Tree Die)} (h : OfType w x own (as ++ bs) hs) :
    ∃ l1 l2, hs = l1 ++ l2 ∧ OfType w x own as l1 ∧ OfType w x own bs l2 := by
  induction as generalizing hs with
  | nil => exact ⟨[], hs, rfl, .nil, h⟩
  | cons a as ih =>
    cases h with
    | same h1 h2 h3 h4 =>
      obtain ⟨l1, l2, rfl, h5, h6⟩ := ih h4
      exact ⟨_ :: l1, l2, rfl, .same h1 h2 h3 h5, h6⟩
    | different h1 h2 h3 =>
      obtain ⟨l1, l2, rfl, h5, h6⟩ := ih h3
      exact ⟨l1, l2, rfl, .different h1 h2 h5, h6⟩
    | other h1 h3 =>
      obtain ⟨l1, l2, rfl, h5, h6⟩ := ih h3
      exact ⟨l1, l2, rfl, .other h1 h5, h6⟩

/-- The entries of the type in a module. -/
theorem home_found (hc : Compiled w x us) {S : Str} {own : Desc} (ho : Own S own) {ks hs : List (Tree Die)} (h : OfType w x own ks hs) (hks : ∀ k ∈ ks, k ∈ nodes us) :
    ∃ N, ∀ depth, N ≤ depth → ∀ (o : Nat) (lay : Layout) (hlay : Stands (typedef w.lib x) (fileDb x.units) S own lay),
      collect (Discovery.matchingStruct (resolveType (typedef w.lib x) (fileDb x.units) depth) ⟨0, o, lay⟩) (fileDb x.units) (ks.map fun k => k.die.off) =
        .ok (hs.map fun k => k.die.off) := by
  have hw : TypeRes.WellFormed (fileDb x.units) := by rw [hc.units]; exact C95_well_formed us hc.offsets hc.apart
  have hdec : Decodes (fileDb x.units) := C95_decodes _
  induction h with
  | nil => exact ⟨0, fun _ _ _ _ _ => rfl⟩
  | @same k ks hs desc ht hI hsame _ ih =>
    have hk := hks k (List.mem_cons_self ..)
    obtain ⟨N, hN⟩ := ih fun k h => hks k (List.mem_cons_of_mem _ h)
    obtain ⟨M, hM⟩ := Shown.types_at hw hdec hI
    refine ⟨max N M, fun depth hd o lay hlay => collect_cons ?_ (hN depth (by omega) o lay hlay)⟩
    have hm := (desc_direct ho hI (ty (typedef w.lib x) (fileDb x.units) depth) hlay).2 hsame
    simp only [Discovery.matchingStruct, isMemberTag, tag_node hc hk, ht, if_true, Res.bind_ok, (hM depth (by omega)).2.1, full, TypeDef.layout, hm]
  | @different k ks hs desc hI hdiff _ ih =>
    have hk := hks k (List.mem_cons_self ..)
    obtain ⟨N, hN⟩ := ih fun k h => hks k (List.mem_cons_of_mem _ h)
    obtain ⟨M, hM⟩ := Shown.types_at hw hdec hI
    refine ⟨max N M, fun depth hd o lay hlay => collect_skip ?_ (hN depth (by omega) o lay hlay)⟩
    have hm : (desc.layout (ty (typedef w.lib x) (fileDb x.units) depth)).matching (lay) = false :=
      Bool.eq_false_iff.2 fun hm => hdiff ((desc_direct ho hI _ hlay).1 hm)
    simp only [Discovery.matchingStruct, isMemberTag, tag_node hc hk]
    split
    · simp only [Res.bind_ok, (hM depth (by omega)).2.1, full, TypeDef.layout, hm, Bool.false_eq_true, if_false]
    · rfl
  | @other k ks hs ht _ ih =>
    have hk := hks k (List.mem_cons_self ..)
    obtain ⟨N, hN⟩ := ih fun k h => hks k (List.mem_cons_of_mem _ h)
    refine ⟨N, fun depth hd o lay hlay => collect_skip ?_ (hN depth (by omega) o lay hlay)⟩
    simp only [Discovery.matchingStruct, isMemberTag, tag_node hc hk, Option.some.injEq, ht, if_false]
    rfl

theorem homes_found (hc : Compiled w x us) {S : Str} {own : Desc} (ho : Own S own) {ms hs : List (Tree Die)} (h : OfType w x own (ms.flatMap Tree.kids) hs)
    (hms : ∀ k ∈ ms, k ∈ nodes us) :
    ∃ N, ∀ depth, N ≤ depth → ∀ (fns : FnIndex.Builder) (ix : ModuleIndex) (o : Nat) (lay : Layout) (hlay : Stands (typedef w.lib x) (fileDb x.units) S own lay),
      Discovery.inModules (world w depth x fns ix) ⟨0, o, lay⟩ 0 (ms.map Tree.die) = .ok (hs.map fun k => (0, k.die.off)) := by
  induction ms generalizing hs with
  | nil => cases h; exact ⟨0, fun _ _ _ _ _ _ _ => rfl⟩
  | cons m ms ih =>
    have hm := hms m (List.mem_cons_self ..)
    rw [List.flatMap_cons] at h
    obtain ⟨l1, l2, rfl, h1, h2⟩ := ofType_append h
    obtain ⟨N, hN⟩ := home_found hc ho h1 fun k hk => nodes_kids hm hk
    obtain ⟨M, hM⟩ := ih h2 fun k h => hms k (List.mem_cons_of_mem _ h)
    refine ⟨max N M, fun depth hd fns ix o lay hlay => ?_⟩
    have hch : (fileDb x.units).children m.die.off = .ok (m.kids.map fun k => k.die.off) := by
      rw [hc.units]; exact children_node us hc.offsets m hm
    have hfe : forEachChild (Discovery.matchingStruct ((world w depth x fns ix).resolve 0) ⟨0, o, lay⟩) ((world w depth x fns ix).file 0) m.die.off =
        .ok (l1.map fun k => k.die.off) := by
      show forEachChild (Discovery.matchingStruct (resolveType (typedef w.lib x) (fileDb x.units) depth) ⟨0, o, lay⟩) (fileDb x.units) m.die.off = _
      simp only [forEachChild, hch, Res.bind_ok]
      exact hN depth (by omega) o lay hlay
    simp only [List.map_cons, Discovery.inModules, hfe, Res.bind_ok, hM depth (by omega) fns ix o lay hlay, List.map_map, List.map_append]
    rfl

mutual
theorem modulesIn_dies (p pre : List Str) : ∀ t : Tree Die, (modulesIn p pre t).map Tree.die = ((namespacesOf pre t).filter fun e => decide (e.2 = p)).map (·.1)
  | .node d f s ks => by
    unfold modulesIn namespacesOf
    split
    · rw [List.map_append, modulesInList_dies, List.filter_cons]
      by_cases h : pre ++ [Modules.nameOf d] = p
      · simp [h, Tree.die]
      · simp [h]
    · rfl
theorem modulesInList_dies (p pre : List Str) : ∀ ts : List (Tree Die), (modulesInList p pre ts).map Tree.die = ((namespacesOfList pre ts).filter fun e => decide (e.2 = p)).map (·.1)
  | [] => rfl
  | t :: ts => by
    unfold modulesInList namespacesOfList
    rw [List.map_append, List.filter_append, List.map_append, modulesIn_dies p pre t, modulesInList_dies p pre ts]
end

theorem modulesAt_dies (us : List UnitOf) (p : List Str) : (modulesAt us p).map Tree.die = ((fileNamespaces us).filter fun e => decide (e.2 = p)).map (·.1) := by
  unfold modulesAt fileNamespaces
  induction us with
  | nil => rfl
  | cons u us ih =>
    rw [List.flatMap_cons, List.flatMap_cons, List.map_append, List.filter_append, List.map_append, ih]
    congr 1
    split
    · exact modulesInList_dies p [] _
    · rfl

mutual
theorem modulesIn_sub (p pre : List Str) : ∀ t : Tree Die, ∀ m ∈ modulesIn p pre t, m ∈ subtrees t
  | .node d f s ks => by
    intro m hm
    unfold modulesIn at hm
    unfold subtrees
    split at hm
    · rcases List.mem_append.1 hm with hm | hm
      · split at hm
        · exact List.mem_cons.2 (.inl (List.mem_singleton.1 hm))
        · cases hm
      · exact List.mem_cons_of_mem _ (modulesInList_sub p _ ks m hm)
    · cases hm
theorem modulesInList_sub (p pre : List Str) : ∀ ts : List (Tree Die), ∀ m ∈ modulesInList p pre ts, m ∈ subtreesList ts
  | [] => by intro m hm; cases hm
  | t :: ts => by
    intro m hm
    unfold modulesInList at hm
    unfold subtreesList
    rcases List.mem_append.1 hm with hm | hm
    · exact List.mem_append.2 (.inl (modulesIn_sub p pre t m hm))
    · exact List.mem_append.2 (.inr (modulesInList_sub p pre ts m hm))
end

theorem modulesAt_nodes (us : List UnitOf) (p : List Str) : ∀ m ∈ modulesAt us p, m ∈ nodes us := by
  intro m hm
  obtain ⟨u, hu, hm⟩ := List.mem_flatMap.1 hm
  split at hm
  · refine List.mem_flatMap.2 ⟨u, hu, ?_⟩
    rw [subtrees_kids]
    exact List.mem_cons_of_mem _ (modulesInList_sub p [] _ m hm)
  · cases hm

/-- The `impl` blocks of a module. -/
theorem impls_found (hc : Compiled w x us) {m : Tree Die} (hm : m ∈ nodes us) :
    forEachChild Discovery.implNamespace (fileDb x.units) m.die.off = .ok ((m.kids.filter isImplBlock).map fun k => k.die.off) := by
  have hch : (fileDb x.units).children m.die.off = .ok (m.kids.map fun k => k.die.off) := by
    rw [hc.units]; exact children_node us hc.offsets m hm
  simp only [forEachChild, hch, Res.bind_ok]
  have hall : ∀ ks : List (Tree Die), (∀ k ∈ ks, k ∈ nodes us) →
      collect Discovery.implNamespace (fileDb x.units) (ks.map fun k => k.die.off) = .ok ((ks.filter isImplBlock).map fun k => k.die.off) := by
    intro ks
    induction ks with
    | nil => exact fun _ => rfl
    | cons k ks ih =>
      intro hks
      have hk := hks k (List.mem_cons_self ..)
      have ih := ih fun k h => hks k (List.mem_cons_of_mem _ h)
      have hp : Discovery.implNamespace (fileDb x.units) k.die.off = if isImplBlock k then .ok k.die.off else .err := by
        simp only [Discovery.implNamespace, isMemberTag, tag_node hc hk, Option.some.injEq, isImplBlock, dieName, stringAttr, entry_node' hc.units hc.offsets hk, Die.stringAttr]
        by_cases ht : k.die.tag = .namespace
        · simp only [ht, if_true, Res.bind_ok, decide_true, Bool.true_and]
          cases ha : k.die.attr .name with
          | none => simp
          | some v =>
            cases v <;> simp only [Bool.false_eq_true, if_false]
            simp only [Discovery.isImplName, Bool.and_eq_true, decide_eq_true_eq, List.isPrefixOf_iff_prefix, beq_iff_eq]
        · simp only [ht, if_false, decide_false, Bool.false_and, Bool.false_eq_true]
          rfl
      rw [List.filter_cons]
      split
      · rename_i h
        exact collect_cons (by rw [hp, h]; rfl) ih
      · rename_i h
        exact collect_skip (by rw [hp, Bool.eq_false_iff.2 h]; rfl) ih
  exact hall m.kids fun k hk => nodes_kids hm hk

/-- Where the type `own`, called `S`, is: `e` is its entry, directly in the module `m`, with the path `path`, of a unit in which something comes after it that is in another module (such as an `impl` block of `m`); `homes` are its entries in
all modules with that path. -/
structure HomeOf (w : Libs) (x : Executable) (us : List UnitOf) (S : Str) (own : Desc) (e : Nat) (m : Tree Die) (path : List Str) (homes : List (Tree Die)) : Prop where
  named : Own S own
  known : S ≠ chars! "unknown"
  described : Is (typedef w.lib x) (fileDb x.units) e own
  unit : ∃ u ∈ us, u.1.die.isRustCu = true ∧ IsModule u.1 m path ∧ ∃ k ∈ m.kids, k.die.off = e ∧ k.die.tag ≠ .namespace ∧ Followed u.1 m k.die
  nested : path ≠ []
  homes : OfType w x own ((modulesAt us path).flatMap Tree.kids) homes

/-- The functions of the type, and the methods in the `impl` blocks of its module. -/
structure FunctionsOf (w : Libs) (x : Executable) (S : Str) (own : Desc) (m : Tree Die) (homes : List (Tree Die)) (direct traits : List (Bool × Str)) : Prop where
  direct : FnLines w x S own (homes.flatMap Tree.kids) direct
  traits : FnLines w x S own ((m.kids.filter isImplBlock).flatMap Tree.kids) traits

theorem ofType_sub {own : Desc} {ks hs : List (Tree Die)} (h : OfType w x own ks hs) : ∀ k ∈ hs, k ∈ ks := by
  induction h with
  | nil => exact fun _ h => h
  | same _ _ _ _ ih =>
    intro k hk
    rcases List.mem_cons.1 hk with rfl | hk
    · exact List.mem_cons_self ..
    · exact List.mem_cons_of_mem _ (ih k hk)
  | different _ _ _ ih => exact fun k hk => List.mem_cons_of_mem _ (ih k hk)
  | other _ _ ih => exact fun k hk => List.mem_cons_of_mem _ (ih k hk)

theorem synthetic_none {S : Str} {own : Desc} (ho : Own S own) {typedef : Nat → Option Layout} {db : Db} {lay : Layout} (hl : Stands typedef db S own lay) : Discovery.syntheticEntries lay = [] := by
  rcases hl with ⟨T, rfl⟩ | ⟨rfl, -⟩
  · cases own <;> first | exact ho.elim | rfl
  · rfl

theorem methods_found (hc : Compiled w x us) {S : Str} {own : Desc} {e : Nat} {m : Tree Die} {path : List Str} {homes : List (Tree Die)} (h : HomeOf w x us S own e m path homes)
    {direct traits : List (Bool × Str)} (hf : FunctionsOf w x S own m homes direct traits) :
    ∃ N, ∀ depth, N ≤ depth → ∀ (fns : FnIndex.Builder) (ix : ModuleIndex), moduleIndex x.units = .ok ix → ∀ (lay : Layout) (hlay : Stands (typedef w.lib x) (fileDb x.units) S own lay),
      ∃ ms, Discovery.methodsForType (world w depth x fns ix) ⟨0, e, lay⟩ = .ok ms ∧ ms.map lineOf = direct ++ traits.filter (·.1) ∧ (∀ m ∈ ms, m.synthetic = false) ∧
        ∃ all, ms.filter (·.selfType.isSome) = all.filter (·.selfType.isSome) ∧
          List.Forall₂ (Made w x S own depth) (functionsIn (homes.flatMap Tree.kids ++ (m.kids.filter isImplBlock).flatMap Tree.kids)) all := by
  obtain ⟨u, hu, hr, hm, k0, hk0, rfl, hns, hfo⟩ := h.unit
  have hmn : m ∈ nodes us := List.mem_flatMap.2 ⟨u, hu, hm.subtree⟩
  have hhomes : ∀ k ∈ homes, k ∈ nodes us := by
    intro k hk
    obtain ⟨m', hm', hk'⟩ := List.mem_flatMap.1 (ofType_sub h.homes k hk)
    exact nodes_kids (modulesAt_nodes us path m' hm') hk'
  obtain ⟨N1, h1⟩ := homes_found hc h.named h.homes (modulesAt_nodes us path)
  obtain ⟨N2, h2⟩ := direct_found hc h.known h.named hf.direct hhomes
  obtain ⟨N3, h3⟩ := trait_found hc h.known h.named hf.traits fun k hk => nodes_kids hmn (List.mem_filter.1 hk).1
  obtain ⟨ix', hix', hfind⟩ := C39_module_entry_partial us hc.file
  obtain ⟨ix'', hix'', hpath⟩ := C39_find_by_path us hc.file
  obtain ⟨r, hr1, hr2, hr3⟩ := hfind u hu hr m path hm k0 hk0 hns k0.die (by rw [entries_die]; exact List.mem_cons_self ..) (.inr hfo)
  refine ⟨max N1 (max N2 N3), fun depth hd fns ix hix lay hlay => ?_⟩
  rw [hc.units] at hix
  rw [hix] at hix' hix''
  have e1 : ix = ix' := Res.ok.inj hix'
  subst e1
  have e2 : ix = ix'' := Res.ok.inj hix''
  subst e2
  obtain ⟨ms, h4, h5, h6, hmade⟩ := h2 depth (by omega) fns ix k0.die.off lay hlay
  obtain ⟨ts, h7, h8, h9, all, rfl, hmade'⟩ := h3 depth (by omega) fns ix k0.die.off lay hlay
  have h10 := h1 depth (by omega) fns ix k0.die.off lay hlay
  have hp := hpath path h.nested
  rw [← modulesAt_dies] at hp
  have hdies : Discovery.typeDies (world w depth x fns ix) ⟨0, k0.die.off, lay⟩ = .ok (homes.map fun k => (0, k.die.off)) := by
    have e1 : ((world w depth x fns ix).modules 0).findByOffset k0.die.off = some r := hr1
    simp only [Discovery.typeDies, e1, hr2]
    show Discovery.inFiles (world w depth x fns ix) ⟨0, k0.die.off, lay⟩ path [0] = _
    have e2 : ((world w depth x fns ix).modules 0).findByPath path = ix.findByPath path := rfl
    simp only [Discovery.inFiles, e2]
    cases hfp : ix.findByPath path with
    | none =>
      rw [hfp] at hp
      simp only [Option.map_none] at hp
      split at hp
      · rename_i hnil
        rw [hnil] at h10
        exact h10
      · cases hp
    | some mm =>
      rw [hfp] at hp
      simp only [Option.map_some] at hp
      split at hp
      · cases hp
      · simp only
        have h10' : Discovery.inModules (world w depth x fns ix) ⟨0, k0.die.off, lay⟩ 0 mm.entries = .ok (homes.map fun k => (0, k.die.off)) := by
          rw [Option.some.inj hp]; exact h10
        simp only [h10', Res.bind_ok, List.append_nil]
  have himpl : Discovery.implNamespaces (world w depth x fns ix) ⟨0, k0.die.off, lay⟩ = .ok ((m.kids.filter isImplBlock).map fun k => k.die.off) := by
    have e1 : ((world w depth x fns ix).modules 0).findByOffset k0.die.off = some r := hr1
    simp only [Discovery.implNamespaces, e1, hr3]
    exact impls_found hc hmn
  refine ⟨ms ++ all.filter (·.selfType.isSome), ?_, by rw [List.map_append, h5, h8], ?_, ms ++ all, ?_, ?_⟩
  · simp only [Discovery.methodsForType, Discovery.directMethods, Discovery.traitMethods, hdies, himpl, Res.bind_ok, h4, h7, synthetic_none h.named hlay, List.append_nil]
  · intro m hm
    rcases List.mem_append.1 hm with hm | hm
    · exact h6 m hm
    · exact h9 m hm
  · rw [List.filter_append, List.filter_append, List.filter_filter]
    simp
  · rw [functionsIn, List.filter_append]
    exact List.rel_append hmade hmade'

theorem page_found {name : Str} {ms : List Method} (h : ∀ m ∈ ms, m.synthetic = false) :
    Listing.methodPage name ms = methodsPage name (ms.map Listing.methodLine) := by
  have h1 : ms.filter (fun m => !m.synthetic) = ms := List.filter_eq_self.2 fun m hm => by rw [h m hm]; rfl
  have h2 : ms.filter (·.synthetic) = [] := List.filter_eq_nil_iff.2 fun m hm => by rw [h m hm]; decide
  simp only [Listing.methodPage, methodsPage, h1, h2, Listing.builtinLines, List.append_nil]
  cases ms <;> rfl

theorem lines_snd (ms : List Method) : ms.map Listing.methodLine = (ms.map lineOf).map (·.2) := by rw [List.map_map]; rfl

theorem lines_self {ms : List Method} {ls : List (Bool × Str)} (h : ms.map lineOf = ls) :
    (ms.filter (·.selfType.isSome)).map Listing.methodLine = (ls.filter (·.1)).map (·.2) := by
  subst h
  rw [List.filter_map, List.map_map]
  rfl

/-- What the user types for `rd methods` of this expression. -/
def AsksMethods (text : Str) (ex : Expr.Expr) : Prop :=
  ∃ sub a as, Front.words text = sub :: a :: as ∧ Front.expand sub = chars! "methods" ∧ Expr.parseExpression (Expr.joinWith (chars! " ") (a :: as)) = .ok ex

/-- C99: the user types `rd methods` and the name of a variable of one of the user's own types, while the program is stopped at the start of a line of a function. What is printed is the name of the type and a line for each method - function with a
receiver - that the executable has for the type: first those in the entries of the type in the modules of its path, then those in the `impl` blocks of its module. -/
theorem C99_methods_of_variable_partial {u : UnitOf} {files : Declared.UnitFiles} {t : Tree Die} (hs : Stops w x us u files t) {S : Str} {own : Desc} {e : Nat} {m : Tree Die} {path : List Str}
    {homes : List (Tree Die)} (h : HomeOf w x us S own e m path homes) {direct traits : List (Bool × Str)} (hf : FunctionsOf w x S own m homes direct traits) :
    ∃ N, ∀ stack depth, N ≤ depth → ∃ b, binary w stack depth x = .ok b ∧
      ∀ (σ : Type) (L : Remote.Lldb σ) (other : Wire.Json → Str) (s : σ) (fr : Remote.Frame) (v : Str) (a : Nat) (text : Str),
      Remote.Live L s → Remote.Selected L s fr → (∃ ty, fr.find v = some (some ty)) → AsksMethods text (.var v) →
      ∀ rel line, StoppedIn w x us t fr.pc rel → LineAt files rel line → Local x files t fr v a e →
      rd L other b.program.backend s text = some (.text (page (methodsPage S (((direct ++ traits).filter (·.1)).map (·.2)))), s) := by
  obtain ⟨N, hN⟩ := variable_found hs.compiled h.described hs.unit hs.fn hs.types
  obtain ⟨M, hM⟩ := methods_found hs.compiled h hf
  obtain ⟨K, hK⟩ := Shown.types_at hs.wellFormed (C95_decodes _) h.described
  refine ⟨max N (max M K), fun stack depth hd => ?_⟩
  obtain ⟨b, hb, -, -, hv⟩ := hN stack depth (by omega)
  obtain ⟨fns, ix, b', hb', hwo, hix, -⟩ := world_of hs.compiled stack depth
  rw [hb] at hb'
  have e1 : b = b' := Res.ok.inj hb'
  subst e1
  refine ⟨b, hb, fun σ L other s fr v a text hlive hsel hfind ⟨sub, a1, as, hw, hex, hp⟩ rel line hstop hline hloc => ?_⟩
  have hroot := hv σ L s fr v a hlive hsel rel line hstop hline hloc
  obtain ⟨ms, hms, hlines, hsyn, -⟩ := hM depth (by omega) fns ix hix _ (.inl ⟨ty (typedef w.lib x) (fileDb x.units) depth, rfl⟩)
  have href := root_ref (hK depth (by omega)).2.1 hroot
  obtain ⟨ty, hfd⟩ := hfind
  have hto : Remote.talk L (b.program.toRef (.var v)) s = (.ok ⟨0, e, own.layout (Shown.ty (typedef w.lib x) (fileDb x.units) depth)⟩, s) := by
    show Remote.talk L ((Ask.toRef b.info (.var v)).run.bind fun p => .ok (Whole.located p.2)) s = _
    rw [Listing.talk_bind, Whole.C86_referenced, href]
    rfl
  have hmp : Discovery.methodsForPointer b.program.world ⟨0, e, own.layout (Shown.ty (typedef w.lib x) (fileDb x.units) depth)⟩ = .ok (ms.filter (·.selfType.isSome)) := by
    show Discovery.methodsForPointer b.world _ = _
    rw [hwo]
    simp only [Discovery.methodsForPointer, hms, Res.bind_ok]
  have := Listing.C84_methods_of_place L other b.program s text sub a1 as hw hex (.var v) hp ⟨hlive, fr, ty, hsel, hfd⟩ _ s hto _ hmp
  rw [this, page_found (fun m hm => hsyn m (List.mem_filter.1 hm).1), lines_self hlines]
  have hn : (own.layout (Shown.ty (typedef w.lib x) (fileDb x.units) depth)).displayName = S := by
    have := h.named
    cases own <;> first | exact this.elim | exact this
  simp only [hn, List.filter_append, List.filter_filter, Bool.and_self]

/-! ### By the name of the type -/

/-- The kinds of entries that are types. -/
def isTypeEntry (d : Die) : Bool := d.tag ∈ [Tag.structureType, .enumerationType, .arrayType, .pointerType, .baseType]

/-- The type at `e` is the one that the name `S` in the modules with the path `path` stands for: its entry is called `S`, which is written as a type, and the type entries before it in these modules are called differently. -/
structure FirstNamed (w : Libs) (us : List UnitOf) (path : List Str) (S : Str) (e : Nat) : Prop where
  split : ∃ id args, S = TypeNames.withArgs id args ∧ (∀ x ∈ path, ':' ∉ x ∧ '<' ∉ x) ∧ ':' ∉ id ∧ '<' ∉ id
  first : ∃ pre k post shown name, (modulesAt us path).flatMap Tree.kids = pre ++ k :: post ∧ k.die.off = e ∧ isTypeEntry k.die = true ∧ nameOf k.die = some S ∧
    TypeNames.Names w.lib.render (TypeNames.qualify path S) shown (.alias name) ∧
    ∀ q ∈ pre, isTypeEntry q.die = true → ∀ n, nameOf q.die = some n → ∃ p l, TypeNames.Names w.lib.render (TypeNames.qualify path n) p l ∧ l.displayName ≠ name

theorem typeTag_node (hc : Compiled w x us) {k : Tree Die} (hk : k ∈ nodes us) : TypeNames.isTypeTag (tag (fileDb x.units) k.die.off) = isTypeEntry k.die := by
  rw [tag_node hc hk, isTypeEntry]
  cases k.die.tag <;> rfl

theorem dieName_node (hc : Compiled w x us) {k : Tree Die} (hk : k ∈ nodes us) :
    dieName (fileDb x.units) k.die.off = match nameOf k.die with | some n => .ok n | none => .err := by
  have he : (fileDb x.units).entry k.die.off = some k.die := by rw [hc.units]; exact entry_node us hc.offsets k hk
  simp only [dieName, stringAttr, he, Die.stringAttr, nameOf]
  cases k.die.attr .name with
  | none => rfl
  | some v => cases v <;> rfl

theorem find_entries (hc : Compiled w x us) (t : TypeNames.TypeName) : ∀ ms : List (Tree Die), (∀ m ∈ ms, m ∈ nodes us) →
    TypeNames.findInEntries w.lib (fileDb x.units) t (ms.map Tree.die) = TypeNames.findInChildren w.lib (fileDb x.units) t ((ms.flatMap Tree.kids).map fun k => k.die.off)
  | [], _ => rfl
  | m :: ms, h => by
    have hch : (fileDb x.units).children m.die.off = .ok (m.kids.map fun k => k.die.off) := by
      rw [hc.units]; exact children_node us hc.offsets m (h m (List.mem_cons_self ..))
    have ih := find_entries hc t ms fun q hq => h q (List.mem_cons_of_mem _ hq)
    simp only [List.map_cons, TypeNames.findInEntries, hch, List.flatMap_cons, List.map_append]
    generalize m.kids.map (fun k => k.die.off) = cs
    induction cs with
    | nil => simp only [TypeNames.findInChildren, Res.bind_ok, ih, List.nil_append]
    | cons c cs ihc =>
      simp only [TypeNames.findInChildren, List.cons_append]
      split
      · cases dieName (fileDb x.units) c with
        | panic => rfl
        | err => exact ihc
        | ok n =>
          simp only
          cases TypeNames.TypeName.parse w.lib t.modulePath n with
          | panic => rfl
          | err => exact ihc
          | ok p =>
            simp only
            split
            · rfl
            · exact ihc
      · exact ihc

theorem find_first (hc : Compiled w x us) (hl : w.lib.LexesPlain) {path : List Str} {S shown name : Str} {k : Tree Die} {post : List (Tree Die)}
    (hS : TypeNames.Names w.lib.render (TypeNames.qualify path S) shown (.alias name)) (hk : isTypeEntry k.die = true) (hn : nameOf k.die = some S) (t : TypeNames.TypeName)
    (ht : t.modulePath = path) (hty : t.typedef = .alias name) : ∀ pre : List (Tree Die), (∀ q ∈ pre ++ k :: post, q ∈ nodes us) →
    (∀ q ∈ pre, isTypeEntry q.die = true → ∀ n, nameOf q.die = some n → ∃ p l, TypeNames.Names w.lib.render (TypeNames.qualify path n) p l ∧ l.displayName ≠ name) →
    TypeNames.findInChildren w.lib (fileDb x.units) t ((pre ++ k :: post).map fun k => k.die.off) = .ok (some k.die.off)
  | [], hno, _ => by
    have hkn : k ∈ nodes us := hno k (List.mem_cons_self ..)
    obtain ⟨ty, h1, h2, h3⟩ := TypeNames.parse_names w.lib hl hS
    simp only [List.nil_append, List.map_cons, TypeNames.findInChildren, typeTag_node hc hkn, hk, if_true, dieName_node hc hkn, hn]
    simp only [TypeNames.TypeName.parse, TypeNames.fullText_qualify, ht, h1, Res.bind_ok, h3, hty, Layout.matching, beq_self_eq_true, if_true]
  | q :: pre, hno, hpre => by
    have ih := find_first hc hl hS hk hn t ht hty pre (fun q hq => hno q (List.mem_cons_of_mem _ hq)) fun q hq => hpre q (List.mem_cons_of_mem _ hq)
    have hqn : q ∈ nodes us := hno q (List.mem_cons_self ..)
    simp only [List.cons_append, List.map_cons, TypeNames.findInChildren, typeTag_node hc hqn, dieName_node hc hqn]
    split
    · rename_i hq
      cases hqname : nameOf q.die with
      | none => exact ih
      | some n =>
        obtain ⟨p, l, h1, h2⟩ := hpre q (List.mem_cons_self ..) hq n hqname
        obtain ⟨ty, h3, h4, h5⟩ := TypeNames.parse_names w.lib hl h1
        have hm : (ty.layout w.lib.render).matching (.alias name) = false := by
          rw [h5]
          cases l <;> simp only [Layout.matching, beq_eq_false_iff_ne, ne_eq] <;> first | exact fun h => h2 h.symm | exact h2
        simp only [TypeNames.TypeName.parse, TypeNames.fullText_qualify, ht, h3, Res.bind_ok, hty, hm, Bool.false_eq_true, if_false]
        exact ih
    · exact ih

theorem lookup_found (hc : Compiled w x us) (hl : w.lib.LexesPlain) (hi : w.inWorkspace = true) {path : List Str} (hp : path ≠ []) {S : Str} {e : Nat} (h : FirstNamed w us path S e)
    {own : Desc} (ho : Is (typedef w.lib x) (fileDb x.units) e own) :
    ∃ N, ∀ depth, N ≤ depth → ∀ ix, moduleIndex x.units = .ok ix →
      lookup w depth x ix (TypeNames.qualify path S) = some ⟨0, e, own.layout (ty (typedef w.lib x) (fileDb x.units) depth)⟩ := by
  have hw : TypeRes.WellFormed (fileDb x.units) := by rw [hc.units]; exact C95_well_formed us hc.offsets hc.apart
  obtain ⟨N, hN⟩ := Shown.types_at hw (C95_decodes _) ho
  obtain ⟨id, args, hS, hcol, hid1, hid2⟩ := h.split
  obtain ⟨pre, k, post, shown, name, hkids, rfl, hkt, hkn, hnames, hpre⟩ := h.first
  have hsplit : TypeNames.splitName (TypeNames.qualify path S) = (path, S) := by rw [hS]; exact TypeNames.C61_split_where path id args hcol ⟨hid1, hid2⟩
  obtain ⟨tyn, h1, h2, h3⟩ := TypeNames.parse_names w.lib hl hnames
  refine ⟨N, fun depth hd ix hix => ?_⟩
  obtain ⟨ix', hix', hpath⟩ := C39_find_by_path us hc.file
  rw [hc.units] at hix
  rw [hix] at hix'
  have e1 : ix = ix' := Res.ok.inj hix'
  subst e1
  have hpa := hpath path hp
  rw [← modulesAt_dies] at hpa
  have hne : modulesAt us path ≠ [] := by
    intro h0
    rw [h0] at hkids
    simp at hkids
  have hfind : TypeNames.findTypeByName w.lib ix (fileDb x.units) ⟨path, (tyn.layout w.lib.render).displayName, TypeNames.fullText path S, tyn.layout w.lib.render⟩ = .ok (some k.die.off) := by
    simp only [TypeNames.findTypeByName]
    cases hfp : ix.findByPath path with
    | none =>
      rw [hfp] at hpa
      rw [if_neg (by simpa using hne)] at hpa
      cases hpa
    | some mm =>
      rw [hfp, if_neg (by simpa using hne)] at hpa
      simp only
      rw [Option.some.inj hpa, find_entries hc _ _ (modulesAt_nodes us path), hkids]
      refine find_first hc hl hnames hkt hkn _ rfl h3 pre (fun q hq => ?_) hpre
      rw [← hkids] at hq
      obtain ⟨m', hm', hq'⟩ := List.mem_flatMap.1 hq
      exact nodes_kids (modulesAt_nodes us path m' hm') hq'
  have : TypeNames.lookupTypeByName w.lib ⟨if w.inWorkspace then [0] else [], fun _ => fileDb x.units, fun _ => ix, fun _ => resolveType (typedef w.lib x) (fileDb x.units) depth⟩ (TypeNames.qualify path S) =
      .ok (some (full (typedef w.lib x) (fileDb x.units) depth k.die.off own)) := by
    simp only [TypeNames.lookupTypeByName, hsplit, TypeNames.TypeName.parse, TypeNames.fullText_qualify, h1, Res.bind_ok, hi, if_true, TypeNames.findInFiles]
    rw [TypeNames.fullText_qualify] at hfind
    simp only [hfind, Res.bind_ok, (hN depth hd).2.1]
  simp only [lookup, this]
  rfl

theorem lookup_of (hc : Compiled w x us) (stack depth : Nat) :
    ∃ fns ix b, binary w stack depth x = .ok b ∧ b.world = world w depth x fns ix ∧ b.lookup = lookup w depth x ix ∧ moduleIndex x.units = .ok ix := by
  obtain ⟨fns, hfns, -⟩ := C53_by_name (syms w x) 0 false us hc.functions
  obtain ⟨ix, hix, -⟩ := C39_entry_in_its_module us hc.file
  exact ⟨fns, ix, _, by simp only [binary, hc.units, hfns, hix, Res.bind_ok]; rfl, rfl, rfl, by rw [hc.units]; exact hix⟩

/-- C99: the user types `rd methods` and the name of one of the user's own types, with the path of its module. What is printed is a line for each function the executable has in the entries of the type in the modules of this path, and for each method - function
with a receiver of this type - in the `impl` blocks of its module; nothing changes in the process. -/
theorem C99_functions_of_type_partial (hc : Compiled w x us) (hl : w.lib.LexesPlain) (hi : w.inWorkspace = true) {S : Str} {own : Desc} {e : Nat} {m : Tree Die} {path : List Str}
    {homes : List (Tree Die)} (h : HomeOf w x us S own e m path homes) {direct traits : List (Bool × Str)} (hf : FunctionsOf w x S own m homes direct traits)
    {n : Str} (hn : FirstNamed w us path n e) :
    ∃ N, ∀ stack depth, N ≤ depth → ∃ b, binary w stack depth x = .ok b ∧
      ∀ (σ : Type) (L : Remote.Lldb σ) (other : Wire.Json → Str) (s : σ) (text sub a : Str) (as : List Str),
      Front.words text = sub :: a :: as → Front.expand sub = chars! "methods" →
      Listing.NamesType L s (Expr.joinWith (chars! " ") (a :: as)) (TypeNames.qualify path n) →
      rd L other b.program.backend s text = some (.text (page (methodsPage (TypeNames.qualify path n) ((direct ++ traits.filter (·.1)).map (·.2)))), s) := by
  obtain ⟨M, hM⟩ := methods_found hc h hf
  obtain ⟨K, hK⟩ := lookup_found hc hl hi h.nested hn h.described
  refine ⟨max M K, fun stack depth hd => ?_⟩
  obtain ⟨fns, ix, b, hb, hbw, hbl, hix⟩ := lookup_of hc stack depth
  refine ⟨b, hb, fun σ L other s text sub a as hw hs hnt => ?_⟩
  obtain ⟨ms, hms, hlines, hsyn, -⟩ := hM depth (by omega) fns ix hix _ (.inl ⟨ty (typedef w.lib x) (fileDb x.units) depth, rfl⟩)
  have hlk : b.program.lookup (TypeNames.qualify path n) = some ⟨0, e, own.layout (ty (typedef w.lib x) (fileDb x.units) depth)⟩ := by
    show b.lookup _ = _
    rw [hbl]
    exact hK depth (by omega) ix hix
  have hmt : Discovery.methodsForType b.program.world ⟨0, e, own.layout (ty (typedef w.lib x) (fileDb x.units) depth)⟩ = .ok ms := by
    show Discovery.methodsForType b.world _ = _
    rw [hbw]
    exact hms
  rw [Listing.C84_methods_of_type L other b.program s text sub a as hw hs _ hnt _ hlk ms hmt, page_found hsyn, lines_snd, hlines]

/-! ### Where the claim is false -/

/-- C99 is false of enumerations without data: none of their functions is listed, because only entries of structures are looked into. -/
theorem C99_enumeration_fails (hc : Compiled w x us) {S n : Str} {disc : DiscTy} {vs : List (Str × Int)} {size e : Nat} {m : Tree Die} {path : List Str} {homes : List (Tree Die)}
    (h : HomeOf w x us S (.cenum n disc vs size) e m path homes) {direct traits : List (Bool × Str)} (hf : FunctionsOf w x S (.cenum n disc vs size) m homes direct traits) :
    homes = [] ∧ direct = [] := by
  have key : ∀ {ks hs : List (Tree Die)}, OfType w x (.cenum n disc vs size) ks hs → (∀ k ∈ ks, k ∈ nodes us) → hs = [] := by
    intro ks hs h
    induction h with
    | nil => exact fun _ => rfl
    | different _ _ _ ih => exact fun hks => ih fun k hk => hks k (List.mem_cons_of_mem _ hk)
    | other _ _ ih => exact fun hks => ih fun k hk => hks k (List.mem_cons_of_mem _ hk)
    | @same k ks hs desc ht hI hs' _ ih =>
      intro hks
      exfalso
      have he := entry_node' hc.units hc.offsets (hks k (List.mem_cons_self ..))
      cases desc <;> first
        | exact hs'.elim
        | (obtain ⟨-, ⟨d, hd, hdt⟩, -⟩ := hI.1
           rw [he] at hd
           cases hd
           rw [ht] at hdt
           cases hdt)
  have h1 := key h.homes fun k hk => by
    obtain ⟨m', hm', hk'⟩ := List.mem_flatMap.1 hk
    exact nodes_kids (modulesAt_nodes us path m' hm') hk'
  subst h1
  refine ⟨rfl, ?_⟩
  have h2 := hf.direct
  simp only [List.flatMap_nil] at h2
  cases h2
  rfl

/-- C99 is false of functions that take the type as their first parameter but are no methods (`fn same(a: &S, b: &S) -> bool`): if the entry of the function does not name its parameters, as in declarations, the function is listed as a
method, with `self`. -/
theorem C99_unnamed_parameter_fails {S : Str} {own : Desc} {k p : Tree Die} {t : Nat} {rest : List (Tree Die)} {self : Bool} {line recv : Str}
    (h : FnLine w x S own k self line) (hp : FirstArg k.kids p t rest) (hn : nameOf p.die = none) (hr : Receiver (typedef w.lib x) (fileDb x.units) S own t recv) :
    self = true := by
  obtain ⟨args, tl, word, -, -, -, ⟨rfl, -⟩ | ⟨rfl, -, hno⟩⟩ := h
  · rfl
  · rcases hno p t rest hp with ⟨n, h1, -⟩ | h1
    · rw [hn] at h1; cases h1
    · exact absurd hr (h1 recv)

/-- C99 is false of methods that take `self: Box<Self>`, `Rc<Self>` or `Arc<Self>`: they are not listed for a variable, and listed as functions for the type. -/
theorem C99_boxed_self_fails {S : Str} {own : Desc} {k p : Tree Die} {t : Nat} {rest : List (Tree Die)} {self : Bool} {line : Str}
    (h : FnLine w x S own k self line) (hp : FirstArg k.kids p t rest) {kind : SmartPtr} {i j e : Nat} (hs : Is (typedef w.lib x) (fileDb x.units) t (.smart kind i j e)) :
    self = false := by
  obtain ⟨args, tl, word, -, -, -, ⟨rfl, p', t', rest', recv, more, hp', -, hr, -⟩ | ⟨rfl, -⟩⟩ := h
  · exfalso
    obtain ⟨pre, h1, h2, h3⟩ := hp
    obtain ⟨pre', h1', h2', h3'⟩ := hp'
    have : p' = p ∧ t' = t := by
      rw [h1] at h1'
      rcases List.append_eq_append_iff.1 h1' with ⟨as, e1, e2⟩ | ⟨as, e1, e2⟩
      · cases as with
        | nil =>
          simp only [List.nil_append, List.cons.injEq] at e2
          obtain ⟨rfl, -⟩ := e2
          exact ⟨rfl, by have h := h3.2; rw [h3'.2] at h; cases h; rfl⟩
        | cons a as =>
          simp only [List.cons_append, List.cons.injEq] at e2
          obtain ⟨rfl, -⟩ := e2
          exact absurd h3 (h2' _ (by rw [e1]; simp) _)
      · cases as with
        | nil =>
          simp only [List.nil_append, List.cons.injEq] at e2
          obtain ⟨rfl, -⟩ := e2
          exact ⟨rfl, by have h := h3.2; rw [h3'.2] at h; cases h; rfl⟩
        | cons a as =>
          simp only [List.cons_append, List.cons.injEq] at e2
          obtain ⟨rfl, -⟩ := e2
          exact absurd h3' (h2 _ (by rw [e1]; simp) _)
    obtain ⟨rfl, rfl⟩ := this
    obtain ⟨⟨t0, a0, b0, htd⟩, -⟩ := hs.1
    cases hr with
    | value hI hsk =>
      rename_i desc
      have hO : TypeRes.Ordinary (typedef w.lib x) t' := by
        have hI := hI.1
        cases own <;> cases desc <;> first | exact hsk.elim | exact hI.1
      simp [TypeRes.Ordinary, htd] at hO
    | ref hI =>
      obtain ⟨⟨i, h⟩, -⟩ := hI.1
      rw [htd] at h; cases h
    | refMut hI =>
      obtain ⟨⟨i, h⟩, -⟩ := hI.1
      rw [htd] at h; cases h
    | ptr hI =>
      obtain ⟨⟨i, h⟩, -⟩ := hI.1
      rw [htd] at h; cases h
  · rfl

end

/-! ### Examples -/

/-- A file with the module `m`: the structure `S` with the functions `get(&self) -> u8` and `new() -> S`, the structure `T`, the enumeration `K` with the function `id(self)`, the function `run` with the variable `x: S`, and an `impl` block with
`step(&mut self, n: u8)`. -/
def bookFile : List UnitOf :=
  [(.node { off := 10, tag := .compileUnit, attrs := [(.language, .lang true)], unitLength := 200 } true false
      [.node { off := 20, tag := .namespace, attrs := [(.name, .str (chars! "m"))] } true true
        [.node { off := 26, tag := .structureType, attrs := [(.name, .str (chars! "T")), (.byteSize, .data 1), (.alignment, .data 1)] } true true
          [.node { off := 27, tag := .member, attrs := [(.name, .str (chars! "s")), (.dataMemberLocation, .data 0), (.type, .ref 30)] } false false []],
         .node { off := 30, tag := .structureType, attrs := [(.name, .str (chars! "S")), (.byteSize, .data 1), (.alignment, .data 1)] } true true
          [.node { off := 31, tag := .member, attrs := [(.name, .str (chars! "a")), (.dataMemberLocation, .data 0), (.type, .ref 60)] } false true [],
           .node { off := 32, tag := .subprogram, attrs := [(.name, .str (chars! "get")), (.linkageName, .str (chars! "m::S::get")), (.type, .ref 60)] } true true
            [.node { off := 33, tag := .formalParameter, attrs := [(.name, .str (chars! "self")), (.type, .ref 61)] } false false []],
           .node { off := 34, tag := .subprogram, attrs := [(.name, .str (chars! "new")), (.linkageName, .str (chars! "m::S::new")), (.type, .ref 30)] } false false []],
         .node { off := 36, tag := .enumerationType, attrs := [(.name, .str (chars! "K")), (.byteSize, .data 1), (.type, .ref 60)] } true true
          [.node { off := 37, tag := .enumerator, attrs := [(.name, .str (chars! "A")), (.constValue, .data 0)] } false true [],
           .node { off := 38, tag := .subprogram, attrs := [(.name, .str (chars! "id")), (.linkageName, .str (chars! "m::K::id"))] } true true
            [.node { off := 39, tag := .formalParameter, attrs := [(.name, .str (chars! "self")), (.type, .ref 36)] } false false []]],
         .node { off := 40, tag := .subprogram, attrs := [(.name, .str (chars! "run")), (.linkageName, .str (chars! "m::run"))], range := some (16, 48) } true true
          [.node { off := 41, tag := .variable, attrs := [(.name, .str (chars! "x")), (.type, .ref 30)] } false true [],
           .node { off := 42, tag := .variable, attrs := [(.name, .str (chars! "y")), (.type, .ref 26)] } false false []],
         .node { off := 45, tag := .namespace, attrs := [(.name, .str (chars! "{impl#0}"))] } true true
          [.node { off := 46, tag := .subprogram, attrs := [(.name, .str (chars! "step")), (.linkageName, .str (chars! "m::step"))] } true true
            [.node { off := 47, tag := .formalParameter, attrs := [(.name, .str (chars! "self")), (.type, .ref 62)] } false false [],
             .node { off := 48, tag := .formalParameter, attrs := [(.name, .str (chars! "n")), (.type, .ref 60)] } false false []]]],
       .node { off := 60, tag := .baseType, attrs := [(.name, .str (chars! "u8")), (.byteSize, .data 1)] } false true [],
       .node { off := 61, tag := .pointerType, attrs := [(.name, .str (chars! "&m::S")), (.type, .ref 30)] } false true [],
       .node { off := 62, tag := .pointerType, attrs := [(.name, .str (chars! "&mut m::S")), (.type, .ref 30)] } false true []], 2)]

/-- An executable with this file: `x` is at 100 and `y` at 102, if the first register holds 1; there is code for `get`, `step` and `run`. -/
def bookImage : Executable where
  symbols := [⟨chars! "m::S::get", 4000, true, 32⟩, ⟨chars! "m::run", 4088, true, 32⟩, ⟨chars! "m::step", 4200, true, 32⟩]
  units := bookFile.map encUnit
  files := [shopLines]
  loc := fun d => if d.off = 41 then some (Vars.fbreg 99) else if d.off = 42 then some (Vars.fbreg 101) else none
  frameBase := fun _ => some (Vars.inReg 0)

/-- The unit, the module, `S`, `run` and the entries of `x` and `y`. -/
def bookUnit : UnitOf := bookFile.head (by simp [bookFile])
/-- See `bookUnit`. -/
def bookMod : Tree Die := bookUnit.1.kids.head (by simp [bookUnit, bookFile, Tree.kids])
/-- See `bookUnit`. -/
def bookS : Tree Die := bookMod.kids[1]'(by decide)
/-- See `bookUnit`. -/
def bookRun : Tree Die := bookMod.kids[3]'(by decide)
/-- See `bookUnit`. -/
def bookX : Die := { off := 41, tag := .variable, attrs := [(.name, .str (chars! "x")), (.type, .ref 30)] }
/-- See `bookUnit`. -/
def bookY : Die := { off := 42, tag := .variable, attrs := [(.name, .str (chars! "y")), (.type, .ref 26)] }

theorem bookFile_ok : FileOk bookFile := by
  refine ⟨by decide, ?_, by decide⟩
  intro u hu _
  simp only [bookFile, List.mem_cons, List.not_mem_nil, or_false] at hu
  subst hu
  refine ⟨rfl, by decide, by decide, ?_⟩
  intro d hd ht
  have : Modules.nameOf d ≠ [] := (by decide : ∀ d ∈ bookUnit.1.entries, d.tag = .namespace → Modules.nameOf d ≠ []) d hd ht
  simp only [Modules.nameOf] at this
  split at this
  · exact ⟨_, by assumption⟩
  · exact absurd rfl this

theorem book_function {d : Die} {l : Str} {lo hi : Nat} (h : Function bookFile d l) (hr : d.range = some (lo, hi)) : d = bookRun.die := by
  obtain ⟨h1, h2, -⟩ := h
  exact (by decide : ∀ d ∈ candidates bookFile, d.range.isSome → d = bookRun.die) d h1 (by rw [hr]; rfl)

theorem book_compiled : Compiled toolLibs bookImage bookFile where
  units := rfl
  file := bookFile_ok
  offsets := by unfold Offsets; decide
  apart := ⟨by decide, fun p hp ht => absurd ht ((by decide : ∀ p ∈ nodes bookFile, p.die.tag ≠ .variantPart) p hp)⟩
  functions := by
    refine ⟨by decide, ?_, ?_, ?_⟩
    · intro u hu
      simp only [bookFile, List.mem_cons, List.not_mem_nil, or_false] at hu
      subst hu
      exact ⟨true, rfl⟩
    · have : ∀ d ∈ candidates bookFile, d.tag = .subprogram → (match d.attr .linkageName with | some (.str _) => true | _ => false) = true := by decide
      intro d hd ht
      have := this d hd ht
      split at this
      · exact .inr ⟨_, by assumption⟩
      · cases this
    · intro d hd s hs lo hi hr
      obtain ⟨l, hf, e, he, n, hl, -, rfl⟩ := linked_iff _ _ _ _ _ hd hs
      cases book_function hf hr
      cases hr
      have ha : e.address ≤ 5000 := (by decide : ∀ e ∈ bookImage.symbols, e.address ≤ 5000) e he
      refine ⟨by simp, ?_⟩
      simp only [u64Max1]
      omega
  tokenizes := plainLib_tokenizes false
  sorts := Address.built_new

theorem book_stopped : StoppedIn toolLibs bookImage bookFile bookRun 4096 24 where
  found := ⟨chars! "m::run", ⟨chars! "run", [], [chars! "m"], chars! "m::run"⟩, 4088, 16, 48, ⟨by decide, rfl, rfl⟩,
    ⟨⟨⟨chars! "m::run", 4088, true, 32⟩, List.mem_of_getElem? (i := 1) rfl, rfl, rfl⟩, by decide, by with_unfolding_all decide⟩, rfl, by omega, rfl, by omega, by
      intro d l' hf hd
      obtain ⟨h1, h2, h3⟩ := hf
      refine (by with_unfolding_all decide : ∀ d ∈ candidates bookFile, linkOf d = some ⟨chars! "run", [], [chars! "m"], chars! "m::run"⟩ → d = bookRun.die) d h1 ?_
      simp only [linkOf, h3]
      exact hd⟩
  alone := fun _ _ _ _ _ h _ _ _ hr _ _ => book_function h hr

/-- The types of the file. -/
theorem book_named (d : Die) (path : List Str) (hd : InModule bookFile d path) (n shown : Str) (l : Layout) (hn : d.attr .name = some (.str n))
    (hs : TypeNames.Names toolLibs.lib.render (TypeNames.qualify path n) shown l) : typedef toolLibs.lib bookImage d.off = some l := by
  have h := C96_types book_compiled d.off
  exact Res.ok.inj (h.symm.trans (C95_named (TypeNames.plainLib false) (TypeNames.plainLib_lexes false) _ bookFile_ok book_compiled.offsets d path hd n shown l hn hs))

theorem book_own (id : Str) (hp : TypeNames.PathOk [chars! "m"] id) : TypeNames.Names toolLibs.lib.render (TypeNames.qualify [chars! "m"] id) (chars! "m::" ++ id) (.alias id) := by
  refine .path _ _ _ (.other [chars! "m"] id [] [] [] hp (by simp) (by intro h; cases h) ?_ .nil)
  rintro (h | ⟨r, rs, h, hr⟩)
  · cases h
  · cases h; exact absurd hr (by decide)

theorem book_name_S : TypeNames.Names toolLibs.lib.render (TypeNames.qualify [chars! "m"] (chars! "S")) (chars! "m::S") (.alias (chars! "S")) :=
  book_own (chars! "S") ⟨by simp [TypeNames.IsIdent]; decide, by simp [TypeNames.IsIdent]; decide, by decide⟩

theorem book_name_T : TypeNames.Names toolLibs.lib.render (TypeNames.qualify [chars! "m"] (chars! "T")) (chars! "m::T") (.alias (chars! "T")) :=
  book_own (chars! "T") ⟨by simp [TypeNames.IsIdent]; decide, by simp [TypeNames.IsIdent]; decide, by decide⟩

theorem book_name_K : TypeNames.Names toolLibs.lib.render (TypeNames.qualify [chars! "m"] (chars! "K")) (chars! "m::K") (.alias (chars! "K")) :=
  book_own (chars! "K") ⟨by simp [TypeNames.IsIdent]; decide, by simp [TypeNames.IsIdent]; decide, by decide⟩

theorem book_types : typedef toolLibs.lib bookImage 26 = some (.alias (chars! "T")) ∧ typedef toolLibs.lib bookImage 30 = some (.alias (chars! "S")) ∧
    typedef toolLibs.lib bookImage 36 = some (.alias (chars! "K")) ∧ typedef toolLibs.lib bookImage 60 = some (.uint 1) ∧
    (∃ i, typedef toolLibs.lib bookImage 61 = some (.reference false i)) ∧ ∃ i, typedef toolLibs.lib bookImage 62 = some (.reference true i) := by
  refine ⟨?_, ?_, ?_, ?_, ?_, ?_⟩
  · exact book_named { off := 26, tag := .structureType, attrs := [(.name, .str (chars! "T")), (.byteSize, .data 1), (.alignment, .data 1)] } [chars! "m"]
      ⟨_, List.mem_cons_self .., rfl, by decide⟩ _ _ _ rfl book_name_T
  · exact book_named { off := 30, tag := .structureType, attrs := [(.name, .str (chars! "S")), (.byteSize, .data 1), (.alignment, .data 1)] } [chars! "m"]
      ⟨_, List.mem_cons_self .., rfl, by decide⟩ _ _ _ rfl book_name_S
  · exact book_named { off := 36, tag := .enumerationType, attrs := [(.name, .str (chars! "K")), (.byteSize, .data 1), (.type, .ref 60)] } [chars! "m"]
      ⟨_, List.mem_cons_self .., rfl, by decide⟩ _ _ _ rfl book_name_K
  · exact book_named { off := 60, tag := .baseType, attrs := [(.name, .str (chars! "u8")), (.byteSize, .data 1)] } []
      ⟨_, List.mem_cons_self .., rfl, by decide⟩ _ _ _ rfl (TypeNames.names_u8 _)
  · exact ⟨_, book_named { off := 61, tag := .pointerType, attrs := [(.name, .str (chars! "&m::S")), (.type, .ref 30)] } []
      ⟨_, List.mem_cons_self .., rfl, by decide⟩ _ _ _ rfl (.ref _ _ _ book_name_S (by simp) (by simp))⟩
  · exact ⟨_, book_named { off := 62, tag := .pointerType, attrs := [(.name, .str (chars! "&mut m::S")), (.type, .ref 30)] } []
      ⟨_, List.mem_cons_self .., rfl, by decide⟩ _ _ _ rfl (.refMut _ _ _ book_name_S)⟩

theorem book_u8 : Is (typedef toolLibs.lib bookImage) (fileDb bookImage.units) 60 (.plain (.uint 1)) :=
  ⟨⟨book_types.2.2.2.1, by simp [Shown.Plain]⟩, by simp [Shown.Desc.parts]⟩

theorem book_u8_known : Known (typedef toolLibs.lib bookImage) (fileDb bookImage.units) 60 :=
  .built (by simp [TypeRes.Ordinary, book_types.2.2.2.1]) book_u8.1 book_u8.2

theorem book_S : Is (typedef toolLibs.lib bookImage) (fileDb bookImage.units) 30 (.struct (chars! "S") 1 1 [(chars! "a", 0, 60)]) := by
  refine ⟨⟨?_, ⟨_, rfl, rfl⟩, ⟨_, rfl, rfl⟩, ⟨_, rfl, rfl⟩, ⟨_, rfl, rfl⟩, [31, 32, 34], rfl, ?_, ?_⟩, ?_⟩
  · simp [TypeRes.Ordinary, book_types.2.1]
  · intro c hc
    rintro ⟨d, h1, h2⟩
    exact absurd h2 (by
      have : ∀ c ∈ [31, 32, 34], ((fileDb bookImage.units).entry c).map Die.tag ≠ some .variantPart := by decide
      have := this c hc
      rw [h1] at this
      simpa using this)
  · rw [show [31, 32, 34].filter (fun c => decide (tag (fileDb bookImage.units) c = some .member)) = [31] from by decide]
    exact .cons ⟨⟨_, rfl, rfl⟩, ⟨_, rfl, rfl⟩, ⟨_, rfl, rfl⟩⟩ .nil
  · simpa only [Shown.Desc.parts, List.map_cons, List.map_nil, List.mem_singleton, forall_eq] using book_u8_known

theorem book_T : Is (typedef toolLibs.lib bookImage) (fileDb bookImage.units) 26 (.struct (chars! "T") 1 1 [(chars! "s", 0, 30)]) := by
  refine ⟨⟨by simp [TypeRes.Ordinary, book_types.1], ⟨_, rfl, rfl⟩, ⟨_, rfl, rfl⟩, ⟨_, rfl, rfl⟩, ⟨_, rfl, rfl⟩, [27], rfl, ?_, ?_⟩, ?_⟩
  · intro c hc
    rintro ⟨d, h1, h2⟩
    exact absurd h2 (by
      have : ∀ c ∈ [27], ((fileDb bookImage.units).entry c).map Die.tag ≠ some .variantPart := by decide
      have := this c hc
      rw [h1] at this
      simpa using this)
  · rw [show [27].filter (fun c => decide (tag (fileDb bookImage.units) c = some .member)) = [27] from by decide]
    exact .cons ⟨⟨_, rfl, rfl⟩, ⟨_, rfl, rfl⟩, ⟨_, rfl, rfl⟩⟩ .nil
  · simpa only [Shown.Desc.parts, List.map_cons, List.map_nil, List.mem_singleton, forall_eq] using Known.user book_S.1.1

theorem book_K : Is (typedef toolLibs.lib bookImage) (fileDb bookImage.units) 36 (.cenum (chars! "K") (.uint 1) [(chars! "A", 0)] 1) := by
  refine ⟨⟨by simp [TypeRes.Ordinary, book_types.2.2.1], ⟨_, rfl, rfl⟩, ⟨_, rfl, rfl⟩, ⟨_, rfl, rfl⟩, ⟨60, _, ⟨_, rfl, rfl⟩, book_types.2.2.2.1, .inr ⟨1, rfl, rfl⟩⟩, [37, 38], rfl, ?_⟩,
    by simp [Shown.Desc.parts]⟩
  refine .take ⟨⟨_, rfl, rfl⟩, .inl ⟨0, ⟨_, rfl, rfl⟩, rfl⟩⟩ (.skip ?_ .nil)
  rintro v ⟨-, h⟩
  rcases h with ⟨n, ⟨d, h1, h2⟩, -⟩ | ⟨d, h1, h2⟩
  · cases h1
    exact absurd h2 (by simp [Die.attr])
  · cases h1
    exact absurd h2 (by simp [Die.attr])

theorem book_ref : Is (typedef toolLibs.lib bookImage) (fileDb bookImage.units) 61 (.reference false 30) ∧
    Is (typedef toolLibs.lib bookImage) (fileDb bookImage.units) 62 (.reference true 30) := by
  have hk : Known (typedef toolLibs.lib bookImage) (fileDb bookImage.units) 30 := .user (by simp [TypeRes.Ordinary, book_types.2.1])
  exact ⟨⟨⟨book_types.2.2.2.2.1, ⟨_, rfl, rfl⟩⟩, by simpa [Shown.Desc.parts] using hk⟩, ⟨book_types.2.2.2.2.2, ⟨_, rfl, rfl⟩⟩, by simpa [Shown.Desc.parts] using hk⟩

theorem book_u8_called : TypeCalled toolLibs bookImage 60 (chars! "u8") :=
  ⟨⟨_, book_u8⟩, .known (t := .prim (chars! "u8")) (.plain book_u8.1 (.prim (by simp [TypeText.fixedTable]))) trivial (by simp [TypeRes.Ordinary, book_types.2.2.2.1])⟩

theorem book_S_called : TypeCalled toolLibs bookImage 30 (chars! "S") := ⟨⟨_, book_S⟩, .struct book_S⟩

theorem book_code (n : Str) (q : SymbolName) (hq : demangle some n = some q) (h : ∃ e ∈ bookImage.symbols, e.raw = n ∧ e.isText = true) {d : Die} (hd : d.attr .linkageName = some (.str n)) :
    HasCode toolLibs bookImage d := by
  obtain ⟨e, he, rfl, ht⟩ := h
  exact ⟨_, q, e, q, hd, hq, he, ht, hq, by simp [SameName]⟩

theorem book_no_code {d : Die} (h : ∀ e ∈ bookImage.symbols, (demangle some e.raw).map (·.lookupName) ≠ (linkOf d).map (·.lookupName)) : ¬ HasCode toolLibs bookImage d := by
  rintro ⟨l, n, e, n', h1, h2, h3, -, h4, h5⟩
  refine h e h3 ?_
  have h4 : demangle some e.raw = some n' := h4
  have h2 : demangle some l = some n := h2
  simp only [linkOf, h1, h2, h4, Option.map_some, h5.1]

/-- What the entries say about `S`. -/
theorem book_home : HomeOf toolLibs bookImage bookFile (chars! "S") (.struct (chars! "S") 1 1 [(chars! "a", 0, 60)]) 30 bookMod [chars! "m"] [bookS] where
  named := rfl
  known := by decide
  described := book_S
  unit := ⟨bookUnit, List.mem_cons_self .., rfl, .sub .root (List.mem_cons_self ..) rfl, bookS, List.mem_of_getElem? (i := 1) rfl, rfl, by decide,
    { off := 60, tag := .baseType, attrs := [(.name, .str (chars! "u8")), (.byteSize, .data 1)] }, by decide, by decide, by decide⟩
  nested := by decide
  homes := .different book_T (by simp [SameKind]) (.same rfl book_S rfl (.other (by decide) (.other (by decide) (.other (by decide) .nil))))

theorem book_functions : FunctionsOf toolLibs bookImage (chars! "S") (.struct (chars! "S") 1 1 [(chars! "a", 0, 60)]) bookMod [bookS]
    [(true, chars! "  - fn get(&self) -> u8 (callable)"), (false, chars! "  - fn new() -> S (not callable)")] [(true, chars! "  - fn step(&mut self, n: u8) (callable)")] where
  direct := by
    have hr : Reaches (typedef toolLibs.lib bookImage) (fileDb bookImage.units) (chars! "S") 30 := .own book_S.1.1 ⟨_, rfl, rfl⟩
    refine .other (by decide) (.fn rfl ⟨[chars! "&self"], chars! " -> u8", _, .some rfl book_u8_called (by decide), .inl ⟨?_, rfl⟩, rfl, .inl ⟨rfl, _, 61, [], _, [], ⟨[], rfl, by simp, rfl, rfl⟩,
      .inl rfl, .ref book_ref.1 hr, .nil, rfl⟩⟩ (.fn rfl ⟨[], chars! " -> S", _, .some rfl book_S_called (by decide), .inr ⟨?_, rfl⟩, rfl, .inr ⟨rfl, .nil, ?_⟩⟩ .nil))
    · exact book_code (chars! "m::S::get") _ (by with_unfolding_all rfl) ⟨_, List.mem_cons_self .., rfl, rfl⟩ rfl
    · exact book_no_code (by with_unfolding_all decide)
    · rintro p t rest ⟨pre, h, -⟩
      cases pre <;> cases h
  traits := by
    have hr : Reaches (typedef toolLibs.lib bookImage) (fileDb bookImage.units) (chars! "S") 30 := .own book_S.1.1 ⟨_, rfl, rfl⟩
    refine .fn rfl ⟨[chars! "&mut self", chars! "n: u8"], [], _, .none (by rintro t h; cases h), .inl ⟨?_, rfl⟩, rfl, .inl ⟨rfl, _, 62, _, _, [chars! "n: u8"], ⟨[], rfl, by simp, rfl, rfl⟩,
      .inl rfl, .refMut book_ref.2 hr, .arg ⟨rfl, rfl⟩ book_u8_called .nil, rfl⟩⟩ .nil
    exact book_code (chars! "m::step") _ (by with_unfolding_all rfl) ⟨_, List.mem_of_getElem? (i := 2) rfl, rfl, rfl⟩ rfl

theorem book_var {d : Die} (h : Declared.VariableEntry bookRun d) : d = bookX ∨ d = bookY := by
  obtain ⟨h1, h2⟩ := h
  have he : reach Vars.opened bookRun = [bookRun.die, bookX, bookY] := by decide
  rw [he] at h1
  rcases List.mem_cons.1 h1 with rfl | h1
  · rcases h2 with h2 | h2 <;> cases h2
  · simpa using h1

theorem book_x {d : Die} (h : Declared.VariableEntry bookRun d) (hn : d.attr .name = some (.str (chars! "x"))) : d = bookX := by
  rcases book_var h with rfl | rfl
  · rfl
  · cases hn

theorem book_y {d : Die} (h : Declared.VariableEntry bookRun d) (hn : d.attr .name = some (.str (chars! "y"))) : d = bookY := by
  rcases book_var h with rfl | rfl
  · cases hn
  · rfl

theorem book_stops : Stops toolLibs bookImage bookFile bookUnit shopLines bookRun where
  compiled := book_compiled
  unit := List.mem_cons_self ..
  fn := List.mem_of_getElem? (i := 13) rfl
  types := by
    intro d ty hd hty
    rcases book_var hd with rfl | rfl
    · cases hty
      exact .user book_S.1.1
    · cases hty
      exact .user book_T.1.1

set_option maxRecDepth 8000 in
/-- `C99_methods_of_variable_partial` at work: the user types `rd methods x`. -/
example (other : Wire.Json → Str) (s : Remote.Toy) : ∃ N b, binary toolLibs N N bookImage = .ok b ∧
    rd Remote.toy other b.program.backend s (chars! "methods x") =
      some (.text (chars! "Methods for S:\n  - fn get(&self) -> u8 (callable)\n  - fn step(&mut self, n: u8) (callable)\n"), s) := by
  obtain ⟨hlive, -⟩ := Remote.toy_ok
  obtain ⟨N, hN⟩ := C99_methods_of_variable_partial book_stops book_home book_functions
  obtain ⟨b, hb, h⟩ := hN N N (Nat.le_refl _)
  obtain ⟨f, hf, hpc, hreg, hx⟩ : ∃ f, Remote.Selected Remote.toy s f ∧ f.pc = 4096 ∧ Calls.readRegisterByIndex f.registers 0 = some 1 ∧ f.find (chars! "x") = some (some (chars! "u8")) :=
    ⟨_, ⟨⟨_, rfl, rfl⟩, by decide, by decide, by decide⟩, rfl, by decide, rfl⟩
  refine ⟨N, b, hb, h _ Remote.toy other s f (chars! "x") 100 _ (hlive s) hf ⟨_, hx⟩ ⟨chars! "methods", chars! "x", [], rfl, rfl, by with_unfolding_all rfl⟩ 24 5
    (by rw [hpc]; exact book_stopped) shop_line ⟨bookX, 0, 99, 1, ⟨by decide, .inr rfl⟩, rfl, fun d hd hn => book_x hd hn, rfl, ⟨none, ?_⟩, rfl, hreg, rfl, by decide⟩⟩
  exact (Declared.C94_position _ _ _ _).1 (by decide : Declared.position shopLines (fileDb bookImage.units) 41 = Res.ok none)

set_option maxRecDepth 8000 in
/-- `C99_functions_of_type_partial` at work: the user types `rd methods m::S`. -/
example (other : Wire.Json → Str) (s : Remote.Toy) : ∃ N b, binary toolLibs N N bookImage = .ok b ∧
    rd Remote.toy other b.program.backend s (chars! "methods m::S") =
      some (.text (chars! "Methods for m::S:\n  - fn get(&self) -> u8 (callable)\n  - fn new() -> S (not callable)\n  - fn step(&mut self, n: u8) (callable)\n"), s) := by
  have hn : FirstNamed toolLibs bookFile [chars! "m"] (chars! "S") 30 := by
    refine ⟨⟨chars! "S", [], rfl, by decide, by decide, by decide⟩, ⟨[_], bookS, _, _, _, rfl, rfl, rfl, rfl, book_name_S, ?_⟩⟩
    intro q hq _ n hn
    cases List.mem_singleton.1 hq
    cases hn
    exact ⟨_, _, book_name_T, by decide⟩
  obtain ⟨N, hN⟩ := C99_functions_of_type_partial book_compiled (TypeNames.plainLib_lexes false) rfl book_home book_functions hn
  obtain ⟨b, hb, h⟩ := hN N N (Nat.le_refl _)
  exact ⟨N, b, hb, h _ Remote.toy other s _ (chars! "methods") (chars! "m::S") [] rfl rfl
    (Or.inl ⟨[chars! "m", chars! "S"], by with_unfolding_all rfl, by with_unfolding_all rfl⟩)⟩

/-- The enumeration `K`: its function is not listed. -/
example : ∃ hs, HomeOf toolLibs bookImage bookFile (chars! "K") (.cenum (chars! "K") (.uint 1) [(chars! "A", 0)] 1) 36 bookMod [chars! "m"] hs :=
  ⟨_, { named := rfl
        known := by decide
        described := book_K
        unit := ⟨bookUnit, List.mem_cons_self .., rfl, .sub .root (List.mem_cons_self ..) rfl, _, List.mem_of_getElem? (i := 2) rfl, rfl, by decide,
          { off := 60, tag := .baseType, attrs := [(.name, .str (chars! "u8")), (.byteSize, .data 1)] }, by decide, by decide, by decide⟩
        nested := by decide
        homes := .different book_T (by simp [SameKind]) (.different book_S (by simp [SameKind]) (.other (by decide) (.other (by decide) (.other (by decide) .nil)))) }⟩

end Rudy.Image
