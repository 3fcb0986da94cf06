import Verif.Props.ImageParts
import Verif.Props.Report
/-
C103: from the executable to the account of all of its functions, and to the list of all methods.
-/
namespace Rudy.Image
open Rudy Rudy.Walker Rudy.Dwarf Rudy.Parse Rudy.Layout Rudy.Symbols Rudy.FnIndex Rudy.Entries Rudy.Modules
open Rudy.TypeRes (resolveType shallow WellFormed Decodes Ordinary)
open Rudy.Discovery (InForce commaSep Analysis report allMethods Method IsArgument Declaration Receives)
open Rudy.Shown (Called Is Desc)
open Rudy.Declared (DeclaredAt)

/-! ### Vocabulary -/

/-- The file and line the entry says it is declared at, if it says both, are in the tables of its unit. -/
def Placed (x : Executable) (us : List UnitOf) (k : Tree Die) : Prop :=
  ∀ u files, (u, files) ∈ us.zip x.files → k ∈ subtrees u.1 → ∃ p, DeclaredAt files (fileDb x.units) k.die.off p

/-- The parameters among the entries directly inside a function: their names, if they have any, their types, and what these are called. -/
inductive Written (called : Nat → Str → Prop) (placed : Tree Die → Prop) : List (Tree Die) → List (Option Str × Nat × Str) → Prop
  | nil : Written called placed [] []
  | arg {ty : Nat} {k : Tree Die} {ks : List (Tree Die)} {text : Str} {args : List (Option Str × Nat × Str)} : k.die.tag = .formalParameter →
      k.die.attr .type = some (.ref ty) → placed k → called ty text → Written called placed ks args →
      Written called placed (k :: ks) ((nameOf k.die, ty, text) :: args)
  | other {k : Tree Die} {ks : List (Tree Die)} {args : List (Option Str × Nat × Str)} : k.die.tag ≠ .formalParameter → Written called placed ks args →
      Written called placed (k :: ks) args

/-- The result of a function: none, or of the type with this name. -/
inductive Returning (called : Nat → Str → Prop) (d : Die) : Option Str → Prop
  | none : (∀ ty, d.attr .type ≠ some (.ref ty)) → Returning called d none
  | some {ty : Nat} {text : Str} : d.attr .type = some (.ref ty) → called ty text → Returning called d (some text)

/-- The declaration of a function: its name, parameters and result. -/
structure Reads (w : Libs) (x : Executable) (us : List UnitOf) (t : Tree Die) (name : Str) (args : List (Option Str × Nat × Str)) (ret : Option Str) : Prop where
  name : t.die.attr .name = some (.str name)
  args : Written (TypeCalled w x) (Placed x us) t.kids args
  ret : Returning (TypeCalled w x) t.die ret

/-- It has no declaration that can be read: no name, or a parameter without type, or one declared in a file that is not in the table. -/
def Garbled (x : Executable) (us : List UnitOf) (t : Tree Die) : Prop :=
  (∀ n, t.die.attr .name ≠ some (.str n)) ∨
  ∃ k ∈ t.kids, k.die.tag = .formalParameter ∧ ((∀ ty, k.die.attr .type ≠ some (.ref ty)) ∨ ¬ Placed x us k)

/-- How a parameter or result is told: by the name of its type. -/
def Tells (a : Option Str × Nat × Str) (p : Option Str × TypeDef) : Prop := p.1 = a.1 ∧ p.2.displayName = a.2.2

/-- What the account should say about the function `n` of the executable. -/
inductive Accounts (w : Libs) (x : Executable) (us : List UnitOf) (n : SymbolName) : Analysis → Prop
  | outside : w.inWorkspace = false → Accounts w x us n (.unindexedFile 0)
  | noEntry : w.inWorkspace = true → (∀ d, ¬ EntryOf w x us n d) → Accounts w x us n .noDebugInfo
  | garbled {t : Tree Die} : w.inWorkspace = true → t ∈ nodes us → EntryOf w x us n t.die → Garbled x us t → Accounts w x us n .analysisError
  | read {t : Tree Die} {args : List (Option Str × Nat × Str)} {ret : Option Str} {sig : Discovery.Sig} : w.inWorkspace = true → t ∈ nodes us → EntryOf w x us n t.die →
      Reads w x us t sig.name args ret → List.Forall₂ Tells args sig.params → sig.ret.map TypeDef.displayName = ret →
      (sig.self.isSome = true ↔ ∃ nm, (args.head?.bind (·.1)) = some nm ∧ nm ∈ [chars! "self", chars! "&self", chars! "&mut self"]) →
      Accounts w x us n (.discovered sig)

/-- The type at `e'` is that at `e` without the references and pointers around it. -/
inductive Behind (typedef : Nat → Option Layout) (db : Db) : Nat → Nat → Prop
  | self {e : Nat} {desc : Desc} : Is typedef db e desc → (∀ m t, desc ≠ .reference m t ∧ desc ≠ .pointer m t) → Behind typedef db e e
  | ref {e t e' : Nat} {m : Bool} : Is typedef db e (.reference m t) ∨ Is typedef db e (.pointer m t) → Behind typedef db t e' → Behind typedef db e e'

/-- How a parameter is written. -/
def argText (a : Option Str × Nat × Str) : Str := (match a.1 with | some n => n | none => chars! "_") ++ chars! ": " ++ a.2.2

/-- The method `m` is the function `n` with the code at `a`, told as declared: the type of its first parameter, without references, is called `k`. -/
def ListedAs (w : Libs) (x : Executable) (us : List UnitOf) (k : Str) (n : SymbolName) (a : Nat) (m : Method) : Prop :=
  ∃ t ∈ nodes us, EntryOf w x us n t.die ∧ ∃ (arg : Option Str × Nat × Str) (args : List (Option Str × Nat × Str)) (ret : Option Str) (e' : Nat),
    Reads w x us t m.name (arg :: args) ret ∧ Behind (typedef w.lib x) (fileDb x.units) arg.2.1 e' ∧ TypeCalled w x e' k ∧
    m.fullName = n.display ∧ m.address = a ∧ m.callable = true ∧ m.synthetic = false ∧ List.Forall₂ Tells args m.params ∧ m.ret.map TypeDef.displayName = ret ∧
    m.signature = chars! "fn(" ++ commaSep ((arg :: args).map argText) ++ chars! ")" ++ (match ret with | some r => chars! " -> " ++ r | none => []) ∧
    (m.selfType.isSome = true ↔ arg.1 = some (chars! "self") ∨ arg.1 = some (chars! "&self") ∨ arg.1 = some (chars! "&mut self"))

/-! ### Proofs -/

/-- What `depth` levels are enough for: the name of the type at `ty` is found. -/
def Shallows (w : Libs) (x : Executable) (depth ty : Nat) : Prop :=
  ∃ text td, TypeCalled w x ty text ∧ shallow (typedef w.lib x) (fileDb x.units) depth ty = .ok td ∧ td.displayName = text

theorem shallows_of {w : Libs} {x : Executable} (hw : WellFormed (fileDb x.units)) {ty : Nat} {text : Str} (h : TypeCalled w x ty text) :
    ∃ N, ∀ depth, N ≤ depth → ∃ td, shallow (typedef w.lib x) (fileDb x.units) depth ty = .ok td ∧ td.displayName = text := by
  have hdec : Decodes (fileDb x.units) := C95_decodes _
  have own : ∀ {name : Str}, Ordinary (typedef w.lib x) ty → Parse.Named (fileDb x.units) ty name → name = text →
      ∃ N, ∀ depth, N ≤ depth → ∃ td, shallow (typedef w.lib x) (fileDb x.units) depth ty = .ok td ∧ td.displayName = text := by
    rintro name ho hn rfl
    refine ⟨1, fun depth hd => ⟨.mk (some ty) (.alias name), ?_, rfl⟩⟩
    obtain ⟨d, rfl⟩ : ∃ d, depth = d + 1 := ⟨depth - 1, by omega⟩
    simp only [shallow, Shown.builtin_ordinary ho, Res.bind_ok, (Parse.dieName_ok (fileDb x.units) ty name).2 hn]
  obtain ⟨hd, hc⟩ := h
  cases hc with
  | known hE hg ho =>
    obtain ⟨N, hN⟩ := TypeText.C85_named_as_in_rust_partial (render := w.lib.render) hw hdec hE hg
    refine ⟨N, fun d hd' => ?_⟩
    obtain ⟨td, h1, h2, -⟩ := hN d hd'
    exact ⟨td, h1, h2⟩
  | struct hI => exact own hI.1.1 hI.1.2.2.1 rfl
  | «enum» hI => obtain ⟨⟨h1, -, _, _, h2⟩, -⟩ := hI; exact own h1 h2.1.1 rfl
  | cenum hI => exact own hI.1.1 hI.1.2.2.1 rfl

theorem named_node {us : List UnitOf} {x : Executable} (hu : x.units = us.map encUnit) (ho : Offsets us) {t : Tree Die} (ht : t ∈ nodes us) (n : Str) :
    Parse.Named (fileDb x.units) t.die.off n ↔ t.die.attr .name = some (.str n) := by
  constructor
  · rintro ⟨d, h1, h2⟩
    rw [entry_node' hu ho ht] at h1
    cases h1
    exact h2
  · exact fun h => ⟨_, entry_node' hu ho ht, h⟩

theorem tagged_node {us : List UnitOf} {x : Executable} (hu : x.units = us.map encUnit) (ho : Offsets us) {t : Tree Die} (ht : t ∈ nodes us) (g : Tag) :
    Parse.Tagged (fileDb x.units) t.die.off g ↔ t.die.tag = g := by
  constructor
  · rintro ⟨d, h1, h2⟩
    rw [entry_node' hu ho ht] at h1
    cases h1
    exact h2
  · exact fun h => ⟨_, entry_node' hu ho ht, h⟩

theorem nameOf_iff (d : Die) (n : Str) : nameOf d = some n ↔ d.attr .name = some (.str n) := by
  unfold nameOf
  split
  · rename_i m hm; rw [hm]; simp
  · rename_i h
    constructor
    · intro h'; cases h'
    · intro h'; exact absurd h' (h n)

theorem position_node {w : Libs} {us : List UnitOf} {x : Executable} (hu : x.units = us.map encUnit) (ho : Offsets us) (hlen : us.length ≤ x.files.length)
    {depth : Nat} {fns : FnIndex.Builder} {ix : ModuleIndex} {k : Tree Die} (hk : k ∈ nodes us) :
    (world w depth x fns ix).position 0 k.die.off = true ↔ Placed x us k := by
  obtain ⟨u, hu', hk'⟩ : ∃ u ∈ us, k ∈ subtrees u.1 := by
    simpa [nodes, List.mem_flatMap] using hk
  obtain ⟨files, hz⟩ : ∃ files, (u, files) ∈ us.zip x.files := by
    obtain ⟨i, hi, rfl⟩ := List.mem_iff_getElem.1 hu'
    exact ⟨x.files[i]'(by omega), List.mem_iff_getElem.2 ⟨i, by simp; omega, by simp⟩⟩
  have key : ∀ u files, (u, files) ∈ us.zip x.files → k ∈ subtrees u.1 →
      ((world w depth x fns ix).position 0 k.die.off = true ↔ ∃ p, DeclaredAt files (fileDb x.units) k.die.off p) := by
    intro u files hz hk'
    show (Discovery.okOf (Declared.position (unitFiles x k.die.off) (fileDb x.units) k.die.off)).isSome = true ↔ _
    rw [unitFiles_of x us hu ho u files hz k hk']
    simp only [← Declared.C94_position]
    cases Declared.position files (fileDb x.units) k.die.off <;> simp [Discovery.okOf]
  constructor
  · intro h u files hz hk
    exact (key u files hz hk).1 h
  · intro h
    exact (key u files hz hk').2 (h u files hz hk')

/-- A parameter as the code has it. -/
def Agrees (w : Libs) (x : Executable) (depth : Nat) (a : Option Str × Nat × Str) (p : Option Str × TypeDef) : Prop :=
  p.1 = a.1 ∧ shallow (typedef w.lib x) (fileDb x.units) depth a.2.1 = .ok p.2 ∧ p.2.displayName = a.2.2

section
variable {w : Libs} {x : Executable} {us : List UnitOf} {depth : Nat} {fns : FnIndex.Builder} {ix : ModuleIndex}

open Classical in
theorem written_found (hu : x.units = us.map encUnit) (ho : Offsets us) (hlen : us.length ≤ x.files.length) (ks : List (Tree Die)) (hks : ∀ k ∈ ks, k ∈ nodes us)
    (hr : ∀ k ∈ ks, k.die.tag = .formalParameter → ∀ ty, k.die.attr .type = some (.ref ty) → Shallows w x depth ty) :
    (∃ args ps, Written (TypeCalled w x) (Placed x us) ks args ∧ List.Forall₂ (Agrees w x depth) args ps ∧
      List.Forall₂ (IsArgument (world w depth x fns ix) 0) ((ks.map fun k => k.die.off).filter fun c => decide (Parse.Tagged (fileDb x.units) c .formalParameter)) ps) ∨
    ((∃ k ∈ ks, k.die.tag = .formalParameter ∧ ((∀ ty, k.die.attr .type ≠ some (.ref ty)) ∨ ¬ Placed x us k)) ∧
      ∀ ps, ¬ List.Forall₂ (IsArgument (world w depth x fns ix) 0) ((ks.map fun k => k.die.off).filter fun c => decide (Parse.Tagged (fileDb x.units) c .formalParameter)) ps) := by
  induction ks with
  | nil => exact .inl ⟨[], [], .nil, .nil, .nil⟩
  | cons k ks ih =>
    have hk := hks k (List.mem_cons_self ..)
    have ih := ih (fun k h => hks k (List.mem_cons_of_mem _ h)) fun k h => hr k (List.mem_cons_of_mem _ h)
    have htag := tagged_node hu ho hk .formalParameter
    by_cases ht : k.die.tag = .formalParameter
    · rw [List.map_cons, List.filter_cons, if_pos (by simpa using htag.2 ht)]
      by_cases hp : (∃ ty, k.die.attr .type = some (.ref ty)) ∧ Placed x us k
      · obtain ⟨⟨ty, hty⟩, hpl⟩ := hp
        obtain ⟨text, td, h1, h2, h3⟩ := hr k (List.mem_cons_self ..) ht ty hty
        have harg : IsArgument (world w depth x fns ix) 0 k.die.off (nameOf k.die, td) :=
          ⟨fun n => (nameOf_iff _ n).trans (named_node hu ho hk n).symm, (position_node hu ho hlen hk).2 hpl, ty, (typed_node hu ho hk ty).2 hty, h2⟩
        rcases ih with ⟨args, ps, h4, h5, h6⟩ | ⟨⟨k', hk', h4⟩, h5⟩
        · exact .inl ⟨_, (nameOf k.die, td) :: ps, .arg ht hty hpl h1 h4, .cons ⟨rfl, h2, h3⟩ h5, .cons harg h6⟩
        · refine .inr ⟨⟨k', List.mem_cons_of_mem _ hk', h4⟩, fun ps h => ?_⟩
          cases h with
          | cons _ h => exact h5 _ h
      · refine .inr ⟨⟨k, List.mem_cons_self .., ht, ?_⟩, fun ps h => ?_⟩
        · by_cases hty : ∃ ty, k.die.attr .type = some (.ref ty)
          · exact .inr fun h => hp ⟨hty, h⟩
          · exact .inl fun ty h => hty ⟨ty, h⟩
        · cases h with
          | cons h _ =>
            obtain ⟨-, h2, ty, h3, -⟩ := h
            exact hp ⟨⟨ty, (typed_node hu ho hk ty).1 h3⟩, (position_node hu ho hlen hk).1 h2⟩
    · rw [List.map_cons, List.filter_cons, if_neg (by simpa using fun h => ht (htag.1 h))]
      rcases ih with ⟨args, ps, h4, h5⟩ | ⟨⟨k', hk', h4⟩, h5⟩
      · exact .inl ⟨args, ps, .other ht h4, h5⟩
      · exact .inr ⟨⟨k', List.mem_cons_of_mem _ hk', h4⟩, h5⟩

open Classical in
/-- The declaration in the entry of a function. -/
theorem declaration_found (hu : x.units = us.map encUnit) (ho : Offsets us) (hlen : us.length ≤ x.files.length) {t : Tree Die} (ht : t ∈ nodes us)
    (hr : ∀ ty, InSignature t ty → Shallows w x depth ty) :
    (∃ name args ret ps r, Reads w x us t name args ret ∧ List.Forall₂ (Agrees w x depth) args ps ∧ r.map TypeDef.displayName = ret ∧
      Declaration (world w depth x fns ix) 0 t.die.off name ps r) ∨
    (Garbled x us t ∧ ∀ n ps r, ¬ Declaration (world w depth x fns ix) 0 t.die.off n ps r) := by
  have hch : (fileDb x.units).children t.die.off = .ok (t.kids.map fun k => k.die.off) := by
    rw [hu]; exact children_node us ho t ht
  have hwr := written_found (w := w) (depth := depth) (fns := fns) (ix := ix) hu ho hlen t.kids (fun k hk => nodes_kids ht hk) fun k hk h ty hty => hr ty (.inr ⟨k, hk, h, hty⟩)
  by_cases hn : ∃ n, t.die.attr .name = some (.str n)
  · obtain ⟨n, hn⟩ := hn
    rcases hwr with ⟨args, ps, h1, h2, h3⟩ | ⟨h1, h2⟩
    · refine .inl ?_
      by_cases hty : ∃ ty, t.die.attr .type = some (.ref ty)
      · obtain ⟨ty, hty⟩ := hty
        obtain ⟨text, td, h4, h5, h6⟩ := hr ty (.inl hty)
        exact ⟨n, args, some text, ps, some td, ⟨hn, h1, .some hty h4⟩, h2, by simp [h6], (named_node hu ho ht n).2 hn, ⟨_, hch, h3⟩,
          .inr ⟨ty, td, (typed_node hu ho ht ty).2 hty, h5, rfl⟩⟩
      · exact ⟨n, args, none, ps, none, ⟨hn, h1, .none fun ty h => hty ⟨ty, h⟩⟩, h2, rfl, (named_node hu ho ht n).2 hn, ⟨_, hch, h3⟩,
          .inl ⟨rfl, fun ty h => hty ⟨ty, (typed_node hu ho ht ty).1 h⟩⟩⟩
    · refine .inr ⟨.inr h1, fun n' ps r h => ?_⟩
      obtain ⟨-, ⟨cs, h3, h4⟩, -⟩ := h
      have h3 : (fileDb x.units).children t.die.off = .ok cs := h3
      rw [hch] at h3
      cases h3
      exact h2 ps h4
  · refine .inr ⟨.inl fun n h => hn ⟨n, h⟩, fun n ps r h => hn ⟨n, (named_node hu ho ht n).1 h.1⟩⟩

theorem declaration_only {n n' : Str} {e : Nat} {ps ps' : List (Option Str × TypeDef)} {r r' : Option TypeDef} {W : Discovery.World}
    (h : Declaration W 0 e n ps r) (h' : Declaration W 0 e n' ps' r') : n = n' ∧ ps = ps' ∧ r = r' := by
  have h1 := (Discovery.declaration_ok _ _ _ _ _ _).2 h
  rw [(Discovery.declaration_ok _ _ _ _ _ _).2 h'] at h1
  cases h1
  exact ⟨rfl, rfl, rfl⟩

theorem says_accounts (hc : Compiled w x us) (hlen : us.length ≤ x.files.length)
    (hby : ∀ n, fns.functions n = ((linkedFns (syms w x) false us).reverse.find? fun p => decide (p.2.name = n)).map
        fun p => { die := p.1, range := p.1.range })
    {s : Symbol} (hs : InForce [.binary (entries w x) 0] s)
    (hr : w.inWorkspace = true → ∀ t ∈ nodes us, EntryOf w x us s.name t.die → ∀ ty, InSignature t ty → Shallows w x depth ty)
    {a : Analysis} (h : Discovery.Says (world w depth x fns ix) s a) : Accounts w x us s.name a := by
  obtain ⟨hcode, hf⟩ := (inForce_iff_code w x s).1 hs
  have hiff := fnEntry_iff hby s.name hcode.listed
  have hfe : (world w depth x fns ix).fnEntry s.debugFile s.name = (fns.functions (nameId w x s.name)).map fun e => e.die.off := rfl
  have hin : s.debugFile ∈ (world w depth x fns ix).indexed ↔ w.inWorkspace = true := by
    show s.debugFile ∈ (if w.inWorkspace then [0] else []) ↔ _
    rw [hf]
    cases w.inWorkspace <;> simp
  have hentry : ∀ e, (world w depth x fns ix).fnEntry s.debugFile s.name = some e → ∃ t ∈ nodes us, EntryOf w x us s.name t.die ∧ t.die.off = e := by
    intro e he
    rw [hfe] at he
    obtain ⟨d, hd, rfl⟩ := (hiff e).1 he
    obtain ⟨t, ht, rfl⟩ := candidate_node (us := us) (d := d) (by obtain ⟨p, q, h, -⟩ := hd; rw [h]; simp)
    exact ⟨t, ht, hd, rfl⟩
  cases a with
  | unindexedFile f =>
    obtain ⟨h1, h2⟩ := h
    rw [hin, Bool.not_eq_true] at h2
    rw [h1, hf]
    exact .outside h2
  | noDebugInfo =>
    obtain ⟨h1, h2⟩ := h
    refine .noEntry (hin.1 h1) fun d hd => ?_
    rw [hfe, (hiff d.off).2 ⟨d, hd, rfl⟩] at h2
    cases h2
  | analysisError =>
    obtain ⟨h1, e, he, hno⟩ := h
    obtain ⟨t, ht, hE, rfl⟩ := hentry e he
    rw [hf] at hno
    rcases declaration_found (fns := fns) (ix := ix) hc.units hc.offsets hlen ht (hr (hin.1 h1) t ht hE) with ⟨n, args, ret, ps, r, -, -, -, hd⟩ | ⟨hg, -⟩
    · exact absurd hd (hno _ _ _)
    · exact .garbled (hin.1 h1) ht hE hg
  | discovered sig =>
    obtain ⟨h1, e, he, hd, hself, -⟩ := h
    obtain ⟨t, ht, hE, rfl⟩ := hentry e he
    rw [hf] at hd
    rcases declaration_found (fns := fns) (ix := ix) hc.units hc.offsets hlen ht (hr (hin.1 h1) t ht hE) with ⟨n, args, ret, ps, r, hR, hA, hret, hd'⟩ | ⟨-, hno⟩
    · obtain ⟨rfl, rfl, rfl⟩ := declaration_only hd' hd
      refine .read (hin.1 h1) ht hE hR ?_ hret ?_
      · clear hd hd' hR hself
        generalize sig.params = ps at *
        induction hA with
        | nil => exact .nil
        | cons h _ ih => exact .cons ⟨h.1, h.2.2⟩ ih
      · rw [hself]
        clear hd hd' hR hself
        generalize sig.params = ps at *
        cases hA with
        | nil => simp
        | cons h _ =>
          rename_i a p l₁ l₂ _
          simp only [List.head?_cons, Option.bind_some, List.mem_cons, List.not_mem_nil, or_false]
          rw [← h.1]
          constructor
          · rintro ⟨p', rest, hp, hn⟩
            cases hp
            rcases hn with hn | hn | hn
            · exact ⟨_, hn, .inl rfl⟩
            · exact ⟨_, hn, .inr (.inl rfl)⟩
            · exact ⟨_, hn, .inr (.inr rfl)⟩
          · rintro ⟨nm, hn, hnm⟩
            refine ⟨p, l₂, rfl, ?_⟩
            rcases hnm with rfl | rfl | rfl
            · exact .inl hn
            · exact .inr (.inl hn)
            · exact .inr (.inr hn)
    · exact absurd hd (hno _ _ _)

end

theorem declarations_calm {w : Libs} {x : Executable} {us : List UnitOf} {depth : Nat} {fns : FnIndex.Builder} {ix : ModuleIndex} (hc : Compiled w x us)
    (hby : ∀ n, fns.functions n = ((linkedFns (syms w x) false us).reverse.find? fun p => decide (p.2.name = n)).map
        fun p => { die := p.1, range := p.1.range })
    (hr : w.inWorkspace = true → ∀ n a, CodeOf w x n a → ∀ t ∈ nodes us, EntryOf w x us n t.die → ∀ ty, InSignature t ty → Shallows w x depth ty) :
    Discovery.CalmDeclarations (world w depth x fns ix) [.binary (entries w x) 0] := by
  intro s e hs hf he hcr
  obtain ⟨hcode, hf0⟩ := (inForce_iff_code w x s).1 hs
  have hin : w.inWorkspace = true := by
    have hf : s.debugFile ∈ (if w.inWorkspace then [0] else []) := hf
    cases hw : w.inWorkspace with
    | true => rfl
    | false => rw [hw] at hf; cases hf
  have he : (fns.functions (nameId w x s.name)).map (fun e => e.die.off) = some e := he
  obtain ⟨d, hE, rfl⟩ := (fnEntry_iff hby s.name hcode.listed e).1 he
  obtain ⟨t, ht, rfl⟩ := candidate_node (us := us) (d := d) (by obtain ⟨p, q, h, -⟩ := hE; rw [h]; simp)
  have hch : (fileDb x.units).children t.die.off = .ok (t.kids.map fun k => k.die.off) := by
    rw [hc.units]; exact children_node us hc.offsets t ht
  have hres := hr hin s.name s.address hcode t ht hE
  have hno : ∀ ty, InSignature t ty → shallow (typedef w.lib x) (fileDb x.units) depth ty ≠ .panic := by
    intro ty h h'
    obtain ⟨_, td, -, h2, -⟩ := hres ty h
    rw [h2] at h'; cases h'
  obtain ⟨-, ⟨ty, h1, h2⟩ | ⟨-, h | ⟨before, c, after, ty, h1, h2, h3, h4, -⟩⟩⟩ := hcr
  · exact hno ty (.inl ((typed_node hc.units hc.offsets ht ty).1 h1)) h2
  · have h : (fileDb x.units).children t.die.off = .panic := h
    rw [hch] at h; cases h
  · have h1 : (fileDb x.units).children t.die.off = .ok (before ++ c :: after) := h1
    rw [hch, Res.ok.injEq] at h1
    obtain ⟨k, hk, rfl⟩ : ∃ k ∈ t.kids, k.die.off = c := by
      have : c ∈ t.kids.map fun k => k.die.off := by rw [h1]; simp
      simpa using this
    have hkn := nodes_kids ht hk
    exact hno ty (.inr ⟨k, hk, (tagged_node hc.units hc.offsets hkn .formalParameter).1 h2, (typed_node hc.units hc.offsets hkn ty).1 h3⟩) h4

/-- One depth is enough for all the signatures. -/
theorem shallows_all {w : Libs} {x : Executable} {us : List UnitOf} (hc : Compiled w x us) {P : SymbolName → Prop}
    (hty : ∀ n t, P n → t ∈ nodes us → EntryOf w x us n t.die → ∀ ty, InSignature t ty → ∃ text, TypeCalled w x ty text) :
    ∃ N, ∀ depth, N ≤ depth → ∀ n t, P n → t ∈ nodes us → EntryOf w x us n t.die → ∀ ty, InSignature t ty → Shallows w x depth ty := by
  have hw : WellFormed (fileDb x.units) := by rw [hc.units]; exact C95_well_formed us hc.offsets hc.apart
  obtain ⟨N, hN⟩ := Shown.list_bound (nodes us) (fun k depth => ∀ ty, k.die.attr .type = some (.ref ty) → (∃ text, TypeCalled w x ty text) → Shallows w x depth ty) (by
    intro k _
    by_cases hk : ∃ ty, k.die.attr .type = some (.ref ty) ∧ ∃ text, TypeCalled w x ty text
    · obtain ⟨ty, hk, text, hcl⟩ := hk
      obtain ⟨N, hN⟩ := shallows_of hw hcl
      refine ⟨N, fun depth hd ty' hk' _ => ?_⟩
      rw [hk] at hk'
      cases hk'
      obtain ⟨td, h1, h2⟩ := hN depth hd
      exact ⟨text, td, hcl, h1, h2⟩
    · exact ⟨0, fun _ _ ty h1 h2 => absurd ⟨ty, h1, h2⟩ hk⟩)
  refine ⟨N, fun depth hd n t hP ht hE ty hs => ?_⟩
  have hT := hty n t hP ht hE ty hs
  rcases hs with h | ⟨k, hk, -, h⟩
  · exact hN depth hd t ht ty h hT
  · exact hN depth hd k (nodes_kids ht hk) ty h hT

/-- C103, from the executable to the account of its functions: it has an entry for each name of a function the symbol table has code for, and no other. What the entry says is what the
debug information has: that the code is not the user's own, if it is not; that there is no entry of the function; that its entry does not tell name and parameters; or else the name,
the parameters with the names of their types, the result, and whether it has a receiver. Where functions print the same (instances of one generic function), it is said of the last. -/
theorem C103_account_partial {w : Libs} {x : Executable} {us : List UnitOf} (hc : Compiled w x us) (hlen : us.length ≤ x.files.length)
    (hty : w.inWorkspace = true → ∀ n a t, CodeOf w x n a → t ∈ nodes us → EntryOf w x us n t.die → ∀ ty, InSignature t ty → ∃ text, TypeCalled w x ty text) :
    ∃ N, ∀ stack depth, N ≤ depth → ∃ b m, binary w stack depth x = .ok b ∧ report b.world = .ok m ∧ ∀ k,
      (m.get compare k = none ↔ ∀ n a, CodeOf w x n a → n.display ≠ k) ∧
      ∀ r, m.get compare k = some r → ∃ n a, CodeOf w x n a ∧ n.display = k ∧ Accounts w x us n r ∧
        ∀ n' a', CodeOf w x n' a' → n'.display = k → n' = n ∨ n'.cmp n = .lt := by
  obtain ⟨N, hN⟩ := shallows_all hc (P := fun n => w.inWorkspace = true ∧ ∃ a, CodeOf w x n a) fun n t hP ht hE => by
    obtain ⟨hin, a, ha⟩ := hP
    exact hty hin n a t ha ht hE
  refine ⟨N, fun stack depth hd => ?_⟩
  obtain ⟨fns, ix, b, hb, hbw, -, hby⟩ := world_of hc stack depth
  have hr : w.inWorkspace = true → ∀ n a, CodeOf w x n a → ∀ t ∈ nodes us, EntryOf w x us n t.die → ∀ ty, InSignature t ty → Shallows w x depth ty :=
    fun hin n a ha t ht hE => hN depth hd n t ⟨hin, a, ha⟩ ht hE
  obtain ⟨m, hm, hget⟩ := Discovery.C93_accounts_for_every_function_partial (world w depth x fns ix) [.binary (entries w x) 0] rfl (declarations_calm hc hby hr)
  refine ⟨b, m, hb, by rw [hbw]; exact hm, fun k => ⟨?_, fun r hr' => ?_⟩⟩
  · rw [(hget k).1]
    constructor
    · exact fun h n a ha => h ⟨n, a, 0⟩ ((inForce_iff_code w x _).2 ⟨ha, rfl⟩)
    · exact fun h s hs => h s.name s.address ((inForce_iff_code w x s).1 hs).1
  · obtain ⟨s, h1, h2, h3, h4⟩ := (hget k).2 r hr'
    have hcode := ((inForce_iff_code w x s).1 h1).1
    refine ⟨s.name, s.address, hcode, h2, says_accounts hc hlen hby h1 (fun hin => hr hin _ _ hcode) h3, fun n' a' h h' => ?_⟩
    rcases h4 ⟨n', a', 0⟩ ((inForce_iff_code w x _).2 ⟨h, rfl⟩) h' with h5 | h5
    · exact .inl (by rw [← h5])
    · exact .inr h5

theorem Written.unique {w : Libs} {x : Executable} {us : List UnitOf} (hc : Compiled w x us) {ks : List (Tree Die)} {as bs : List (Option Str × Nat × Str)}
    (h1 : Written (TypeCalled w x) (Placed x us) ks as) : Written (TypeCalled w x) (Placed x us) ks bs → as = bs := by
  have hu := fun e a b (h1 : TypeCalled w x e a) (h2 : TypeCalled w x e b) => h1.unique hc h2
  induction h1 generalizing bs with
  | nil => intro h2; cases h2; rfl
  | arg ht hty _ hcl _ ih =>
    intro h2
    cases h2 with
    | arg _ hty' _ hcl' h2 => rw [hty] at hty'; cases hty'; rw [hu _ _ _ hcl hcl', ih h2]
    | other hn _ => exact absurd ht hn
  | other hn _ ih =>
    intro h2
    cases h2 with
    | arg ht _ _ _ _ => exact absurd ht hn
    | other _ h2 => exact ih h2

theorem Reads.not_garbled {w : Libs} {x : Executable} {us : List UnitOf} {t : Tree Die} {nm : Str} {args : List (Option Str × Nat × Str)} {ret : Option Str}
    (h : Reads w x us t nm args ret) : ¬ Garbled x us t := by
  obtain ⟨h1, h2, -⟩ := h
  rintro (h | ⟨k, hk, ht, h⟩)
  · exact h _ h1
  · generalize t.kids = ks at hk h2
    induction h2 with
    | nil => cases hk
    | arg ht' hty hp _ _ ih =>
      rcases List.mem_cons.1 hk with rfl | hk
      · rcases h with h | h
        · exact h _ hty
        · exact h hp
      · exact ih hk
    | other hn _ ih =>
      rcases List.mem_cons.1 hk with rfl | hk
      · exact hn ht
      · exact ih hk

/-- C103: what the account says about a function is determined by the executable. -/
theorem C103_account_unique {w : Libs} {x : Executable} {us : List UnitOf} (hc : Compiled w x us) {n : SymbolName} {r r' : Analysis} (h : Accounts w x us n r) (h' : Accounts w x us n r') :
    (r = .unindexedFile 0 ∧ r' = .unindexedFile 0) ∨ (r = .noDebugInfo ∧ r' = .noDebugInfo) ∨ (r = .analysisError ∧ r' = .analysisError) ∨
    ∃ s s', r = .discovered s ∧ r' = .discovered s' ∧ s.name = s'.name ∧ s.params.map (fun p => (p.1, p.2.displayName)) = s'.params.map (fun p => (p.1, p.2.displayName)) ∧
      s.ret.map TypeDef.displayName = s'.ret.map TypeDef.displayName ∧ s.self.isSome = s'.self.isSome := by
  have hu := fun e a b (h1 : TypeCalled w x e a) (h2 : TypeCalled w x e b) => h1.unique hc h2
  have same : ∀ {t t' : Tree Die}, t ∈ nodes us → t' ∈ nodes us → EntryOf w x us n t.die → EntryOf w x us n t'.die → t = t' := by
    intro t t' ht ht' hE hE'
    have hd := hE.unique hE'
    exact List.inj_on_of_nodup_map hc.offsets ht ht' (by rw [hd])
  have wr := fun {ks as bs} => Written.unique hc (ks := ks) (as := as) (bs := bs)
  have nog := fun {t nm args ret} => Reads.not_garbled (w := w) (x := x) (us := us) (t := t) (nm := nm) (args := args) (ret := ret)
  have tells : ∀ {as : List (Option Str × Nat × Str)} {ps : List (Option Str × TypeDef)}, List.Forall₂ Tells as ps → ps.map (fun p => (p.1, p.2.displayName)) = as.map fun a => (a.1, a.2.2) := by
    intro as ps h
    induction h with
    | nil => rfl
    | cons h _ ih => rw [List.map_cons, List.map_cons, ih, h.1, h.2]
  have rets : ∀ {d : Die} {r r' : Option Str}, Returning (TypeCalled w x) d r → Returning (TypeCalled w x) d r' → r = r' := by
    intro d r r' hr hr'
    cases hr with
    | none hn =>
      cases hr' with
      | none _ => rfl
      | some hty _ => exact absurd hty (hn _)
    | some hty hcl =>
      cases hr' with
      | none hn => exact absurd hty (hn _)
      | some hty' hcl' => rw [hty] at hty'; cases hty'; rw [hu _ _ _ hcl hcl']
  cases h with
  | outside h1 =>
    cases h' with
    | outside _ => exact .inl ⟨rfl, rfl⟩
    | noEntry h2 _ => rw [h1] at h2; cases h2
    | garbled h2 _ _ _ => rw [h1] at h2; cases h2
    | read h2 _ _ _ _ _ _ => rw [h1] at h2; cases h2
  | noEntry h1 hno =>
    cases h' with
    | outside h2 => rw [h1] at h2; cases h2
    | noEntry _ _ => exact .inr (.inl ⟨rfl, rfl⟩)
    | garbled _ _ hE _ => exact absurd hE (hno _)
    | read _ _ hE _ _ _ _ => exact absurd hE (hno _)
  | garbled h1 ht hE hg =>
    cases h' with
    | outside h2 => rw [h1] at h2; cases h2
    | noEntry _ hno => exact absurd hE (hno _)
    | garbled _ _ _ _ => exact .inr (.inr (.inl ⟨rfl, rfl⟩))
    | read _ ht' hE' hR _ _ _ => rw [same ht ht' hE hE'] at hg; exact absurd hg (nog hR)
  | read h1 ht hE hR hT hret hself =>
    cases h' with
    | outside h2 => rw [h1] at h2; cases h2
    | noEntry _ hno => exact absurd hE (hno _)
    | garbled _ ht' hE' hg => rw [← same ht ht' hE hE'] at hg; exact absurd hg (nog hR)
    | read _ ht' hE' hR' hT' hret' hself' =>
      obtain rfl := same ht ht' hE hE'
      obtain rfl := wr hR.args hR'.args
      refine .inr (.inr (.inr ⟨_, _, rfl, rfl, ?_, ?_, ?_, ?_⟩))
      · have := hR.name
        rw [hR'.name] at this
        exact (Val.str.inj (Option.some.inj this)).symm
      · rw [tells hT, tells hT']
      · rw [hret, hret']
        exact rets hR.ret hR'.ret
      · rw [Bool.eq_iff_iff, hself, hself']

/-- The name of a type without its references. -/
theorem behind_found {w : Libs} {x : Executable} (hw : WellFormed (fileDb x.units)) {e e' : Nat} {k : Str} (hb : Behind (typedef w.lib x) (fileDb x.units) e e') (hk : TypeCalled w x e' k) :
    ∃ N, ∀ d, N ≤ d → ∀ td, shallow (typedef w.lib x) (fileDb x.units) d e = .ok td → td.layout.dereferenced.displayName = k := by
  have hdec : Decodes (fileDb x.units) := C95_decodes _
  induction hb with
  | @self e desc hI hno =>
    obtain ⟨N1, h1⟩ := Shown.types_at hw hdec hI
    obtain ⟨N2, h2⟩ := shallows_of hw hk
    refine ⟨max N1 N2, fun d hd td htd => ?_⟩
    obtain ⟨td', h3, h4⟩ := h2 d (by omega)
    rw [htd] at h3
    cases h3
    have hd' : td.layout.dereferenced = td.layout := by
      rcases (h1 d (by omega)).2.2 td (.inr htd) with rfl | ⟨-, nm, rfl⟩
      · cases desc with
        | plain l =>
          have := hI.1.2
          show l.dereferenced = l
          cases l <;> first | rfl | exact this.elim
        | pointer m t => exact absurd rfl (hno m t).2
        | reference m t => exact absurd rfl (hno m t).1
        | _ => rfl
      · rfl
    rw [hd', ← h4]
    cases td
    rfl
  | @ref e t e' m hI _ ih =>
    obtain ⟨N2, h2⟩ := ih hk
    have hI' : ∃ desc, Is (typedef w.lib x) (fileDb x.units) e desc ∧ (desc = .reference m t ∨ desc = .pointer m t) := by
      rcases hI with h | h
      · exact ⟨_, h, .inl rfl⟩
      · exact ⟨_, h, .inr rfl⟩
    obtain ⟨desc, hI', hdesc⟩ := hI'
    obtain ⟨N1, h1⟩ := Shown.types_at hw hdec hI'
    refine ⟨max N1 N2, fun d hd td htd => ?_⟩
    obtain ⟨h3, -, h4⟩ := h1 d (by omega)
    have hno : ¬ Ordinary (typedef w.lib x) e := by
      rcases hdesc with rfl | rfl <;> obtain ⟨⟨⟨i, hi⟩, -⟩, -⟩ := hI' <;> simp [Ordinary, hi]
    have hsh := h2 d (by omega) _ (h3 t (by rcases hdesc with rfl | rfl <;> simp [Desc.parts]))
    rcases h4 td (.inr htd) with rfl | ⟨ho, -⟩
    · rw [← hsh]
      rcases hdesc with rfl | rfl
      · show (TypeDef.dereferenced (Shown.ty _ _ _ _)).displayName = _
        cases Shown.ty (typedef w.lib x) (fileDb x.units) d t; rfl
      · show (TypeDef.dereferenced (Shown.ty _ _ _ _)).displayName = _
        cases Shown.ty (typedef w.lib x) (fileDb x.units) d t; rfl
    · exact absurd ho hno

/-- C103, from the executable to the list of all methods: under the name of a type are the functions the symbol table has code for whose first parameter, whatever it is called, is of that type,
behind any references and pointers; they are told as declared. -/
theorem C103_all_methods_partial {w : Libs} {x : Executable} {us : List UnitOf} (hc : Compiled w x us) (hlen : us.length ≤ x.files.length)
    (hin : w.inWorkspace = true)
    (hty : ∀ n a t, CodeOf w x n a → t ∈ nodes us → EntryOf w x us n t.die → ∀ ty, InSignature t ty →
      (∃ text, TypeCalled w x ty text) ∧ ∃ e' k, Behind (typedef w.lib x) (fileDb x.units) ty e' ∧ TypeCalled w x e' k) :
    ∃ N, ∀ stack depth, N ≤ depth → ∃ b m, binary w stack depth x = .ok b ∧ allMethods b.world = .ok m ∧ ∀ k,
      (∀ y ∈ (m.get compare k).getD [], ∃ n a, CodeOf w x n a ∧ ListedAs w x us k n a y) ∧
      ∀ n a t nm arg args ret e', CodeOf w x n a → t ∈ nodes us → EntryOf w x us n t.die → Reads w x us t nm (arg :: args) ret →
        Behind (typedef w.lib x) (fileDb x.units) arg.2.1 e' → TypeCalled w x e' k → k ≠ chars! "unknown" →
        ∃ y ∈ (m.get compare k).getD [], y.name = nm ∧ ListedAs w x us k n a y := by
  have hw : WellFormed (fileDb x.units) := by rw [hc.units]; exact C95_well_formed us hc.offsets hc.apart
  obtain ⟨N1, hN1⟩ := shallows_all hc (P := fun n => ∃ a, CodeOf w x n a) fun n t hP ht hE ty hs => by
    obtain ⟨a, ha⟩ := hP
    exact (hty n a t ha ht hE ty hs).1
  obtain ⟨N2, hN2⟩ := Shown.list_bound (nodes us) (fun k depth => ∀ ty, k.die.attr .type = some (.ref ty) → ∀ e' nm, Behind (typedef w.lib x) (fileDb x.units) ty e' → TypeCalled w x e' nm →
      ∀ td, shallow (typedef w.lib x) (fileDb x.units) depth ty = .ok td → td.layout.dereferenced.displayName = nm) (by
    intro k _
    by_cases hk : ∃ ty, k.die.attr .type = some (.ref ty) ∧ ∃ e' nm, Behind (typedef w.lib x) (fileDb x.units) ty e' ∧ TypeCalled w x e' nm
    · obtain ⟨ty, hk, e', nm, hb, hcl⟩ := hk
      obtain ⟨N, hN⟩ := behind_found hw hb hcl
      refine ⟨N, fun depth hd ty' hk' e'' nm' hb' hcl' td htd => ?_⟩
      rw [hk] at hk'
      cases hk'
      obtain ⟨N', hN'⟩ := behind_found hw hb' hcl'
      rw [hN depth hd td htd]
      have hm := Shown.shallow_mono (Nat.le_max_left depth N') htd
      rw [← hN (max depth N') (by omega) td hm, hN' (max depth N') (by omega) td hm]
    · exact ⟨0, fun _ _ ty h1 e' nm h2 h3 => absurd ⟨ty, h1, e', nm, h2, h3⟩ hk⟩)
  refine ⟨max N1 N2, fun stack depth hd => ?_⟩
  obtain ⟨fns, ix, b, hb, hbw, -, hby⟩ := world_of hc stack depth
  have hr : ∀ n a, CodeOf w x n a → ∀ t ∈ nodes us, EntryOf w x us n t.die → ∀ ty, InSignature t ty → Shallows w x depth ty :=
    fun n a ha t ht hE => hN1 depth (by omega) n t ⟨a, ha⟩ ht hE
  have hcalm := declarations_calm (ix := ix) hc hby fun _ => hr
  obtain ⟨m, hm⟩ := Discovery.groupMethods_total (world w depth x fns ix) [.binary (entries w x) 0] hcalm (Discovery.allSymbols (world w depth x fns ix).index)
    (fun s hs => (Discovery.mem_allSymbols _ s).1 hs) ⟨[]⟩
  have hix0 : (0 : Nat) ∈ (world w depth x fns ix).indexed := by
    show (0 : Nat) ∈ (if w.inWorkspace then [0] else [])
    rw [hin]; simp
  have hfe : ∀ n, (world w depth x fns ix).fnEntry 0 n = (fns.functions (nameId w x n)).map fun e => e.die.off := fun _ => rfl
  -- the first parameter of a declaration, as the code has it
  have hdecl : ∀ n a t, CodeOf w x n a → t ∈ nodes us → EntryOf w x us n t.die → ∀ nm ps r, Declaration (world w depth x fns ix) 0 t.die.off nm ps r →
      ∃ args ret, Reads w x us t nm args ret ∧ List.Forall₂ (Agrees w x depth) args ps ∧ r.map TypeDef.displayName = ret := by
    intro n a t ha ht hE nm ps r hd
    rcases declaration_found (fns := fns) (ix := ix) hc.units hc.offsets hlen ht (hr n a ha t ht hE) with ⟨nm', args, ret, ps', r', h1, h2, h3, h4⟩ | ⟨-, h⟩
    · obtain ⟨rfl, rfl, rfl⟩ := declaration_only h4 hd
      exact ⟨args, ret, h1, h2, h3⟩
    · exact absurd hd (h _ _ _)
  have hparam : ∀ (ks : List (Tree Die)) (args : List (Option Str × Nat × Str)), Written (TypeCalled w x) (Placed x us) ks args → ∀ a ∈ args,
      ∃ k ∈ ks, k.die.tag = .formalParameter ∧ k.die.attr .type = some (.ref a.2.1) := by
    intro ks args h
    induction h with
    | nil => intro a ha; cases ha
    | arg h1 h2 _ _ _ ih =>
      intro a ha
      rcases List.mem_cons.1 ha with rfl | ha
      · exact ⟨_, List.mem_cons_self .., h1, h2⟩
      · obtain ⟨k, hk, h⟩ := ih a ha
        exact ⟨k, List.mem_cons_of_mem _ hk, h⟩
    | other _ _ ih =>
      intro a ha
      obtain ⟨k, hk, h⟩ := ih a ha
      exact ⟨k, List.mem_cons_of_mem _ hk, h⟩
  have hstrip : ∀ {t : Tree Die} {nm : Str} {arg : Option Str × Nat × Str} {args : List (Option Str × Nat × Str)} {ret : Option Str} {e' : Nat} {k : Str} {p : Option Str × TypeDef},
      t ∈ nodes us → Reads w x us t nm (arg :: args) ret → Behind (typedef w.lib x) (fileDb x.units) arg.2.1 e' → TypeCalled w x e' k → Agrees w x depth arg p →
      p.2.layout.dereferenced.displayName = k := by
    intro t nm arg args ret e' k p ht hR hB hT hA
    obtain ⟨kd, hkd, -, hty'⟩ := hparam _ _ hR.args arg (List.mem_cons_self ..)
    exact hN2 depth (by omega) kd (nodes_kids ht hkd) _ hty' e' k hB hT _ hA.2.1
  have hmk : ∀ {t : Tree Die} {n : SymbolName} {a : Nat} {k : Str} {y : Method}, CodeOf w x n a → t ∈ nodes us → EntryOf w x us n t.die →
      Discovery.ListedUnder (world w depth x fns ix) k ⟨n, a, 0⟩ y → ListedAs w x us k n a y := by
    intro t n a k y ha ht hE hl
    obtain ⟨-, e, nm, p, rest, r, he, hd, hk, -, h1, h2, h3, h4, h5, h6, h7, h8, h9, -⟩ := hl
    have he : (fns.functions (nameId w x n)).map (fun e => e.die.off) = some e := he
    rw [(fnEntry_iff hby n ha.listed t.die.off).2 ⟨_, hE, rfl⟩] at he
    cases he
    obtain ⟨args, ret, hR, hA, hret⟩ := hdecl n a t ha ht hE nm _ r hd
    cases hA with
    | @cons arg _ args _ hA hAs =>
    obtain ⟨kd, hkd, htag, hty'⟩ := hparam _ _ hR.args arg (List.mem_cons_self ..)
    obtain ⟨-, e', k', hB, hT⟩ := hty n a t ha ht hE arg.2.1 (.inr ⟨kd, hkd, htag, hty'⟩)
    have hkk : k' = k := by rw [← hstrip ht hR hB hT hA]; exact hk
    subst hkk
    have htell : ∀ {as : List (Option Str × Nat × Str)} {ps : List (Option Str × TypeDef)}, List.Forall₂ (Agrees w x depth) as ps → List.Forall₂ Tells as ps ∧
        ps.map (fun q => (match q.1 with | some n => n | none => chars! "_") ++ chars! ": " ++ q.2.displayName) = as.map argText := by
      intro as ps h
      induction h with
      | nil => exact ⟨.nil, rfl⟩
      | cons h _ ih => exact ⟨.cons ⟨h.1, h.2.2⟩ ih.1, by rw [List.map_cons, List.map_cons, ih.2, argText, h.1, h.2.2]⟩
    refine ⟨t, ht, hE, arg, args, ret, e', by rw [h1]; exact hR, hB, hT, h2, h3, h6, h7, by rw [h4]; exact (htell hAs).1, by rw [h5]; exact hret, ?_, by rw [h9, hA.1]⟩
    rw [h8, ← (htell (.cons hA hAs)).2, ← hret]
    cases r <;> rfl
  refine ⟨b, m, hb, by rw [hbw]; exact hm, fun k => ⟨?_, ?_⟩⟩
  · intro y hy
    obtain ⟨s, hs, hl⟩ := (Discovery.C44_all_grouped_by_first_parameter (world w depth x fns ix) [.binary (entries w x) 0] rfl m hm k).1 y hy
    obtain ⟨hcode, hf⟩ := (inForce_iff_code w x s).1 hs
    obtain ⟨n, a, f⟩ := s
    cases hf
    obtain ⟨-, e, _, _, _, _, he, -⟩ := id hl
    obtain ⟨d, hE, rfl⟩ := (fnEntry_iff hby n hcode.listed e).1 he
    obtain ⟨t, ht, rfl⟩ := candidate_node (us := us) (d := d) (by obtain ⟨p, q, h, -⟩ := hE; rw [h]; simp)
    exact ⟨n, a, hcode, hmk hcode ht hE hl⟩
  · intro n a t nm arg args ret e' ha ht hE hR hB hT hu
    rcases declaration_found (fns := fns) (ix := ix) hc.units hc.offsets hlen ht (hr n a ha t ht hE) with ⟨nm', args', ret', ps, r, h1, h2, h3, h4⟩ | ⟨hg, -⟩
    · obtain rfl := h1.args.unique hc hR.args
      cases h2 with
      | @cons _ p _ ps hA hAs =>
      have hkk := hstrip ht h1 hB hT hA
      obtain ⟨y, hy, hl⟩ := (Discovery.C44_all_grouped_by_first_parameter (world w depth x fns ix) [.binary (entries w x) 0] rfl m hm k).2 ⟨n, a, 0⟩ t.die.off nm' p ps r
        ((inForce_iff_code w x _).2 ⟨ha, rfl⟩) hix0 ((fnEntry_iff hby n ha.listed _).2 ⟨_, hE, rfl⟩) h4 hkk (by
          intro h
          rw [h] at hkk
          exact hu hkk.symm)
      have hLA := hmk ha ht hE hl
      refine ⟨y, hy, ?_, hLA⟩
      obtain ⟨t', ht', hE', _, _, _, _, hR', -⟩ := hLA
      have hd := hE.unique hE'
      have h5 := hR'.name
      rw [← hd, hR.name] at h5
      exact (Val.str.inj (Option.some.inj h5)).symm
    · exact absurd hg hR.not_garbled

/-- C103 where the code is not the user's own: no method is listed. -/
theorem C103_outside_not_listed {w : Libs} {x : Executable} {us : List UnitOf} (hc : Compiled w x us) (hin : w.inWorkspace = false) (stack depth : Nat) :
    ∃ b m, binary w stack depth x = .ok b ∧ allMethods b.world = .ok m ∧ ∀ k, m.get compare k = none := by
  obtain ⟨fns, ix, b, hb, hbw, -, hby⟩ := world_of hc stack depth
  have hno : ∀ s, Discovery.methodOfSymbol (world w depth x fns ix) s = .ok none := by
    intro s
    have : (world w depth x fns ix).indexed = [] := by
      show (if w.inWorkspace then [0] else []) = _
      rw [hin]; rfl
    simp [Discovery.methodOfSymbol, this]
  have hall : ∀ ss, Discovery.groupMethods (world w depth x fns ix) ss ⟨[]⟩ = .ok ⟨[]⟩ := by
    intro ss
    induction ss with
    | nil => rfl
    | cons s ss ih => simp only [Discovery.groupMethods, hno, Res.bind_ok, ih]
  exact ⟨b, ⟨[]⟩, hb, by rw [hbw]; exact hall _, fun k => rfl⟩

/-- C103 is false of the code for programs with a function that takes an `RwLock`: if the first parameter of one function is an `RwLock` or a reference to one, there is neither an account of any
function nor a list of any methods: both crash. -/
theorem C103_rwlock_fails {w : Libs} {x : Executable} {us : List UnitOf} (hc : Compiled w x us) (hin : w.inWorkspace = true)
    {n : SymbolName} {a : Nat} (hcode : CodeOf w x n a) {t : Tree Die} (ht : t ∈ nodes us) (hE : EntryOf w x us n t.die) {nm : Str} (hnm : t.die.attr .name = some (.str nm))
    {pre post : List (Tree Die)} {k : Tree Die} (hk : t.kids = pre ++ k :: post) (hfirst : ∀ k' ∈ pre, k'.die.tag ≠ .formalParameter)
    (htag : k.die.tag = .formalParameter) {ty : Nat} (hty : k.die.attr .type = some (.ref ty)) (hrw : Locks (typedef w.lib x) (fileDb x.units) ty)
    (hret : ∀ r, t.die.attr .type = some (.ref r) → ∃ text, TypeCalled w x r text) :
    ∃ N, ∀ stack depth, N ≤ depth → ∃ b, binary w stack depth x = .ok b ∧ report b.world = .panic ∧ allMethods b.world = .panic := by
  have hw : WellFormed (fileDb x.units) := by rw [hc.units]; exact C95_well_formed us hc.offsets hc.apart
  obtain ⟨N, hN⟩ : ∃ N, ∀ depth, N ≤ depth → ∀ r, t.die.attr .type = some (.ref r) → ∃ td, shallow (typedef w.lib x) (fileDb x.units) depth r = .ok td := by
    by_cases h : ∃ r, t.die.attr .type = some (.ref r)
    · obtain ⟨r, h⟩ := h
      obtain ⟨text, hT⟩ := hret r h
      obtain ⟨N, hN⟩ := shallows_of hw hT
      refine ⟨N, fun depth hd r' h' => ?_⟩
      rw [h] at h'
      cases h'
      obtain ⟨td, h1, -⟩ := hN depth hd
      exact ⟨td, h1⟩
    · exact ⟨0, fun _ _ r hr => absurd ⟨r, hr⟩ h⟩
  refine ⟨N, fun stack depth hd => ?_⟩
  obtain ⟨fns, ix, b, hb, hbw, -, hby⟩ := world_of hc stack depth
  have hch : (fileDb x.units).children t.die.off = .ok (t.kids.map fun k => k.die.off) := by
    rw [hc.units]; exact children_node us hc.offsets t ht
  have hkids : ∀ k ∈ t.kids, k ∈ nodes us := fun k hk => nodes_kids ht hk
  have hkn := hkids k (by rw [hk]; simp)
  have hcr : ∃ s e, InForce [.binary (entries w x) 0] s ∧ s.debugFile ∈ (world w depth x fns ix).indexed ∧ (world w depth x fns ix).fnEntry s.debugFile s.name = some e ∧
      Discovery.ReadingCrashes (world w depth x fns ix) s.debugFile e := by
    refine ⟨⟨n, a, 0⟩, t.die.off, (inForce_iff_code w x _).2 ⟨hcode, rfl⟩, ?_, (fnEntry_iff hby n hcode.listed _).2 ⟨_, hE, rfl⟩, ⟨nm, (named_node hc.units hc.offsets ht nm).2 hnm⟩,
      .inr ⟨fun r hr => hN depth hd r ((typed_node hc.units hc.offsets ht r).1 hr), .inr ⟨pre.map fun k => k.die.off, k.die.off, post.map fun k => k.die.off, ty, ?_,
        (tagged_node hc.units hc.offsets hkn _).2 htag, (typed_node hc.units hc.offsets hkn ty).2 hty, ?_, ?_⟩⟩⟩
    · show (0 : Nat) ∈ (if w.inWorkspace then [0] else [])
      rw [hin]; simp
    · show (fileDb x.units).children t.die.off = _
      rw [hch, hk]; simp
    · show shallow _ _ _ _ = _
      cases depth with
      | zero => rfl
      | succ d => rw [shallow, locks_panic hrw]; rfl
    · intro c hcm h
      obtain ⟨k', hk', rfl⟩ := List.mem_map.1 hcm
      exact absurd ((tagged_node hc.units hc.offsets (hkids k' (by rw [hk]; simp [hk'])) _).1 h) (hfirst k' hk')
  obtain ⟨h1, h2⟩ := Discovery.C93_crashes_fails (world w depth x fns ix) [.binary (entries w x) 0] rfl
  exact ⟨b, hb, by rw [hbw]; exact h1.2 hcr, by rw [hbw]; exact h2.2 hcr⟩

/-! ### An executable -/

/-- All types that parameters and results are of, and what they are behind references. -/
theorem book_signature_types {t : Tree Die} (ht : t ∈ nodes bookFile) {ty : Nat} (h : InSignature t ty) :
    (∃ text, TypeCalled toolLibs bookImage ty text) ∧
      ∃ e' k, Behind (typedef toolLibs.lib bookImage) (fileDb bookImage.units) ty e' ∧ TypeCalled toolLibs bookImage e' k := by
  have hall : ∀ t ∈ nodes bookFile, t.die.attr .type ∈ [none, some (.ref 60), some (.ref 30), some (.ref 26), some (.ref 36), some (.ref 61), some (.ref 62)] := by decide
  have hT : TypeCalled toolLibs bookImage 26 (chars! "T") := ⟨⟨_, book_T⟩, .struct book_T⟩
  have hK : TypeCalled toolLibs bookImage 36 (chars! "K") := ⟨⟨_, book_K⟩, .cenum book_K⟩
  have hS : Behind (typedef toolLibs.lib bookImage) (fileDb bookImage.units) 30 30 := .self book_S (by intro m t; constructor <;> intro h <;> cases h)
  have key : ∀ t ∈ nodes bookFile, t.die.attr .type = some (.ref ty) → (∃ text, TypeCalled toolLibs bookImage ty text) ∧
      ∃ e' k, Behind (typedef toolLibs.lib bookImage) (fileDb bookImage.units) ty e' ∧ TypeCalled toolLibs bookImage e' k := by
    intro t ht h
    have := hall t ht
    rw [h] at this
    simp only [List.mem_cons, List.not_mem_nil, or_false, reduceCtorEq, false_or, Option.some.injEq, Val.ref.injEq] at this
    rcases this with rfl | rfl | rfl | rfl | rfl | rfl
    · exact ⟨⟨_, book_u8_called⟩, _, _, .self book_u8 (by intro m t; constructor <;> intro h <;> cases h), book_u8_called⟩
    · exact ⟨⟨_, book_S_called⟩, _, _, hS, book_S_called⟩
    · exact ⟨⟨_, hT⟩, _, _, .self book_T (by intro m t; constructor <;> intro h <;> cases h), hT⟩
    · exact ⟨⟨_, hK⟩, _, _, .self book_K (by intro m t; constructor <;> intro h <;> cases h), hK⟩
    · exact ⟨⟨_, book_ref_called⟩, _, _, .ref (.inl book_ref.1) hS, book_S_called⟩
    · exact ⟨⟨_, book_refMut_called⟩, _, _, .ref (.inl book_ref.2) hS, book_S_called⟩
  rcases h with h | ⟨k, hk, -, h⟩
  · exact key t ht h
  · exact key k (nodes_kids ht hk) h

theorem book_placed (k : Tree Die) : Placed bookImage bookFile k := by
  intro u files hz hk
  have hno : ∀ k ∈ nodes bookFile, k.die.attr .declFile = none := by decide
  have hkn : k ∈ nodes bookFile := List.mem_flatMap.2 ⟨u, (List.of_mem_zip hz).1, hk⟩
  refine ⟨none, .noFile ?_⟩
  rintro v h
  obtain ⟨-, d, h1, h2⟩ := h
  rw [entry_node' book_compiled.units book_compiled.offsets hkn] at h1
  cases h1
  have := hno k hkn
  simp [this] at h2

theorem book_get_reads : Reads toolLibs bookImage bookFile bookGet (chars! "get") [(some (chars! "self"), 61, chars! "&S")] (some (chars! "u8")) :=
  ⟨rfl, .arg rfl rfl (book_placed _) book_ref_called .nil, .some rfl book_u8_called⟩

/-- `C103_account_partial` at work: what is told about `m::S::get`. -/
example : ∃ N b m, binary toolLibs N N bookImage = .ok b ∧ report b.world = .ok m ∧ m.get compare (chars! "zap") = none ∧
    ∃ sig, m.get compare (chars! "m::S::get") = some (.discovered sig) ∧ sig.name = chars! "get" ∧
      sig.params.map (fun p => (p.1, p.2.displayName)) = [(some (chars! "self"), chars! "&S")] ∧ sig.ret.map TypeDef.displayName = some (chars! "u8") ∧ sig.self.isSome = true := by
  obtain ⟨N, h⟩ := C103_account_partial book_compiled (by decide) fun _ n a t _ ht _ ty hty => (book_signature_types ht hty).1
  obtain ⟨b, m, hb, hm, hget⟩ := h N N (Nat.le_refl _)
  have hnames : ∀ n a, CodeOf toolLibs bookImage n a → n = bookNameGet ∨ n.display ≠ chars! "m::S::get" ∧ n.display ≠ chars! "zap" := by
    intro n a h
    obtain ⟨e, he, hd⟩ := h.listed
    have hd : demangle some e.raw = some n := hd
    have hall : ∀ e ∈ bookImage.symbols, demangle some e.raw = some bookNameGet ∨
        (demangle some e.raw).map SymbolName.display ≠ some (chars! "m::S::get") ∧ (demangle some e.raw).map SymbolName.display ≠ some (chars! "zap") := by with_unfolding_all decide
    have := hall e he
    rw [hd] at this
    simpa using this
  refine ⟨N, b, m, hb, hm, (hget _).1.2 ?_, ?_⟩
  · intro n a h
    rcases hnames n a h with rfl | h
    · decide
    · exact h.2
  · cases hr : m.get compare (chars! "m::S::get") with
    | none => exact absurd (by decide) ((hget _).1.1 hr bookNameGet 4000 book_get_code)
    | some r =>
      obtain ⟨n, a, hcode, hdisp, hacc, -⟩ := (hget _).2 r hr
      rcases hnames n a hcode with rfl | h
      · cases hacc with
        | outside h => cases h
        | noEntry _ h => exact absurd book_get_entry (h _)
        | garbled _ ht hE hg =>
          have := List.inj_on_of_nodup_map book_compiled.offsets ht book_get_node (by rw [hE.unique book_get_entry])
          rw [this] at hg
          exact absurd hg book_get_reads.not_garbled
        | @read t args ret sig _ ht hE hR hT hret hself =>
          have := List.inj_on_of_nodup_map book_compiled.offsets ht book_get_node (by rw [hE.unique book_get_entry])
          subst this
          obtain rfl := book_get_reads.args.unique book_compiled hR.args
          have hn := hR.name
          rw [book_get_reads.name] at hn
          refine ⟨sig, rfl, (Val.str.inj (Option.some.inj hn)).symm, ?_, ?_, hself.2 ⟨_, rfl, by simp⟩⟩
          · generalize sig.params = ps at hT
            cases hT with
            | cons h h' => cases h'; simp [h.1, h.2]
          · rw [hret]
            cases hR.ret with
            | none h => exact absurd rfl (h 60)
            | some h hcl =>
              cases (Option.some.inj h : Val.ref 60 = Val.ref _)
              rw [hcl.unique book_compiled book_u8_called]
      · exact absurd hdisp h.1

/-- `C103_all_methods_partial` at work: `get` is listed under `S`. -/
example : ∃ N b m, binary toolLibs N N bookImage = .ok b ∧ allMethods b.world = .ok m ∧ ∃ y ∈ (m.get compare (chars! "S")).getD [], y.name = chars! "get" ∧ y.address = 4000 ∧
    y.signature = chars! "fn(self: &S) -> u8" := by
  obtain ⟨N, h⟩ := C103_all_methods_partial book_compiled (by decide) rfl fun n a t _ ht _ ty hty => book_signature_types ht hty
  obtain ⟨b, m, hb, hm, hget⟩ := h N N (Nat.le_refl _)
  obtain ⟨y, hy, hn, t, ht, hE, arg, args, ret, e', hR, -, -, -, ha, -, -, -, -, hs, -⟩ := (hget (chars! "S")).2 bookNameGet 4000 bookGet _ _ _ _ 30 book_get_code book_get_node book_get_entry book_get_reads
    (.ref (.inl book_ref.1) (.self book_S (by intro m t; constructor <;> intro h <;> cases h))) book_S_called (by decide)
  refine ⟨N, b, m, hb, hm, y, hy, hn, ha, ?_⟩
  have := List.inj_on_of_nodup_map book_compiled.offsets ht book_get_node (by rw [hE.unique book_get_entry])
  subst this
  cases book_get_reads.args.unique book_compiled hR.args
  have hret : ret = some (chars! "u8") := by
    cases hR.ret with
    | none h => exact absurd rfl (h 60)
    | some h hcl =>
      cases (Option.some.inj h : Val.ref 60 = Val.ref _)
      rw [hcl.unique book_compiled book_u8_called]
  rw [hs, hret]
  decide

/-- `C103_rwlock_fails` at work: the function `open` of the executable `toolImage` takes a `&RwLock<u8>`. -/
example : ∃ N, ∀ stack depth, N ≤ depth → ∃ b, binary toolLibs stack depth toolImage = .ok b ∧ report b.world = .panic ∧ allMethods b.world = .panic := by
  have hcode : CodeOf toolLibs toolImage ⟨chars! "open", [], [chars! "tool"], chars! "tool::open"⟩ 4200 := by
    refine ⟨toolImage.symbols.take 2, ⟨chars! "tool::open", 4200, true, 32⟩, _, rfl, rfl, by with_unfolding_all decide, rfl, ?_⟩
    intro e he _ n hn h
    have hd : demangle some e.raw = some n := hn
    have := (by with_unfolding_all decide : ∀ e ∈ toolImage.symbols.drop 3, (demangle some e.raw).map SymbolName.fullPath ≠ some (chars! "tool::open")) e he
    rw [hd, Option.map_some, h.2.2] at this
    exact this rfl
  have hE : EntryOf toolLibs toolImage toolFile ⟨chars! "open", [], [chars! "tool"], chars! "tool::open"⟩ toolOpen.die := by
    refine ⟨(candidates toolFile).takeWhile (fun d => d.off != 45), ((candidates toolFile).dropWhile (fun d => d.off != 45)).tail, by decide, ⟨rfl, _, rfl,
      ⟨_, List.mem_cons_of_mem _ (List.mem_cons_of_mem _ (List.mem_cons_self ..)), rfl⟩, by with_unfolding_all decide⟩, ?_⟩
    intro d hd h
    obtain ⟨h1, h2⟩ := tool_names h
    exact (by with_unfolding_all decide : ∀ d ∈ ((candidates toolFile).dropWhile (fun d => d.off != 45)).tail, d.tag = .subprogram →
      linkOf d ≠ some ⟨chars! "open", [], [chars! "tool"], chars! "tool::open"⟩) d hd h1 h2
  exact C103_rwlock_fails tool_compiled rfl hcode (t := toolOpen) (by simp [nodes, toolFile, subtrees, subtreesList, toolOpen]) hE rfl (pre := []) rfl (by simp) rfl rfl
    (.ref tool_types.2.2.2.2 ⟨_, rfl, rfl⟩ (.lock tool_types.2.2.2.1)) (by intro r h; cases h)

end Rudy.Image
