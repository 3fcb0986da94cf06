import Verif.Props.ImagePlaces
import Verif.Props.ImageMethods
import Verif.Props.Moved
/-
C100: from the executable to what a call prints.
-/
namespace Rudy.Image
open Rudy Rudy.Dwarf Rudy.Walker Rudy.Layout Rudy.Data Rudy.Resolve Rudy.Declared Rudy.Entries Rudy.Modules Rudy.TypeNames Rudy.FnIndex Rudy.Shown Rudy.Whole Rudy.Listing
open Rudy.TypeRes (shallow resolveType Ordinary)
open Rudy.Symbols (SymbolName Symbol CleanSegment looksLikeHash C11_roundtrip buildIndex IndexOp joinSep)
open Rudy.Eval (PassesAll Passes St)
open Rudy.Server (Arg)
open Rudy.Expr (Expr)

/-! ### Vocabulary -/

/-- Specification: what is passed for the arguments that the user types: for a number, the number; for a variable or a part of one, its address, with the size of its type. The memory of the program is `m`. The first list has the variables that are
used: their names, where they are, and the entries of their types. -/
inductive Passed (typedef : Nat → Option Layout) (db : Parse.Db) (m : Mem) (lossy : List UInt8 → Str) (floatStr : Nat → Nat → Str) : List (Str × Nat × Nat) → List Expr → List Arg → Prop
  | nil : Passed typedef db m lossy floatStr [] [] []
  | number {n : Nat} {vs : List (Str × Nat × Nat)} {es : List Expr} {as : List Arg} : Passed typedef db m lossy floatStr vs es as →
      Passed typedef db m lossy floatStr vs (.num n :: es) (⟨natStr n, .integer, none⟩ :: as)
  | place {v : Str} {a0 e0 a e k : Nat} {ex : Expr} {desc : Desc} {vs : List (Str × Nat × Nat)} {es : List Expr} {as : List Arg} : Is typedef db e0 desc →
      Place typedef db m lossy floatStr v a0 e0 ex a e → (Ordinary typedef e → ex = .var v) → SizeIs typedef db e k → Passed typedef db m lossy floatStr vs es as →
      Passed typedef db m lossy floatStr ((v, a0, e0) :: vs) (ex :: es) (⟨hexStr a, .pointer, some k⟩ :: as)

/-- Specification: the parameters among the entries directly inside a function are this many. -/
inductive Arity : List (Tree Die) → Nat → Prop
  | nil : Arity [] 0
  | arg {k : Tree Die} {ty : Nat} {ks : List (Tree Die)} {n : Nat} : IsArg k ty → Arity ks n → Arity (k :: ks) (n + 1)
  | other {k : Tree Die} {ks : List (Tree Die)} {n : Nat} : (∀ ty, ¬ IsArg k ty) → Arity ks n → Arity (k :: ks) n

/-- The function `n` is called `f` and is in a module whose path ends in `ms`, and the symbol table has code for it at `a`. -/
def Fitting (w : Libs) (x : Executable) (ms : List Str) (f : Str) (n : SymbolName) (a : Nat) : Prop :=
  CodeOf w x n a ∧ n.lookupName = f ∧ ∃ outer, n.modulePath = outer ++ ms

/-- Specification: the function that is called under the name `ms::f`: the first in the order of names among those that fit. Its code is at `a`, and it has the entry `g`. -/
structure Callee (w : Libs) (x : Executable) (us : List UnitOf) (ms : List Str) (f : Str) (a : Nat) (g : Tree Die) : Prop where
  fits : ∃ n, Fitting w x ms f n a ∧ EntryOf w x us n g.die ∧ ∀ n' a', Fitting w x ms f n' a' → n'.cmp n ≠ .lt
  node : g ∈ nodes us

/-! ### Proofs -/

section
variable {w : Libs} {x : Executable} {us : List UnitOf}

theorem place_size {typedef : Nat → Option Layout} {db : Parse.Db}
    (hw : TypeRes.WellFormed db) (hdec : TypeRes.Decodes db) {e k : Nat} (h : SizeIs typedef db e k) :
    ∃ N, ∀ d, N ≤ d → ∀ td, (resolveType typedef db d e = .ok td ∨ (¬ Ordinary typedef e ∧ shallow typedef db d e = .ok td)) → td.size = .ok (some k) := by
  obtain ⟨N, hN⟩ := size_ok hw hdec (m := fun _ => none) (lossy := fun _ => []) (floatStr := fun _ _ => []) h
  have hI : ∃ desc, Is typedef db e desc := by
    cases h with
    | one hI _ => exact ⟨_, hI⟩
    | array hI _ _ _ _ => exact ⟨_, hI⟩
  obtain ⟨desc, hI⟩ := hI
  obtain ⟨M, hM⟩ := types_at hw hdec hI
  refine ⟨max N M + 1, fun d hd td htd => ?_⟩
  obtain ⟨d, rfl⟩ : ∃ j, d = j + 1 := ⟨d - 1, by omega⟩
  have hres := (hM (d + 1) (by omega)).2.1
  obtain ⟨t', ht'⟩ := TypeRes.shallow_of_resolveType (hM d (by omega)).2.1
  have hty : shallow typedef db (d + 1) e = .ok (ty typedef db (d + 1) e) := by rw [ht', ty_eq ht']
  obtain ⟨et, -, h2, h3⟩ := hN (d + 1) (d + 1) (d + 1) (by omega) (by omega) (by omega) hty
  rcases htd with htd | ⟨ho, htd⟩
  · rw [h3] at htd; cases htd; exact h2
  · rw [resolve_of_shallow' ho htd] at h3
    cases h3; exact h2

theorem passed_all {typedef : Nat → Option Layout} {db : Parse.Db} {m : Mem} {lossy : List UInt8 → Str} {floatStr : Nat → Nat → Str}
    (hw : TypeRes.WellFormed db) (hdec : TypeRes.Decodes db) {vs : List (Str × Nat × Nat)} {es : List Expr} {as : List Arg}
    (h : Passed typedef db m lossy floatStr vs es as) :
    ∃ N, ∀ (σ : Type) (W : Eval.World σ) (p : σ) (pc depth : Nat) (cs : List Server.Event), N ≤ depth → N ≤ W.stack →
      (∀ v ∈ vs, RootAt W p pc typedef db depth v.1 v.2.1 v.2.2) → Shown.Strict (W.target p) (target typedef db m lossy floatStr depth) →
      ∀ (ts : List TypeDef) (pc0 : Option Nat), pc0 = none ∨ pc0 = some pc →
      ∃ pc', (pc' = none ∨ pc' = some pc) ∧ PassesAll W es ts ⟨pc0, cs, p⟩ as ⟨pc', cs, p⟩ := by
  induction h with
  | nil => exact ⟨0, fun σ W p pc depth cs _ _ _ _ ts pc0 hpc => ⟨pc0, hpc, .nil⟩⟩
  | @number n vs es as h ih =>
    obtain ⟨N, hN⟩ := ih
    refine ⟨N, fun σ W p pc depth cs hd hst hr hS ts pc0 hpc => ?_⟩
    obtain ⟨pc', hpc', h'⟩ := hN σ W p pc depth cs hd hst hr hS ts.tail pc0 hpc
    refine ⟨pc', hpc', .cons (s1 := ⟨pc0, cs, p⟩) ?_ h'⟩
    have := Passes.number (W := W) (n := n) (t := ts.head?) (s := ⟨pc0, cs, p⟩)
    rw [natStr_toString]
    exact this
  | @place v a0 e0 a e k ex desc vs es as h0 hp ho hsz h ih =>
    obtain ⟨N, hN⟩ := ih
    obtain ⟨M, hM⟩ := place_found_from hw hdec hp
    obtain ⟨K, hK⟩ := place_size hw hdec hsz
    refine ⟨max N (max M K), fun σ W p pc depth cs hd hst hr hS ts pc0 hpc => ?_⟩
    obtain ⟨td, htd, href⟩ := hM σ W p pc depth pc0 cs hpc (by omega) (by omega) (hr _ (List.mem_cons_self ..)) hS
    obtain ⟨pc', hpc', h'⟩ := hN σ W p pc depth cs (by omega) (by omega) (fun v hv => hr v (List.mem_cons_of_mem _ hv)) hS ts.tail (some pc) (.inr rfl)
    refine ⟨pc', hpc', .cons (.place ?_ href (hK depth (by omega) td ?_)) h'⟩
    · cases hp <;> trivial
    · rcases htd with ⟨htd, -⟩ | htd
      · exact .inl htd
      · by_cases hoe : Ordinary typedef e
        · have := ho hoe
          subst this
          cases hp
          obtain ⟨hf, td', htd', hv⟩ := hr _ (List.mem_cons_self ..)
          refine .inl ?_
          have : Eval.toRef W (.var v) ⟨pc0, cs, p⟩ = (.ok (a0, td'), ⟨some pc, cs, p⟩) := by
            rcases hpc with rfl | rfl <;> simp only [Eval.toRef, Eval.variableRef, Eval.Ev.bind, Eval.getPc, hf, Eval.Ev.reading, hv, Eval.Ev.lift]
          rw [this] at href
          cases href
          exact htd'
        · exact .inr ⟨hoe, htd⟩

theorem Arity.args {ks : List (Tree Die)} {n : Nat} (h : Arity ks n) {called : Nat → Str → Prop} {i : Nat} {texts : List Str} (ha : Args called i ks texts) : texts.length = n := by
  induction h generalizing i texts with
  | nil => cases ha; rfl
  | arg h1 h2 ih =>
    cases ha with
    | arg _ _ _ h => rw [List.length_cons, ih h]
    | other h _ => exact absurd ⟨h1.1, _, h1.2⟩ h
  | other h1 h2 ih =>
    cases ha with
    | arg h3 h4 _ _ => exact absurd ⟨h3, h4⟩ (h1 _)
    | other _ h => exact ih h

/-- What is called under a name, with the types of its parameters. -/
theorem callee_typed (hc : Compiled w x us) {ms : List Str} {f : Str} (hm : ∀ m ∈ ms, CleanSegment m) (hf : CleanSegment f) (hh : looksLikeHash f = false)
    (hty : ∀ n a t, Fitting w x ms f n a → t ∈ nodes us → EntryOf w x us n t.die → ∀ ty, InSignature t ty → ∃ text, TypeCalled w x ty text)
    {addr : Nat} {g : Tree Die} (hg : Callee w x us ms f addr g) {k : Nat} (hk : Arity g.kids k) :
    ∃ N, ∀ stack depth, N ≤ depth → ∃ b found rest, binary w stack depth x = .ok b ∧ Discovery.discover b.world (joinSep (ms ++ [f])) = .ok (found :: rest) ∧
      found.address = addr ∧ found.params.length = k ∧
      (∀ ty, g.die.attr .type = some (.ref ty) → ∃ td, found.ret = some td ∧ resolveType (typedef w.lib x) (fileDb x.units) depth ty = .ok td) ∧
      ((∀ ty, g.die.attr .type ≠ some (.ref ty)) → found.ret = none) ∧
      ∃ tys, ArgTypes g.kids tys ∧ List.Forall₂ (fun ty td => resolveType (typedef w.lib x) (fileDb x.units) depth ty = .ok td) tys (found.params.map (·.2)) := by
  have hw : TypeRes.WellFormed (fileDb x.units) := by rw [hc.units]; exact C95_well_formed us hc.offsets hc.apart
  have hdec : TypeRes.Decodes (fileDb x.units) := C95_decodes _
  obtain ⟨N, hN⟩ := Shown.list_bound (nodes us) (fun k depth => ∀ ty, k.die.attr .type = some (.ref ty) → (∃ text, TypeCalled w x ty text) → Resolves w x depth ty) (by
    intro k _
    by_cases hk : ∃ ty, k.die.attr .type = some (.ref ty) ∧ ∃ text, TypeCalled w x ty text
    · obtain ⟨ty, hk, text, hcl⟩ := hk
      obtain ⟨⟨desc, hI⟩, hC⟩ := hcl
      obtain ⟨N1, h1⟩ := Shown.types_at hw hdec hI
      obtain ⟨N2, h2⟩ := Shown.called_ok hw hdec hC
      refine ⟨max N1 N2, fun depth hd ty' hk' _ => ?_⟩
      rw [hk] at hk'
      cases hk'
      have h3 := (h1 depth (by omega)).2.1
      exact ⟨text, _, ⟨⟨desc, hI⟩, hC⟩, h3, h2 depth (by omega) _ h3⟩
    · exact ⟨0, fun _ _ ty h1 h2 => absurd ⟨ty, h1, h2⟩ hk⟩)
  refine ⟨N, fun stack depth hd => ?_⟩
  obtain ⟨fns, ix, b, hb, hbw, -, hby⟩ := world_of hc stack depth
  let p : SymbolName := ⟨f, [], ms, joinSep (ms ++ [f])⟩
  have hp : SymbolName.parse (joinSep (ms ++ [f])) = some p := by rw [SymbolName.parse, C11_roundtrip ms f hm hf hh]; rfl
  let ops : List IndexOp := [.binary (entries w x) 0]
  let ss := (Discovery.allSymbols (buildIndex ops)).filter fun s => Discovery.matchesPattern s.name p
  have hmem : ∀ y, y ∈ ss ↔ Discovery.Fits ops p y := fun y => Discovery.mem_matches ops p y
  have hres : ∀ y ∈ ss, ∀ t ∈ nodes us, EntryOf w x us y.name t.die → ∀ ty, InSignature t ty → Resolves w x depth ty := by
    intro y hy t ht hE ty hty'
    obtain ⟨h1, h2, h3⟩ := (hmem y).1 hy
    obtain ⟨hcode, -⟩ := (inForce_iff_code w x y).1 h1
    have hT := hty y.name y.address t ⟨hcode, h2, h3⟩ ht hE ty hty'
    rcases hty' with h | ⟨k, hk, -, h⟩
    · exact hN depth hd t ht ty h hT
    · exact hN depth hd k (nodes_kids ht hk) ty h hT
  have hsorted : ss.Pairwise fun a b => a.name.cmp b.name = .lt := (Discovery.allSymbols_sorted ops).filter _
  obtain ⟨⟨n, ⟨hcode, hn, hpath⟩, hE, hfirst⟩, hnode⟩ := hg
  have hin : (⟨n, addr, 0⟩ : Symbol) ∈ ss := (hmem _).2 ⟨(inForce_iff_code w x _).2 ⟨hcode, rfl⟩, hn, hpath⟩
  have hall : ∀ l : List Symbol, (∀ y ∈ l, y ∈ ss) → ∃ fs, Discovery.describeAll (world w depth x fns ix) l = .ok fs := by
    intro l
    induction l with
    | nil => exact fun _ => ⟨[], rfl⟩
    | cons y l ih =>
      intro h
      obtain ⟨r, h1, -⟩ := describe_line hc hby (ix := ix) y ((hmem y).1 (h y (List.mem_cons_self ..))).1 (hres y (h y (List.mem_cons_self ..)))
      obtain ⟨fs, h3⟩ := ih fun y hy => h y (List.mem_cons_of_mem _ hy)
      exact ⟨r :: fs, by simp only [Discovery.describeAll, h1, h3, Res.bind_ok]⟩
  have hdisc : Discovery.discover b.world (joinSep (ms ++ [f])) = Discovery.describeAll (world w depth x fns ix) ss := by
    rw [hbw]
    simp only [Discovery.discover, hp, Res.ofOption, Res.bind_ok, Discovery.discoverFunctions]
    rfl
  have hhead : ∃ rest, ss = ⟨n, addr, 0⟩ :: rest := by
    cases hss : ss with
    | nil => rw [hss] at hin; cases hin
    | cons y rest =>
      rw [hss] at hin hsorted
      rcases List.mem_cons.1 hin with h | h
      · exact ⟨rest, by rw [h]⟩
      · have hlt := (List.pairwise_cons.1 hsorted).1 _ h
        obtain ⟨h1, h2, h3⟩ := (hmem y).1 (by rw [hss]; exact List.mem_cons_self ..)
        exact absurd hlt (hfirst y.name y.address ⟨((inForce_iff_code w x y).1 h1).1, h2, h3⟩)
  obtain ⟨rest, hss⟩ := hhead
  obtain ⟨rs, o, texts, tail, h1, h3, h4, -, -, h5, h6⟩ := describe_entry hc hby (ix := ix) ⟨n, addr, 0⟩ ((hmem _).1 hin).1 hnode hE (hres _ hin g hnode hE)
  obtain ⟨fs, hfs⟩ := hall rest fun y hy => by rw [hss]; exact List.mem_cons_of_mem _ hy
  refine ⟨b, ⟨n.lookupName, n.display, Discovery.signature n rs o, addr, true, n.modulePath, o, rs⟩, fs, hb, ?_, rfl, ?_, h5, h6⟩
  · rw [hdisc, hss]
    simp only [Discovery.describeAll, h1, hfs, Res.bind_ok]
  · have := hk.args h3
    rw [← h4, List.length_mapIdx] at this
    exact this

/-- What is called under a name. -/
theorem callee_found (hc : Compiled w x us) {ms : List Str} {f : Str} (hm : ∀ m ∈ ms, CleanSegment m) (hf : CleanSegment f) (hh : looksLikeHash f = false)
    (hty : ∀ n a t, Fitting w x ms f n a → t ∈ nodes us → EntryOf w x us n t.die → ∀ ty, InSignature t ty → ∃ text, TypeCalled w x ty text)
    {addr : Nat} {g : Tree Die} (hg : Callee w x us ms f addr g) {k : Nat} (hk : Arity g.kids k) :
    ∃ N, ∀ stack depth, N ≤ depth → ∃ b found rest, binary w stack depth x = .ok b ∧ Discovery.discover b.world (joinSep (ms ++ [f])) = .ok (found :: rest) ∧
      found.address = addr ∧ found.params.length = k ∧
      (∀ ty, g.die.attr .type = some (.ref ty) → ∃ td, found.ret = some td ∧ resolveType (typedef w.lib x) (fileDb x.units) depth ty = .ok td) ∧
      ((∀ ty, g.die.attr .type ≠ some (.ref ty)) → found.ret = none) := by
  obtain ⟨N, hN⟩ := callee_typed hc hm hf hh hty hg hk
  refine ⟨N, fun stack depth hd => ?_⟩
  obtain ⟨b, found, rest, h1, h2, h3, h4, h5, h6, -⟩ := hN stack depth hd
  exact ⟨b, found, rest, h1, h2, h3, h4, h5, h6⟩

/-- The variables are found where they are. -/
theorem variables_found {u : UnitOf} {files : UnitFiles} {t : Tree Die} (hs : Stops w x us u files t) (vs : List (Str × Nat × Nat))
    (hI : ∀ v ∈ vs, ∃ desc, Is (typedef w.lib x) (fileDb x.units) v.2.2 desc) :
    ∃ N, ∀ stack depth, N ≤ depth → ∃ b, binary w stack depth x = .ok b ∧ b.stack = stack ∧ TypesFrom b (typedef w.lib x) (fileDb x.units) w.lossy w.floatStr depth ∧
      ∀ (σ : Type) (L : Remote.Lldb σ) (s : σ) (fr : Remote.Frame), Remote.Live L s → Remote.Selected L s fr →
      ∀ rel line, StoppedIn w x us t fr.pc rel → LineAt files rel line → (∀ v ∈ vs, Local x files t fr v.1 v.2.1 v.2.2) →
      ∀ v ∈ vs, RootAt (b.info.world L) s fr.pc (typedef w.lib x) (fileDb x.units) depth v.1 v.2.1 v.2.2 := by
  obtain ⟨N, hN⟩ := Shown.list_bound vs (fun v depth => ∀ stack b, binary w stack depth x = .ok b →
      ∀ (σ : Type) (L : Remote.Lldb σ) (s : σ) (fr : Remote.Frame), Remote.Live L s → Remote.Selected L s fr →
      ∀ rel line, StoppedIn w x us t fr.pc rel → LineAt files rel line → Local x files t fr v.1 v.2.1 v.2.2 →
      RootAt (b.info.world L) s fr.pc (typedef w.lib x) (fileDb x.units) depth v.1 v.2.1 v.2.2) (by
    intro v hv
    obtain ⟨desc, hI⟩ := hI v hv
    obtain ⟨N, hN⟩ := variable_found hs.compiled hI hs.unit hs.fn hs.types
    refine ⟨N, fun depth hd stack b hb σ L s fr hlive hsel rel line hstop hline hloc => ?_⟩
    obtain ⟨b', hb', -, -, h⟩ := hN stack depth hd
    rw [hb] at hb'
    cases hb'
    exact h σ L s fr v.1 v.2.1 hlive hsel rel line hstop hline hloc)
  refine ⟨N, fun stack depth hd => ?_⟩
  obtain ⟨b, hb, hT, -⟩ := C96_opens hs.compiled stack depth
  have hbs : b.stack = stack := by
    obtain ⟨fns, hfns, -⟩ := C53_by_name (syms w x) 0 false us hs.compiled.functions
    obtain ⟨ix, hix, -⟩ := C39_entry_in_its_module us hs.compiled.file
    simp only [binary, hs.compiled.units, hfns, hix, Res.bind_ok, Res.ok.injEq] at hb
    rw [← hb]
  exact ⟨b, hb, hbs, hT, fun σ L s fr hlive hsel rel line hstop hline hloc v hv => hN depth hd v hv stack b hb σ L s fr hlive hsel rel line hstop hline (hloc v hv)⟩

theorem Passed.described {typedef : Nat → Option Layout} {db : Parse.Db} {m : Mem} {lossy : List UInt8 → Str} {floatStr : Nat → Nat → Str} {vs : List (Str × Nat × Nat)} {es : List Expr}
    {as : List Arg} (h : Passed typedef db m lossy floatStr vs es as) : ∀ v ∈ vs, ∃ desc, Is typedef db v.2.2 desc := by
  induction h with
  | nil => intro v hv; cases hv
  | number _ ih => exact ih
  | place h0 _ _ _ _ ih =>
    intro v hv
    rcases List.mem_cons.1 hv with rfl | hv
    · exact ⟨_, h0⟩
    · exact ih v hv

/-! ### C100 -/

/-- Specification: what happens to the program, and what is printed, when the user types a call of `ms::f` with these arguments - for which `as` is passed, where the variables that are used are `vs` and the memory is `m0` - while the program is
stopped at the start of a line of the function `t`: LLDB is given the text `call` to run, in the state `s` that the program is in, and if it gives the value `a`, the user is shown `r`. The memory then is `m`. -/
def CallPrints (w : Libs) (x : Executable) (us : List UnitOf) (files : UnitFiles) (t : Tree Die) (m0 m : Mem) (vs : List (Str × Nat × Nat)) (ex : Expr) (call : Str) (a : Nat) (r : Listing.Printed) : Prop :=
  ∃ N, ∀ stack depth, N ≤ stack → N ≤ depth → ∃ b, binary w stack depth x = .ok b ∧
    ∀ (σ : Type) (L : Remote.Lldb σ) (mem : σ → Mem) (other : Wire.Json → Str) (s s' : σ) (fr : Remote.Frame) (text : Str) (load addr : Option Nat) (ty summary : Option Str),
    Remote.ReadsMemory L mem → Remote.Live L s → Remote.Live L s' → Remote.Selected L s fr → mem s = m0 → mem s' = m → Whole.Typed text ex →
    ∀ rel line, StoppedIn w x us t fr.pc rel → LineAt files rel line → (∀ v ∈ vs, Local x files t fr v.1 v.2.1 v.2.2) →
    L.evaluate s call = (.value true false a load addr ty summary, s') →
    rd L other b.program.backend s text = some (r, s')

variable {u : UnitOf} {files : UnitFiles} {t : Tree Die} {m0 m : Mem} {ms : List Str} {f : Str}

/-- C100, from the executable to a call: the user types `rd print a::b::f(1, x.y)` while the program is stopped at the start of a line of a function. The function that is run - once, and nothing else is - is the first of those called `f` in modules that end in
`a::b`, at the address the symbol table has for it; it is given the numbers and the addresses of the places; and what is printed is the name of the type that its entry declares for its result and the value that memory holds at the address it
returned. For functions that return nothing the claim is false, see below. -/
theorem C100_function_partial (hs : Stops w x us u files t) (hm : ∀ m ∈ ms, CleanSegment m) (hf : CleanSegment f) (hh : looksLikeHash f = false)
    (hty : ∀ n a t, Fitting w x ms f n a → t ∈ nodes us → EntryOf w x us n t.die → ∀ ty, InSignature t ty → ∃ text, TypeCalled w x ty text)
    {addr : Nat} {g : Tree Die} (hg : Callee w x us ms f addr g) (h0 : addr ≠ 0) {vs : List (Str × Nat × Nat)} {es : List Expr} {as : List Arg}
    (hp : Passed (typedef w.lib x) (fileDb x.units) m0 w.lossy w.floatStr vs es as) (hk : Arity g.kids es.length)
    {e k : Nat} (hret : g.die.attr .type = some (.ref e)) (hsz : SizeIs (typedef w.lib x) (fileDb x.units) e k) (hk64 : k < 2 ^ 64)
    {n a : Nat} {val : RVal} {name : Str} (hn : n ≤ 4) (hv : Holds (typedef w.lib x) (fileDb x.units) m w.lossy w.floatStr n a e val) (hne : ¬ val.Has (emptyText w.lossy))
    (hcl : Called (typedef w.lib x) (fileDb x.units) w.lib.render e name) (ha0 : a ≠ 0) (ha : a < 2 ^ 64 - 1) :
    CallPrints w x us files t m0 m vs (.call (joinSep (ms ++ [f])) es) (Calls.functionExpr addr as (some k)) a
      (.text (page [chars! "type: " ++ name, chars! "value: " ++ val.text])) := by
  have hw := hs.wellFormed
  have hdec : TypeRes.Decodes (fileDb x.units) := C95_decodes _
  obtain ⟨N1, h1⟩ := variables_found hs vs hp.described
  obtain ⟨N2, h2⟩ := passed_all hw hdec hp
  obtain ⟨N3, h3⟩ := callee_found hs.compiled hm hf hh hty hg hk
  obtain ⟨N4, h4⟩ := C89_function_any_partial hw hdec hn hv hne hcl
  obtain ⟨N5, h5⟩ := place_size hw hdec hsz
  refine ⟨max (max N1 N2) (max N3 (max N4 N5)), fun stack depth hst hd => ?_⟩
  obtain ⟨b, hb, hbs, hT, hroot⟩ := h1 stack depth (by omega)
  obtain ⟨b', found, rest, hb', hdisc, haddr, hlen, hret', -⟩ := h3 stack depth (by omega)
  rw [hb] at hb'
  cases hb'
  obtain ⟨td, hfr, htd⟩ := hret' e hret
  refine ⟨b, hb, fun σ L mem other s s' fr text load addr' ty summary hL hlive hlive' hsel hm0 hm' htx rel line hstop hline hloc hrun => ?_⟩
  have hS : Shown.Strict ((b.info.world L).target s) (target (typedef w.lib x) (fileDb x.units) m0 w.lossy w.floatStr depth) := by
    rw [← hm0]; exact strict_of L b hL hlive hT
  obtain ⟨pc', -, hpass⟩ := h2 σ (b.info.world L) s fr.pc depth [] (by omega) (by show _ ≤ b.stack; omega)
    (hroot σ L s fr hlive hsel rel line hstop hline hloc) hS (ofFunction found).params none (.inl rfl)
  exact h4 σ L mem other b s s' ⟨pc', [], s⟩ text _ es as depth k found rest td load addr' ty summary (by omega) (by omega) hL hlive hlive' hm' hT htx hdisc
    (by rw [haddr]; exact h0) hlen hpass hfr htd (h5 depth (by omega) td (.inl htd)) hk64 (by rw [haddr]; exact hrun) ha0 ha

/-- C100: a call with more or fewer arguments than the function has parameters is an error, and nothing is run. -/
theorem C100_arity (hc : Compiled w x us) (hm : ∀ m ∈ ms, CleanSegment m) (hf : CleanSegment f) (hh : looksLikeHash f = false)
    (hty : ∀ n a t, Fitting w x ms f n a → t ∈ nodes us → EntryOf w x us n t.die → ∀ ty, InSignature t ty → ∃ text, TypeCalled w x ty text)
    {addr : Nat} {g : Tree Die} (hg : Callee w x us ms f addr g) {k : Nat} (hk : Arity g.kids k) (es : List Expr) (hne : es.length ≠ k) :
    ∃ N, ∀ stack depth, N ≤ depth → ∃ b, binary w stack depth x = .ok b ∧
      ∀ (σ : Type) (L : Remote.Lldb σ) (other : Wire.Json → Str) (s : σ) (text : Str), Whole.Typed text (.call (joinSep (ms ++ [f])) es) →
      rd L other b.program.backend s text = some (.error, s) := by
  obtain ⟨N, hN⟩ := callee_found hc hm hf hh hty hg hk
  refine ⟨N, fun stack depth hd => ?_⟩
  obtain ⟨b, found, rest, hb, hdisc, haddr, hlen, -⟩ := hN stack depth hd
  refine ⟨b, hb, fun σ L other s text ⟨sub, a, as, h4, h5, h6⟩ => ?_⟩
  refine Listing.C84_value_error L other _ s text sub a as h4 h5 s (.inr ⟨_, h6, ?_⟩)
  rw [Whole.C86_evaluated]
  have hfs : (b.info.world L).functions (joinSep (ms ++ [f])) = .ok (ofFunction found :: rest.map ofFunction) := ofFunction_of hdisc
  have hev : Eval.evaluate (b.info.world L) (.call (joinSep (ms ++ [f])) es) (St.new s) = (.err, St.new s) := by
    simp only [Eval.evaluate, Eval.executeFunction, Eval.Ev.bind, Eval.Ev.lift, hfs, List.head?_cons, Res.ofOption]
    by_cases h0 : (ofFunction found).address = 0
    · simp [h0, Eval.Ev.lift]
    · have : es.length ≠ (ofFunction found).params.length := by simpa [ofFunction, hlen] using hne
      simp [h0, this, Eval.Ev.lift]
  rw [hev]; rfl

/-- C100: a call of a function that there is no code for is an error, and nothing is run. -/
theorem C100_unknown (hc : Compiled w x us) (hm : ∀ m ∈ ms, CleanSegment m) (hf : CleanSegment f) (hh : looksLikeHash f = false)
    (hno : ∀ n a, ¬ Fitting w x ms f n a) (es : List Expr) (stack depth : Nat) :
    ∃ b, binary w stack depth x = .ok b ∧
      ∀ (σ : Type) (L : Remote.Lldb σ) (other : Wire.Json → Str) (s : σ) (text : Str), Whole.Typed text (.call (joinSep (ms ++ [f])) es) →
      rd L other b.program.backend s text = some (.error, s) := by
  obtain ⟨fns, ix, b, hb, hbw, -, hby⟩ := world_of hc stack depth
  let p : SymbolName := ⟨f, [], ms, joinSep (ms ++ [f])⟩
  have hp : SymbolName.parse (joinSep (ms ++ [f])) = some p := by rw [SymbolName.parse, C11_roundtrip ms f hm hf hh]; rfl
  let ops : List IndexOp := [.binary (entries w x) 0]
  have hss : ((Discovery.allSymbols (buildIndex ops)).filter fun s => Discovery.matchesPattern s.name p) = [] := by
    rw [List.eq_nil_iff_forall_not_mem]
    intro y hy
    obtain ⟨h1, h2, h3⟩ := (Discovery.mem_matches ops p y).1 hy
    exact hno y.name y.address ⟨((inForce_iff_code w x y).1 h1).1, h2, h3⟩
  have hdisc : Discovery.discover b.world (joinSep (ms ++ [f])) = .ok [] := by
    rw [hbw]
    simp only [Discovery.discover, hp, Res.ofOption, Res.bind_ok, Discovery.discoverFunctions]
    show Discovery.describeAll _ ((Discovery.allSymbols (buildIndex ops)).filter fun s => Discovery.matchesPattern s.name p) = _
    rw [hss]; rfl
  refine ⟨b, hb, fun σ L other s text ⟨sub, a, as, h4, h5, h6⟩ => ?_⟩
  refine Listing.C84_value_error L other _ s text sub a as h4 h5 s (.inr ⟨_, h6, ?_⟩)
  rw [Whole.C86_evaluated]
  have hfs : (b.info.world L).functions (joinSep (ms ++ [f])) = .ok [] := by
    show (Discovery.discover b.world _).bind _ = _
    rw [hdisc]; rfl
  have hev : Eval.evaluate (b.info.world L) (.call (joinSep (ms ++ [f])) es) (St.new s) = (.err, St.new s) := by
    simp only [Eval.evaluate, Eval.executeFunction, Eval.Ev.bind, Eval.Ev.lift, hfs, List.head?_nil, Res.ofOption]
  rw [hev]; rfl

/-- C100 is false of functions that return nothing: the call prints a number of the type `usize` - whatever LLDB gives for the value of a call of a function that is declared to return one. -/
theorem C100_no_result_fails (hs : Stops w x us u files t) (hm : ∀ m ∈ ms, CleanSegment m) (hf : CleanSegment f) (hh : looksLikeHash f = false)
    (hty : ∀ n a t, Fitting w x ms f n a → t ∈ nodes us → EntryOf w x us n t.die → ∀ ty, InSignature t ty → ∃ text, TypeCalled w x ty text)
    {addr : Nat} {g : Tree Die} (hg : Callee w x us ms f addr g) (h0 : addr ≠ 0) {vs : List (Str × Nat × Nat)} {es : List Expr} {as : List Arg}
    (hp : Passed (typedef w.lib x) (fileDb x.units) m0 w.lossy w.floatStr vs es as) (hk : Arity g.kids es.length)
    (hret : ∀ ty, g.die.attr .type ≠ some (.ref ty)) {a : Nat} (ha : a < 2 ^ 64) :
    CallPrints w x us files t m0 m vs (.call (joinSep (ms ++ [f])) es) (Calls.functionExpr addr as none) a
      (.text (page [chars! "type: usize", chars! "value: " ++ natStr a])) := by
  have hw := hs.wellFormed
  have hdec : TypeRes.Decodes (fileDb x.units) := C95_decodes _
  obtain ⟨N1, h1⟩ := variables_found hs vs hp.described
  obtain ⟨N2, h2⟩ := passed_all hw hdec hp
  obtain ⟨N3, h3⟩ := callee_found hs.compiled hm hf hh hty hg hk
  refine ⟨max (max N1 N2) N3, fun stack depth hst hd => ?_⟩
  obtain ⟨b, hb, hbs, hT, hroot⟩ := h1 stack depth (by omega)
  obtain ⟨b', found, rest, hb', hdisc, haddr, hlen, -, hret'⟩ := h3 stack depth (by omega)
  rw [hb] at hb'
  cases hb'
  refine ⟨b, hb, fun σ L mem other s s' fr text load addr' ty summary hL hlive hlive' hsel hm0 hm' htx rel line hstop hline hloc hrun => ?_⟩
  have hS : Shown.Strict ((b.info.world L).target s) (target (typedef w.lib x) (fileDb x.units) m0 w.lossy w.floatStr depth) := by
    rw [← hm0]; exact strict_of L b hL hlive hT
  obtain ⟨pc', -, hpass⟩ := h2 σ (b.info.world L) s fr.pc depth [] (by omega) (by show _ ≤ b.stack; omega)
    (hroot σ L s fr hlive hsel rel line hstop hline hloc) hS (ofFunction found).params none (.inl rfl)
  have hx : Shown.RanFunction (b.info.world L) (joinSep (ms ++ [f])) es (St.new s) none (.simple a (chars! "usize"))
      ⟨pc', [] ++ [.executeFunction addr as none], s'⟩ := by
    refine ⟨ofFunction found, rest.map ofFunction, as, ⟨pc', [], s⟩, none, s', ofFunction_of hdisc, by show found.address ≠ 0; rw [haddr]; exact h0, ?_, (hret' hret).symm,
      (Eval.convertArgs_ok ..).2 hpass, ?_, ?_, by rw [← haddr]; rfl⟩
    · simp [ofFunction, hlen]
    · show Eval.sizeOpt found.ret = _
      rw [hret' hret]; rfl
    · have := (Remote.C77_called (base := 0) (args := as) L hlive (load := load) (addr := addr') (t := ty) (u := summary) (address := addr) ha).2 hrun
      simp only [Ask.Info.world, ofFunction, haddr, this, Remote.okOf]
  have hev := (Shown.C82_function (b.info.world L) _ es (St.new s) _ (natStr a, chars! "usize")).2 ⟨none, _, hx, .inl ⟨a, _, rfl, rfl⟩⟩
  rw [rd_value L other b s htx hev]
  rfl

/-! ### Methods -/

/-- Specification: the method `name` of the type `own`, called `S`, that is called: the first of those with this name and a receiver among the functions in the entries of the type and in the `impl` blocks of its module. -/
def MethodOf (w : Libs) (x : Executable) (S : Str) (own : Desc) (m : Tree Die) (homes : List (Tree Die)) (name : Str) (g : Tree Die) : Prop :=
  ∃ pre post, functionsIn (homes.flatMap Tree.kids ++ (m.kids.filter isImplBlock).flatMap Tree.kids) = pre ++ g :: post ∧ HasReceiver w x S own g ∧
    nameOr g.die (chars! "<anonymous>") = name ∧ ∀ g' ∈ pre, HasReceiver w x S own g' → nameOr g'.die (chars! "<anonymous>") ≠ name

theorem made_split {P : Tree Die → Discovery.Method → Prop} {pre post : List (Tree Die)} {g : Tree Die} {all : List Discovery.Method} (h : List.Forall₂ P (pre ++ g :: post) all) :
    ∃ before f after, all = before ++ f :: after ∧ P g f ∧ List.Forall₂ P pre before := by
  induction pre generalizing all with
  | nil =>
    cases h with
    | cons h1 h2 => exact ⟨[], _, _, rfl, h1, .nil⟩
  | cons p pre ih =>
    cases h with
    | cons h1 h2 =>
      obtain ⟨before, f, after, rfl, h3, h4⟩ := ih h2
      exact ⟨_ :: before, f, after, rfl, h3, .cons h1 h4⟩

theorem forall₂_right {P : Tree Die → Discovery.Method → Prop} {ks : List (Tree Die)} {ms : List Discovery.Method} (h : List.Forall₂ P ks ms) : ∀ m ∈ ms, ∃ k ∈ ks, P k m := by
  induction h with
  | nil => intro m hm; cases hm
  | cons h1 _ ih =>
    intro m hm
    rcases List.mem_cons.1 hm with rfl | hm
    · exact ⟨_, List.mem_cons_self .., h1⟩
    · obtain ⟨k, hk, h⟩ := ih m hm
      exact ⟨k, List.mem_cons_of_mem _ hk, h⟩

/-- What the code finds for a variable `v` of the type `own`: the variable itself and the methods of its type. -/
theorem object_found (hs : Stops w x us u files t) {S : Str} {own : Desc} {e : Nat} {md : Tree Die} {path : List Str} {homes : List (Tree Die)} (h : HomeOf w x us S own e md path homes)
    {direct traits : List (Bool × Str)} (hf' : FunctionsOf w x S own md homes direct traits) :
    ∃ N, ∀ stack depth, N ≤ depth → ∃ b, binary w stack depth x = .ok b ∧
      ∃ td all, Discovery.methodsForPointer b.world (located td) = .ok (all.filter (·.selfType.isSome)) ∧ syntheticMethods td.layout = [] ∧
        List.Forall₂ (Made w x S own depth) (functionsIn (homes.flatMap Tree.kids ++ (md.kids.filter isImplBlock).flatMap Tree.kids)) all ∧
        ∀ (σ : Type) (L : Remote.Lldb σ) (s : σ) (pc : Nat) (v : Str) (a : Nat), RootAt (b.info.world L) s pc (typedef w.lib x) (fileDb x.units) depth v a e →
          Eval.toRef (b.info.world L) (.var v) (St.new s) = (.ok (a, td), ⟨some pc, [], s⟩) := by
  obtain ⟨M, hM⟩ := methods_found hs.compiled h hf'
  obtain ⟨K, hK⟩ := Shown.types_at hs.wellFormed (C95_decodes _) h.described
  refine ⟨max M K, fun stack depth hd => ?_⟩
  obtain ⟨fns, ix, b, hb, hwo, hix, -⟩ := world_of hs.compiled stack depth
  obtain ⟨ms, hms, -, -, all, hall, hmade⟩ := hM depth (by omega) fns ix hix _ (.inl ⟨ty (typedef w.lib x) (fileDb x.units) depth, rfl⟩)
  refine ⟨b, hb, full (typedef w.lib x) (fileDb x.units) depth e own, all, ?_, ?_, hmade, fun σ L s pc v a hroot => root_ref (hK depth (by omega)).2.1 hroot⟩
  · rw [hwo, ← hall]
    show Discovery.methodsForPointer _ ⟨0, e, own.layout (Shown.ty (typedef w.lib x) (fileDb x.units) depth)⟩ = _
    simp only [Discovery.methodsForPointer, hms, Res.bind_ok]
  · have := h.named
    cases own <;> first | exact this.elim | rfl

/-- C100, from the executable to a call of a method: the user types `rd print v.m(1, x.y)`. The function that is run is the first of the methods called `m` of the type of the variable `v` - first those in the entries of the type, then those in the
`impl` blocks of its module - at the address the symbol table has for it; it is given the address of `v`, and then the numbers and the addresses of the places that are the arguments (as many as there are: their number is not
compared with that of the parameters); and what is printed is the name of the type that its entry declares for its result and the value that memory holds at the address it returned. -/
theorem C100_method_partial (hs : Stops w x us u files t) {S : Str} {own : Desc} {eo : Nat} {md : Tree Die} {path : List Str} {homes : List (Tree Die)} (h : HomeOf w x us S own eo md path homes)
    {direct traits : List (Bool × Str)} (hf' : FunctionsOf w x S own md homes direct traits) {name : Str} {g : Tree Die} (hg : MethodOf w x S own md homes name g)
    {addr : Nat} (hcode : CodeAt w x g.die addr) (h0 : addr ≠ 0) {v : Str} {obj : Nat} {vs : List (Str × Nat × Nat)} {es : List Expr} {as : List Arg}
    (hp : Passed (typedef w.lib x) (fileDb x.units) m0 w.lossy w.floatStr vs es as)
    {e k : Nat} (hret : g.die.attr .type = some (.ref e)) (hsz : SizeIs (typedef w.lib x) (fileDb x.units) e k) (hk64 : k < 2 ^ 64)
    {n a : Nat} {val : RVal} {rname : Str} (hn : n ≤ 4) (hv : Holds (typedef w.lib x) (fileDb x.units) m w.lossy w.floatStr n a e val) (hne : ¬ val.Has (emptyText w.lossy))
    (hcl : Called (typedef w.lib x) (fileDb x.units) w.lib.render e rname) (ha0 : a ≠ 0) (ha : a < 2 ^ 64 - 1) :
    CallPrints w x us files t m0 m ((v, obj, eo) :: vs) (.method (.var v) name es) (Calls.methodExpr addr obj as (some k)) a
      (.text (page [chars! "type: " ++ rname, chars! "value: " ++ val.text])) := by
  have hw := hs.wellFormed
  have hdec : TypeRes.Decodes (fileDb x.units) := C95_decodes _
  obtain ⟨N1, h1⟩ := variables_found hs ((v, obj, eo) :: vs) (by
    intro v' hv'
    rcases List.mem_cons.1 hv' with rfl | hv'
    · exact ⟨_, h.described⟩
    · exact hp.described v' hv')
  obtain ⟨N2, h2⟩ := passed_all hw hdec hp
  obtain ⟨N3, h3⟩ := object_found hs h hf'
  obtain ⟨N4, h4⟩ := C89_method_any_partial hw hdec hn hv hne hcl
  obtain ⟨N5, h5⟩ := place_size hw hdec hsz
  refine ⟨max (max N1 N2) (max N3 (max N4 N5)), fun stack depth hst hd => ?_⟩
  obtain ⟨b, hb, hbs, hT, hroot⟩ := h1 stack depth (by omega)
  obtain ⟨b', hb', tdo, all, hms, hsyn, hmade, hobj⟩ := h3 stack depth (by omega)
  rw [hb] at hb'
  cases hb'
  obtain ⟨pre, post, hfns, hrec, hname, hfirst⟩ := hg
  rw [hfns] at hmade
  obtain ⟨before, found, after, rfl, ⟨m1, m2, m3, -, m4, -⟩, hbefore⟩ := made_split hmade
  rw [List.filter_append, List.filter_cons, if_pos (m2.2 hrec)] at hms
  obtain ⟨td, hfr, htd⟩ := m4 e hret
  refine ⟨b, hb, fun σ L mem other s s' fr text load addr' ty summary hL hlive hlive' hsel hm0 hm' htx rel line hstop hline hloc hrun => ?_⟩
  have hS : Shown.Strict ((b.info.world L).target s) (target (typedef w.lib x) (fileDb x.units) m0 w.lossy w.floatStr depth) := by
    rw [← hm0]; exact strict_of L b hL hlive hT
  have hR := hroot σ L s fr hlive hsel rel line hstop hline hloc
  obtain ⟨pc', -, hpass⟩ := h2 σ (b.info.world L) s fr.pc depth [] (by omega) (by show _ ≤ b.stack; omega)
    (fun v hv => hR v (List.mem_cons_of_mem _ hv)) hS (ofMethod found).params (some fr.pc) (.inr rfl)
  exact h4 σ L mem other b s s' _ ⟨pc', [], s⟩ text name (.var v) es as depth obj tdo k (before.filter (·.selfType.isSome)) (after.filter (·.selfType.isSome)) found td load addr' ty summary
    (by omega) (by omega) hL hlive hlive' hm' hT htx (hobj σ L s fr.pc v obj (hR _ (List.mem_cons_self ..))) (by rw [hsyn]; exact List.not_mem_nil) hms (by
      intro d hd
      obtain ⟨hd1, hd2⟩ := List.mem_filter.1 hd
      obtain ⟨k', hk', q1, q2, -⟩ := forall₂_right hbefore d hd1
      rw [q1]
      exact hfirst k' hk' (q2.1 hd2)) (by rw [m1, hname]) (by rw [m3 addr hcode]; exact h0) hpass hfr htd (h5 depth (by omega) td (.inl htd)) hk64 (by rw [m3 addr hcode]; exact hrun) ha0 ha

/-- C100: a call of a method that the type of the variable does not have, or that the executable has no code for, is an error, and nothing is run. -/
theorem C100_method_unknown (hs : Stops w x us u files t) {S : Str} {own : Desc} {eo : Nat} {md : Tree Die} {path : List Str} {homes : List (Tree Die)} (h : HomeOf w x us S own eo md path homes)
    {direct traits : List (Bool × Str)} (hf' : FunctionsOf w x S own md homes direct traits) {name : Str}
    (hno : (∀ g ∈ functionsIn (homes.flatMap Tree.kids ++ (md.kids.filter isImplBlock).flatMap Tree.kids), HasReceiver w x S own g → nameOr g.die (chars! "<anonymous>") ≠ name) ∨
      ∃ g, MethodOf w x S own md homes name g ∧ ¬ HasCode w x g.die) (v : Str) (obj : Nat) (es : List Expr) :
    Answers w x us files t m v obj eo (.method (.var v) name es) .error := by
  obtain ⟨N1, h1⟩ := variables_found hs [(v, obj, eo)] (by
    intro v' hv'
    cases List.mem_singleton.1 hv'
    exact ⟨_, h.described⟩)
  obtain ⟨N3, h3⟩ := object_found hs h hf'
  refine ⟨max N1 N3, fun stack depth _ hd => ?_⟩
  obtain ⟨b, hb, hbs, hT, hroot⟩ := h1 stack depth (by omega)
  obtain ⟨b', hb', tdo, all, hms, hsyn, hmade, hobj⟩ := h3 stack depth (by omega)
  rw [hb] at hb'
  cases hb'
  refine ⟨b, hb, fun σ L mem other s fr text hL hlive hsel hm htx rel line hstop hline hloc => ?_⟩
  obtain ⟨sub, a, as, h4, h5, h6⟩ := htx
  refine Listing.C84_value_error L other _ s text sub a as h4 h5 s (.inr ⟨_, h6, ?_⟩)
  rw [Whole.C86_evaluated]
  have hR := hroot σ L s fr hlive hsel rel line hstop hline (by
    intro v' hv'
    cases List.mem_singleton.1 hv'
    exact hloc) _ (List.mem_singleton.2 rfl)
  have hto := hobj σ L s fr.pc v obj hR
  have hmw : (b.info.world L).methods (obj, tdo) = .ok ((all.filter (·.selfType.isSome)).map ofMethod) := ofMethod_of hms
  have hfind : ((all.filter (·.selfType.isSome)).map ofMethod).find? (fun c => c.name == name) = none ∨
      ∃ c, ((all.filter (·.selfType.isSome)).map ofMethod).find? (fun c => c.name == name) = some c ∧ c.address = 0 := by
    rcases hno with hno | ⟨g, ⟨pre, post, hfns, hrec, hname, hfirst⟩, hnc⟩
    · refine .inl (List.find?_eq_none.2 fun c hc => ?_)
      obtain ⟨d, hd, rfl⟩ := List.mem_map.1 hc
      obtain ⟨hd1, hd2⟩ := List.mem_filter.1 hd
      obtain ⟨k', hk', q1, q2, -⟩ := forall₂_right hmade d hd1
      have := hno k' hk' (q2.1 hd2)
      simpa [ofMethod, q1] using this
    · rw [hfns] at hmade
      obtain ⟨before, found, after, rfl, ⟨m1, m2, -, m3, -⟩, hbefore⟩ := made_split hmade
      refine .inr ⟨ofMethod found, ?_, m3 hnc⟩
      rw [List.filter_append, List.filter_cons, if_pos (m2.2 hrec), List.find?_eq_some_iff_append]
      refine ⟨by simp [ofMethod, m1, hname], (before.filter (·.selfType.isSome)).map ofMethod, (after.filter (·.selfType.isSome)).map ofMethod, by simp, ?_⟩
      intro c hc
      obtain ⟨d, hd, rfl⟩ := List.mem_map.1 hc
      obtain ⟨hd1, hd2⟩ := List.mem_filter.1 hd
      obtain ⟨k', hk', q1, q2, -⟩ := forall₂_right hbefore d hd1
      simpa [ofMethod, q1] using hfirst k' hk' (q2.1 hd2)
  have hev : Eval.evaluate (b.info.world L) (.method (.var v) name es) (St.new s) = (.err, ⟨some fr.pc, [], s⟩) := by
    have hcn : (syntheticMethods (obj, tdo).2.layout).contains name ≠ true := by rw [hsyn]; simp
    rw [Eval.evaluate, bind_ok hto, Eval.methodShown, if_neg hcn]
    rcases hfind with hfind | ⟨c, hfind, hc0⟩
    · simp only [Eval.executeMethod, Eval.Ev.bind, Eval.Ev.lift, hmw, hfind, Res.ofOption]
    · simp only [Eval.executeMethod, Eval.Ev.bind, Eval.Ev.lift, hmw, hfind, Res.ofOption, hc0, if_true]
  rw [hev]

/-- C100 is false of methods that return nothing, as it is of such functions. -/
theorem C100_method_no_result_fails (hs : Stops w x us u files t) {S : Str} {own : Desc} {eo : Nat} {md : Tree Die} {path : List Str} {homes : List (Tree Die)}
    (h : HomeOf w x us S own eo md path homes) {direct traits : List (Bool × Str)} (hf' : FunctionsOf w x S own md homes direct traits) {name : Str} {g : Tree Die} (hg : MethodOf w x S own md homes name g)
    {addr : Nat} (hcode : CodeAt w x g.die addr) (h0 : addr ≠ 0) {v : Str} {obj : Nat} {vs : List (Str × Nat × Nat)} {es : List Expr} {as : List Arg}
    (hp : Passed (typedef w.lib x) (fileDb x.units) m0 w.lossy w.floatStr vs es as) (hret : ∀ ty, g.die.attr .type ≠ some (.ref ty)) {a : Nat} (ha : a < 2 ^ 64) :
    CallPrints w x us files t m0 m ((v, obj, eo) :: vs) (.method (.var v) name es) (Calls.methodExpr addr obj as none) a
      (.text (page [chars! "type: usize", chars! "value: " ++ natStr a])) := by
  have hw := hs.wellFormed
  have hdec : TypeRes.Decodes (fileDb x.units) := C95_decodes _
  obtain ⟨N1, h1⟩ := variables_found hs ((v, obj, eo) :: vs) (by
    intro v' hv'
    rcases List.mem_cons.1 hv' with rfl | hv'
    · exact ⟨_, h.described⟩
    · exact hp.described v' hv')
  obtain ⟨N2, h2⟩ := passed_all hw hdec hp
  obtain ⟨N3, h3⟩ := object_found hs h hf'
  refine ⟨max (max N1 N2) N3, fun stack depth hst hd => ?_⟩
  obtain ⟨b, hb, hbs, hT, hroot⟩ := h1 stack depth (by omega)
  obtain ⟨b', hb', tdo, all, hms, hsyn, hmade, hobj⟩ := h3 stack depth (by omega)
  rw [hb] at hb'
  cases hb'
  obtain ⟨pre, post, hfns, hrec, hname, hfirst⟩ := hg
  rw [hfns] at hmade
  obtain ⟨before, found, after, rfl, ⟨m1, m2, m3, -, -, m4⟩, hbefore⟩ := made_split hmade
  rw [List.filter_append, List.filter_cons, if_pos (m2.2 hrec)] at hms
  have hret' := m4.1 hret
  have haddr := m3 addr hcode
  refine ⟨b, hb, fun σ L mem other s s' fr text load addr' ty summary hL hlive hlive' hsel hm0 hm' htx rel line hstop hline hloc hrun => ?_⟩
  have hS : Shown.Strict ((b.info.world L).target s) (target (typedef w.lib x) (fileDb x.units) m0 w.lossy w.floatStr depth) := by
    rw [← hm0]; exact strict_of L b hL hlive hT
  have hR := hroot σ L s fr hlive hsel rel line hstop hline hloc
  obtain ⟨pc', -, hpass⟩ := h2 σ (b.info.world L) s fr.pc depth [] (by omega) (by show _ ≤ b.stack; omega)
    (fun v hv => hR v (List.mem_cons_of_mem _ hv)) hS (ofMethod found).params (some fr.pc) (.inr rfl)
  have hfind : ((before.filter (·.selfType.isSome) ++ found :: after.filter (·.selfType.isSome)).map ofMethod).find? (fun c => c.name == name) = some (ofMethod found) := by
    rw [List.find?_eq_some_iff_append]
    refine ⟨by simp [ofMethod, m1, hname], (before.filter (·.selfType.isSome)).map ofMethod, (after.filter (·.selfType.isSome)).map ofMethod, by simp, ?_⟩
    intro c hc
    obtain ⟨d, hd, rfl⟩ := List.mem_map.1 hc
    obtain ⟨hd1, hd2⟩ := List.mem_filter.1 hd
    obtain ⟨k', hk', q1, q2, -⟩ := forall₂_right hbefore d hd1
    simpa [ofMethod, q1] using hfirst k' hk' (q2.1 hd2)
  have hx : Shown.RanMethod (b.info.world L) (.var v) name es (St.new s) none (.simple a (chars! "usize"))
      ⟨pc', [] ++ [.executeMethod addr obj as none], s'⟩ := by
    refine ⟨(obj, tdo), ⟨some fr.pc, [], s⟩, _, ofMethod found, as, ⟨pc', [], s⟩, none, s', hobj σ L s fr.pc v obj (hR _ (List.mem_cons_self ..)), by rw [hsyn]; exact List.not_mem_nil, ofMethod_of hms, hfind,
      by show found.address ≠ 0; rw [haddr]; exact h0, hret'.symm, (Eval.convertArgs_ok ..).2 hpass, ?_, ?_, by rw [← haddr]; rfl⟩
    · show Eval.sizeOpt found.ret = _
      rw [hret']; rfl
    · have := (Remote.C77_called (base := obj) (args := as) L hlive (load := load) (addr := addr') (t := ty) (u := summary) (address := addr) ha).1 hrun
      simp only [Ask.Info.world, ofMethod, haddr, this, Remote.okOf]
  have hev := (Shown.C82_method (b.info.world L) _ _ es (St.new s) _ _ _ (natStr a, chars! "usize") (hobj σ L s fr.pc v obj (hR _ (List.mem_cons_self ..))) (by rw [hsyn]; exact List.not_mem_nil)).2
    ⟨none, _, hx, .inl ⟨a, _, rfl, rfl⟩⟩
  rw [rd_value L other b s htx hev]
  rfl

end

/-! ### Examples -/

/-- The entry of `get`. -/
def bookGet : Tree Die := bookS.kids[1]'(by decide)
/-- The entry of `step`. -/
def bookStep : Tree Die := (bookMod.kids[4]'(by decide)).kids[0]'(by decide)

/-- The names of the functions of the executable. -/
def bookNameGet : SymbolName := ⟨chars! "get", [], [chars! "m", chars! "S"], chars! "m::S::get"⟩
/-- See `bookNameGet`. -/
def bookNameStep : SymbolName := ⟨chars! "step", [], [chars! "m"], chars! "m::step"⟩

theorem book_names {d : Die} {n : SymbolName} (h : Names toolLibs bookImage d n) : d.tag = .subprogram ∧ linkOf d = some n := by
  obtain ⟨h1, l, h2, -, h3⟩ := h
  exact ⟨h1, by unfold linkOf; rw [h2]; exact h3⟩

theorem book_listed {n : SymbolName} {a : Nat} (h : CodeOf toolLibs bookImage n a) : n = bookNameGet ∨ n.lookupName = chars! "run" ∨ n = bookNameStep := by
  obtain ⟨e, he, hd⟩ := h.listed
  have hall : ∀ e ∈ bookImage.symbols, Symbols.demangle some e.raw = some bookNameGet ∨ (Symbols.demangle some e.raw).map SymbolName.lookupName = some (chars! "run") ∨ Symbols.demangle some e.raw = some bookNameStep := by
    with_unfolding_all decide
  have hd : Symbols.demangle some e.raw = some n := hd
  have := hall e he
  rw [hd] at this
  simpa using this

theorem book_get_code : CodeOf toolLibs bookImage bookNameGet 4000 := by
  refine ⟨[], ⟨chars! "m::S::get", 4000, true, 32⟩, _, rfl, rfl, by with_unfolding_all decide, rfl, ?_⟩
  intro e he _ n hn h
  have hd : Symbols.demangle some e.raw = some n := hn
  have := (by with_unfolding_all decide : ∀ e ∈ bookImage.symbols.drop 1, (Symbols.demangle some e.raw).map SymbolName.fullPath ≠ some (chars! "m::S::get")) e he
  rw [hd, Option.map_some, h.2.2] at this
  exact this rfl

theorem book_step_code : CodeOf toolLibs bookImage bookNameStep 4200 := by
  refine ⟨bookImage.symbols.take 2, ⟨chars! "m::step", 4200, true, 32⟩, _, rfl, rfl, by with_unfolding_all decide, rfl, ?_⟩
  intro e he; cases he

theorem book_get_entry : EntryOf toolLibs bookImage bookFile bookNameGet bookGet.die := by
  refine ⟨(candidates bookFile).takeWhile (fun d => d.off != 32), ((candidates bookFile).dropWhile (fun d => d.off != 32)).tail, by decide, ⟨rfl, _, rfl,
    ⟨_, List.mem_cons_self .., rfl⟩, by with_unfolding_all decide⟩, ?_⟩
  intro d hd h
  obtain ⟨h1, h2⟩ := book_names h
  exact (by with_unfolding_all decide : ∀ d ∈ ((candidates bookFile).dropWhile (fun d => d.off != 32)).tail, d.tag = .subprogram → linkOf d ≠ some bookNameGet) d hd h1 h2

theorem book_step_entry : EntryOf toolLibs bookImage bookFile bookNameStep bookStep.die := by
  refine ⟨(candidates bookFile).takeWhile (fun d => d.off != 46), ((candidates bookFile).dropWhile (fun d => d.off != 46)).tail, by decide, ⟨rfl, _, rfl,
    ⟨_, List.mem_of_getElem? (i := 2) rfl, rfl⟩, by with_unfolding_all decide⟩, ?_⟩
  intro d hd h
  obtain ⟨h1, h2⟩ := book_names h
  exact (by with_unfolding_all decide : ∀ d ∈ ((candidates bookFile).dropWhile (fun d => d.off != 46)).tail, d.tag = .subprogram → linkOf d ≠ some bookNameStep) d hd h1 h2

theorem book_user : TypeText.UserName toolLibs.lib.render (chars! "S") := by
  have := TypeNames.PathName.other (render := toolLibs.lib.render) [] (chars! "S") [] [] [] ⟨by simp, ⟨_, _, rfl, by decide, by decide⟩, by decide⟩ (by decide)
    (fun _ l => by simp [TypeNames.primTable]) (fun _ => by decide) .nil
  exact .path _ _ _ (by simpa [TypeNames.qualify, Expr.joinWith, TypeNames.withArgs] using this)

theorem book_ref_called : TypeCalled toolLibs bookImage 61 (chars! "&S") :=
  ⟨⟨_, book_ref.1⟩, .known (t := .ref false (.user (chars! "S"))) (.reference book_ref.1.1 (.user book_S.1.1 ⟨_, rfl, rfl⟩)) ⟨book_user, by simp⟩
    (by obtain ⟨i, h⟩ := book_types.2.2.2.2.1; simp [TypeRes.Ordinary, h])⟩

theorem book_refMut_called : TypeCalled toolLibs bookImage 62 (chars! "&mut S") :=
  ⟨⟨_, book_ref.2⟩, .known (t := .ref true (.user (chars! "S"))) (.reference book_ref.2.1 (.user book_S.1.1 ⟨_, rfl, rfl⟩)) ⟨book_user, by simp⟩
    (by obtain ⟨i, h⟩ := book_types.2.2.2.2.2; simp [TypeRes.Ordinary, h])⟩

theorem book_get_node : bookGet ∈ nodes bookFile := by
  simp [nodes, bookFile, subtrees, subtreesList, bookGet, bookS, bookMod, bookUnit, Tree.kids]

theorem book_step_node : bookStep ∈ nodes bookFile := by
  simp [nodes, bookFile, subtrees, subtreesList, bookStep, bookMod, bookUnit, Tree.kids]

/-- What may be called `get`. -/
theorem book_get_types (n : SymbolName) (a : Nat) (t : Tree Die) (h : Fitting toolLibs bookImage [chars! "S"] (chars! "get") n a) (ht : t ∈ nodes bookFile)
    (hE : EntryOf toolLibs bookImage bookFile n t.die) (ty : Nat) (hty : InSignature t ty) : ∃ text, TypeCalled toolLibs bookImage ty text := by
  obtain ⟨hcode, hn, -⟩ := h
  rcases book_listed hcode with rfl | h | rfl
  · have hd := hE.unique book_get_entry
    have ht : t = bookGet := List.inj_on_of_nodup_map book_compiled.offsets ht book_get_node (by rw [hd])
    subst ht
    rcases hty with h | ⟨k, hk, -, h⟩
    · cases h; exact ⟨_, book_u8_called⟩
    · cases List.mem_singleton.1 hk
      cases h; exact ⟨_, book_ref_called⟩
  · rw [h] at hn; cases hn
  · cases hn

/-- The same for `step`. -/
theorem book_step_types (n : SymbolName) (a : Nat) (t : Tree Die) (h : Fitting toolLibs bookImage [chars! "m"] (chars! "step") n a) (ht : t ∈ nodes bookFile)
    (hE : EntryOf toolLibs bookImage bookFile n t.die) (ty : Nat) (hty : InSignature t ty) : ∃ text, TypeCalled toolLibs bookImage ty text := by
  obtain ⟨hcode, hn, -⟩ := h
  rcases book_listed hcode with rfl | h | rfl
  · cases hn
  · rw [h] at hn; cases hn
  · have hd := hE.unique book_step_entry
    have ht : t = bookStep := List.inj_on_of_nodup_map book_compiled.offsets ht book_step_node (by rw [hd])
    subst ht
    rcases hty with h | ⟨k, hk, -, h⟩
    · cases h
    · have hk : k = bookStep.kids[0]'(by decide) ∨ k = bookStep.kids[1]'(by decide) := by simpa [bookStep, bookMod, bookUnit, bookFile, Tree.kids] using hk
      rcases hk with rfl | rfl
      · cases h; exact ⟨_, book_refMut_called⟩
      · cases h; exact ⟨_, book_u8_called⟩

theorem book_get_callee : Callee toolLibs bookImage bookFile [chars! "S"] (chars! "get") 4000 bookGet where
  fits := by
    refine ⟨bookNameGet, ⟨book_get_code, rfl, [chars! "m"], rfl⟩, book_get_entry, ?_⟩
    rintro n' a' ⟨hcode, hn, -⟩
    rcases book_listed hcode with rfl | h | rfl
    · decide
    · rw [h] at hn; cases hn
    · cases hn
  node := book_get_node

theorem book_step_callee : Callee toolLibs bookImage bookFile [chars! "m"] (chars! "step") 4200 bookStep where
  fits := by
    refine ⟨bookNameStep, ⟨book_step_code, rfl, [], rfl⟩, book_step_entry, ?_⟩
    rintro n' a' ⟨hcode, hn, -⟩
    rcases book_listed hcode with rfl | h | rfl
    · cases hn
    · rw [h] at hn; cases hn
    · decide
  node := book_step_node

theorem book_clean_S : ∀ m ∈ [chars! "S"], CleanSegment m := by
  simp only [List.mem_singleton, forall_eq]; exact Symbols.clean_of_check _ (by decide) (by decide) (by decide) (by decide)

theorem book_clean_m : ∀ m ∈ [chars! "m"], CleanSegment m := by
  simp only [List.mem_singleton, forall_eq]; exact Symbols.clean_of_check _ (by decide) (by decide) (by decide) (by decide)

/-- Memory with 7 at 100. -/
def bookMem : Mem := fun a => if a = 100 then some 7 else none

theorem book_x_passed {es : List Expr} {as : List Arg} {vs : List (Str × Nat × Nat)}
    (h : Passed (typedef toolLibs.lib bookImage) (fileDb bookImage.units) bookMem toolLibs.lossy toolLibs.floatStr vs es as) :
    Passed (typedef toolLibs.lib bookImage) (fileDb bookImage.units) bookMem toolLibs.lossy toolLibs.floatStr ((chars! "x", 100, 30) :: vs) (.var (chars! "x") :: es) (⟨hexStr 100, .pointer, some 1⟩ :: as) :=
  .place book_S .var (fun _ => rfl) (.one book_S rfl) h

theorem book_step_arity : Arity bookStep.kids 2 := .arg ⟨rfl, rfl⟩ (.arg ⟨rfl, rfl⟩ .nil)

theorem book_get_arity : Arity bookGet.kids 1 := .arg ⟨rfl, rfl⟩ .nil

theorem book_answer {ex : Expr} {call : Str} {r : Listing.Printed} {vs : List (Str × Nat × Nat)} (h : CallPrints toolLibs bookImage bookFile shopLines bookRun bookMem bookMem vs ex call 100 r)
    (hvs : ∀ v ∈ vs, v = (chars! "x", 100, 30)) (text : Str) (ht : Whole.Typed text ex) (other : Wire.Json → Str) :
    ∃ N b, binary toolLibs N N bookImage = .ok b ∧ rd Remote.caller other b.program.backend ⟨bookMem, 0⟩ text = some (r, ⟨bookMem, 0⟩) := by
  obtain ⟨hlive, hL, -⟩ := Remote.toy_ok
  obtain ⟨N, hN⟩ := h
  obtain ⟨b, hb, h⟩ := hN N N (Nat.le_refl _) (Nat.le_refl _)
  obtain ⟨f, hf, hpc, hreg⟩ := toy_selected ⟨bookMem, 0⟩
  refine ⟨N, b, hb, h _ Remote.caller Remote.Toy.mem other ⟨bookMem, 0⟩ ⟨bookMem, 0⟩ f text none none none none hL (hlive ⟨bookMem, 0⟩) (hlive ⟨bookMem, 0⟩) hf rfl rfl ht 24 5
    (by rw [hpc]; exact book_stopped) shop_line ?_ rfl⟩
  intro v hv
  cases hvs v hv
  refine ⟨bookX, 0, 99, 1, ⟨by decide, .inr rfl⟩, rfl, fun d hd hn => book_x hd hn, rfl, ⟨none, ?_⟩, rfl, hreg, rfl, by decide⟩
  exact (Declared.C94_position _ _ _ _).1 (by decide : Declared.position shopLines (fileDb bookImage.units) 41 = Res.ok none)

/-- `C100_function_partial` at work: the user types `rd p S::get(x)`. The debugger gives 100 for every call, where there is a 7. -/
example (other : Wire.Json → Str) : ∃ N b, binary toolLibs N N bookImage = .ok b ∧
    rd Remote.caller other b.program.backend ⟨bookMem, 0⟩ (chars! "p S::get(x)") = some (.text (chars! "type: u8\nvalue: 7\n"), ⟨bookMem, 0⟩) :=
  book_answer (C100_function_partial (m := bookMem) book_stops book_clean_S (Symbols.clean_of_check _ (by decide) (by decide) (by decide) (by decide)) (by decide) book_get_types book_get_callee (by decide)
    (book_x_passed .nil) book_get_arity rfl (.one book_u8 rfl) (by decide) (n := 0) (by omega) (.plain book_u8 ⟨7, by unfold Mem.HoldsNat; decide, rfl⟩)
    (by intro h; cases h) book_u8_called.2 (by decide) (by decide))
    (by simp) _ ⟨chars! "p", chars! "S::get(x)", [], rfl, .inl rfl, by with_unfolding_all rfl⟩ other

/-- `C100_no_result_fails` at work: the user types `rd p m::step(x, 5)`. -/
example (other : Wire.Json → Str) : ∃ N b, binary toolLibs N N bookImage = .ok b ∧
    rd Remote.caller other b.program.backend ⟨bookMem, 0⟩ (chars! "p m::step(x, 5)") = some (.text (chars! "type: usize\nvalue: 100\n"), ⟨bookMem, 0⟩) :=
  book_answer (C100_no_result_fails (m := bookMem) book_stops book_clean_m (Symbols.clean_of_check _ (by decide) (by decide) (by decide) (by decide)) (by decide) book_step_types book_step_callee (by decide)
    (book_x_passed (.number .nil)) book_step_arity (by rintro t h; cases h) (by decide))
    (by simp) _ ⟨chars! "p", chars! "m::step(x,", [chars! "5)"], rfl, .inl rfl, by with_unfolding_all rfl⟩ other

/-- `C100_arity` at work: the user types `rd p m::step(5)`. -/
example {σ : Type} (L : Remote.Lldb σ) (other : Wire.Json → Str) (s : σ) : ∃ N b, binary toolLibs N N bookImage = .ok b ∧
    rd L other b.program.backend s (chars! "p m::step(5)") = some (.error, s) := by
  obtain ⟨N, hN⟩ := C100_arity book_compiled book_clean_m (Symbols.clean_of_check _ (by decide) (by decide) (by decide) (by decide)) (by decide) book_step_types book_step_callee book_step_arity [.num 5] (by decide)
  obtain ⟨b, hb, h⟩ := hN N N (Nat.le_refl _)
  exact ⟨N, b, hb, h σ L other s _ ⟨chars! "p", chars! "m::step(5)", [], rfl, .inl rfl, by with_unfolding_all rfl⟩⟩

/-- `C100_unknown` at work: the user types `rd p get2()`. -/
example {σ : Type} (L : Remote.Lldb σ) (other : Wire.Json → Str) (s : σ) (stack depth : Nat) : ∃ b, binary toolLibs stack depth bookImage = .ok b ∧
    rd L other b.program.backend s (chars! "p get2()") = some (.error, s) := by
  obtain ⟨b, hb, h⟩ := C100_unknown book_compiled (ms := []) (f := chars! "get2") (by simp) (Symbols.clean_of_check _ (by decide) (by decide) (by decide) (by decide)) (by decide) (by
    rintro n a ⟨hcode, hn, -⟩
    rcases book_listed hcode with rfl | h | rfl
    · cases hn
    · rw [h] at hn; cases hn
    · cases hn) [] stack depth
  exact ⟨b, hb, h σ L other s _ ⟨chars! "p", chars! "get2()", [], rfl, .inl rfl, by with_unfolding_all rfl⟩⟩

theorem book_fns : functionsIn ([bookS].flatMap Tree.kids ++ (bookMod.kids.filter isImplBlock).flatMap Tree.kids) = [bookGet, bookS.kids[2]'(by decide), bookStep] := by
  rfl

theorem book_get_receiver : HasReceiver toolLibs bookImage (chars! "S") (.struct (chars! "S") 1 1 [(chars! "a", 0, 60)]) bookGet :=
  ⟨_, 61, [], _, ⟨[], rfl, by simp, rfl, rfl⟩, .inl rfl, .ref book_ref.1 (.own book_S.1.1 ⟨_, rfl, rfl⟩)⟩

theorem book_step_receiver : HasReceiver toolLibs bookImage (chars! "S") (.struct (chars! "S") 1 1 [(chars! "a", 0, 60)]) bookStep :=
  ⟨_, 62, _, _, ⟨[], rfl, by simp, rfl, rfl⟩, .inl rfl, .refMut book_ref.2 (.own book_S.1.1 ⟨_, rfl, rfl⟩)⟩

/-- `C100_method_partial` at work: the user types `rd p x.get()`. -/
example (other : Wire.Json → Str) : ∃ N b, binary toolLibs N N bookImage = .ok b ∧
    rd Remote.caller other b.program.backend ⟨bookMem, 0⟩ (chars! "p x.get()") = some (.text (chars! "type: u8\nvalue: 7\n"), ⟨bookMem, 0⟩) :=
  book_answer (C100_method_partial (m := bookMem) (m0 := bookMem) (v := chars! "x") (obj := 100) book_stops book_home book_functions (g := bookGet)
    ⟨[], _, book_fns, book_get_receiver, rfl, by simp⟩ ⟨chars! "m::S::get", bookNameGet, bookNameGet, rfl, by with_unfolding_all rfl, ⟨rfl, rfl, rfl⟩, book_get_code⟩ (by decide)
    .nil rfl (.one book_u8 rfl) (by decide) (n := 0) (by omega) (.plain book_u8 ⟨7, by unfold Mem.HoldsNat; decide, rfl⟩)
    (by intro h; cases h) book_u8_called.2 (by decide) (by decide))
    (by simp) _ ⟨chars! "p", chars! "x.get()", [], rfl, .inl rfl, by with_unfolding_all rfl⟩ other

/-- `C100_method_no_result_fails` at work: the user types `rd p x.step(x)`. -/
example (other : Wire.Json → Str) : ∃ N b, binary toolLibs N N bookImage = .ok b ∧
    rd Remote.caller other b.program.backend ⟨bookMem, 0⟩ (chars! "p x.step(x)") = some (.text (chars! "type: usize\nvalue: 100\n"), ⟨bookMem, 0⟩) :=
  book_answer (C100_method_no_result_fails (m := bookMem) (v := chars! "x") (obj := 100) book_stops book_home book_functions (g := bookStep)
    ⟨[_, _], [], book_fns, book_step_receiver, rfl, by
      intro g hg _
      simp only [List.mem_cons, List.not_mem_nil, or_false] at hg
      rcases hg with rfl | rfl <;> decide⟩ ⟨chars! "m::step", bookNameStep, bookNameStep, rfl, by with_unfolding_all rfl, ⟨rfl, rfl, rfl⟩, book_step_code⟩ (by decide)
    (book_x_passed .nil) (by rintro t h; cases h) (by decide))
    (by simp) _ ⟨chars! "p", chars! "x.step(x)", [], rfl, .inl rfl, by with_unfolding_all rfl⟩ other

/-- `C100_method_unknown` at work: the user types `rd p x.new()`, but `new` has no receiver. -/
example : Answers toolLibs bookImage bookFile shopLines bookRun bookMem (chars! "x") 100 30 (.method (.var (chars! "x")) (chars! "new") []) .error := by
  refine C100_method_unknown book_stops book_home book_functions (.inl ?_) _ _ _
  intro g hg hr
  rw [book_fns] at hg
  simp only [List.mem_cons, List.not_mem_nil, or_false] at hg
  rcases hg with rfl | rfl | rfl
  · decide
  · obtain ⟨p, t, rest, recv, ⟨pre, h, -⟩, -⟩ := hr
    cases pre <;> cases h
  · decide


end Rudy.Image
