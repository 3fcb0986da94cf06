import Verif.Props.ImagePlaces
import Verif.Proof.Missing
/-
C101: from the executable to what is printed for what is not there.
-/
namespace Rudy.Image
open Rudy Rudy.Dwarf Rudy.Walker Rudy.Layout Rudy.Data Rudy.Resolve Rudy.Declared Rudy.Entries Rudy.Modules Rudy.TypeNames Rudy.FnIndex Rudy.Shown Rudy.Whole Rudy.Listing
open Rudy.TypeRes (shallow resolveType Ordinary)
open Rudy.Expr (Expr)

/-- Specification: what `rd print` of the expression `ex` is answered with, while the program - whose memory is `m` - is stopped at the start of a line of the function `t` of a unit with these files. -/
def AnswersIn (w : Libs) (x : Executable) (us : List UnitOf) (files : UnitFiles) (t : Tree Die) (m : Mem) (ex : Expr) (r : Listing.Printed) : Prop :=
  ∃ N, ∀ stack depth, N ≤ stack → N ≤ depth → ∃ b, binary w stack depth x = .ok b ∧
    ∀ (σ : Type) (L : Remote.Lldb σ) (mem : σ → Mem) (other : Wire.Json → Str) (s : σ) (fr : Remote.Frame) (text : Str),
    Remote.ReadsMemory L mem → Remote.Live L s → Remote.Selected L s fr → mem s = m → Whole.Typed text ex →
    ∀ rel line, StoppedIn w x us t fr.pc rel → LineAt files rel line → rd L other b.program.backend s text = some (r, s)

/-- Specification: the expression is the variable `v`, or a part of a part of it, and so on. -/
inductive Rooted (v : Str) : Expr → Prop
  | var : Rooted v (.var v)
  | field {b : Expr} (f : Str) : Rooted v b → Rooted v (.field b f)
  | index {b : Expr} (i : Expr) : Rooted v b → Rooted v (.index b i)

section
variable {w : Libs} {x : Executable} {us : List UnitOf} {m : Mem} {a0 e0 : Nat} {v : Str} {u : UnitOf} {files : UnitFiles} {t : Tree Die}

/-- Where the variables are read. -/
theorem at_found (hs : Stops w x us u files t) :
    ∃ N, ∀ stack depth, N ≤ depth → ∃ b, binary w stack depth x = .ok b ∧ b.stack = stack ∧
      ∀ (σ : Type) (L : Remote.Lldb σ) (s : σ) (pc rel line : Nat), StoppedIn w x us t pc rel → LineAt files rel line → ∃ f base,
        Vars.At (b.info.variables L s) pc f t line base ∧
        (b.info.variables L s).parse = variableOf (shallow (typedef w.lib x) (fileDb x.units) depth) (fun d => unitFiles x d.off) (fileDb x.units) x.loc := by
  obtain ⟨hc, hz, ht, hty⟩ := hs
  have hw : TypeRes.WellFormed (fileDb x.units) := by rw [hc.units]; exact C95_well_formed us hc.offsets hc.apart
  have hdec : TypeRes.Decodes (fileDb x.units) := C95_decodes _
  have hmem : u ∈ us := (List.of_mem_zip hz).1
  have hent : ∀ d, VariableEntry t d → (fileDb x.units).entry d.off = some d := by
    intro d hd
    obtain ⟨k, hk, rfl⟩ := variable_node ht hd
    rw [hc.units]
    exact entry_node us hc.offsets k (List.mem_flatMap.2 ⟨u, hmem, hk⟩)
  obtain ⟨M, hM⟩ := Shown.list_bound (reach Vars.opened t)
    (fun d depth => VariableEntry t d → ∀ ty, d.attr .type = some (.ref ty) → shallow (typedef w.lib x) (fileDb x.units) depth ty ≠ .panic) (by
      intro d _
      by_cases hd : VariableEntry t d ∧ ∃ ty, d.attr .type = some (.ref ty)
      · obtain ⟨hd, ty, hdt⟩ := hd
        obtain ⟨M, hM⟩ := Shown.known_shallow hw hdec (hty d ty hd hdt)
        refine ⟨M, fun depth hdep _ ty' h' => ?_⟩
        rw [hdt] at h'
        cases h'
        rw [hM depth hdep]
        simp
      · exact ⟨0, fun depth _ hv ty h' => absurd ⟨hv, ty, h'⟩ hd⟩)
  refine ⟨M, fun stack depth hdp => ?_⟩
  obtain ⟨b, hb, hT, hE⟩ := C96_opens hc stack depth
  have hbs : b.stack = stack := by
    obtain ⟨fns, hfns, -⟩ := C53_by_name (syms w x) 0 false us hc.functions
    obtain ⟨ix, hix, -⟩ := C39_entry_in_its_module us hc.file
    simp only [binary, hc.units, hfns, hix, Res.bind_ok, Res.ok.injEq] at hb
    rw [← hb]
  refine ⟨b, hb, hbs, fun σ L s pc rel line hstop hline => ?_⟩
  obtain ⟨fns, ix, fn, l, hfns, hix, hlne, hfind, hrest⟩ := stopped hc hz ht hstop
  obtain ⟨base, trailing, h2, h4⟩ := hrest depth
  obtain ⟨loc, hloc', hlline⟩ := hline.location
  have h1 : (vars w depth x fns ix).lookupAddress pc = some (fn, line) := by
    simp only [vars, hfind, hloc', Discovery.okOf, Option.bind_some, lookupAddress, answers, List.map_const', List.getLast?_replicate]
    rw [if_neg (by simpa using hlne)]
    simp [hlline]
  have hbv : b.vars = vars w depth x fns ix := by
    simp only [binary, hfns, hix, Res.bind_ok, Res.ok.injEq] at hb
    rw [← hb]
  refine ⟨_, base, ⟨fn, (by show b.vars.lookupAddress _ = _; rw [hbv]; exact h1), (by show b.vars.getFunction _ = _; rw [hbv]; exact h2), ⟨trailing, rfl⟩,
    (by show b.vars.baseAddress _ = _; rw [hbv]; exact h4), ?_⟩, hE.parse⟩
  rw [show (b.info.variables L s).parse = _ from hE.parse, crashes_iff]
  rintro ⟨d', hd', ty, ⟨d'', he, hdt'⟩, h6⟩
  rw [hent d' hd'] at he
  cases he
  exact hM depth hdp d' hd'.1 hd' ty hdt' h6

/-- C101: the user types `rd print` and a variable that the function has not, or parts of it; the answer is an error. -/
theorem C101_no_variable (hs : Stops w x us u files t) (hv : ∀ d, VariableEntry t d → d.attr .name ≠ some (.str v)) {ex : Expr} (hr : Rooted v ex) :
    AnswersIn w x us files t m ex .error := by
  obtain ⟨N, hN⟩ := at_found hs
  refine ⟨N, fun stack depth _ hdp => ?_⟩
  obtain ⟨b, hb, -, hA⟩ := hN stack depth hdp
  refine ⟨b, hb, fun σ L mem other s fr text hL hlive hsel hm htx rel line hstop hline => ?_⟩
  obtain ⟨f, base, hat, hparse⟩ := hA σ L s fr.pc rel line hstop hline
  have hno : Vars.getVariableAtPc (b.info.variables L s) fr.pc v = .ok none := by
    refine Vars.C33_unknown_name _ _ f t line base hat v ?_
    intro y hy
    obtain ⟨d, hd, hp⟩ := (mem_variables _ t y).1 hy
    rw [hparse, variableOf_ok] at hp
    obtain ⟨n, t', p, hdes, rfl⟩ := hp
    rintro rfl
    obtain ⟨d', he, hn⟩ := (hdes.1 v).1 rfl
    obtain ⟨k, hk, rfl⟩ := variable_node hs.fn hd
    rw [hs.compiled.units, entry_node us hs.compiled.offsets k (List.mem_flatMap.2 ⟨u, (List.of_mem_zip hs.unit).1, hk⟩)] at he
    cases he
    exact hv _ hd hn
  have hvar : Eval.variableRef (b.info.world L) v (Eval.St.new s) = (.err, ⟨some fr.pc, [], s⟩) := by
    have hpc : (b.info.world L).frame s = some fr.pc := by
      show Remote.okOf (Remote.talk L Remote.getPc s) = _
      rw [Remote.C77_pc L hlive hsel]; rfl
    have hva : (b.info.world L).variableAt s fr.pc v = .ok none := by
      show (Vars.getVariableAtPc (b.info.variables L s) fr.pc v).bind _ = _
      rw [hno]; rfl
    simp only [Eval.variableRef, Eval.Ev.bind, Eval.getPc, Eval.St.new, hpc, Eval.Ev.reading, hva, Eval.Ev.lift]
  have href : Eval.toRef (b.info.world L) ex (Eval.St.new s) = (.err, ⟨some fr.pc, [], s⟩) := by
    clear htx
    induction hr with
    | var => exact hvar
    | field f hb ih => rw [Eval.toRef, bind_err' ih]
    | index i hb ih => rw [Eval.toRef, bind_err' ih]
  have hev : Eval.evaluate (b.info.world L) ex (Eval.St.new s) = (.err, ⟨some fr.pc, [], s⟩) := by
    cases hr with
    | var => rw [Eval.evaluate, bind_err' hvar]
    | field f hb => exact (evaluate_no_place _).1 _ href
    | index i hb => exact (evaluate_no_place _).2 _ href
  obtain ⟨sub, a, as, h4, h5, h6⟩ := htx
  exact Listing.C84_value_error L other _ s text sub a as h4 h5 s (.inr ⟨_, h6, by rw [Whole.C86_evaluated, hev]⟩)

/-- C101: the user types `rd print` and a part of a variable that is not there: a field that the struct has not, an element beyond the end, the entry of a key that the map has not, a part of what has no parts, or a part of any of these.
The answer is an error, and the process is left as it was. -/
theorem C101_missing (hs : Stops w x us u files t) {desc : Desc} (h0 : Is (typedef w.lib x) (fileDb x.units) e0 desc) {ex : Expr}
    (h : Missing (typedef w.lib x) (fileDb x.units) m w.lossy w.floatStr v a0 e0 ex) : Answers w x us files t m v a0 e0 ex .error := by
  obtain ⟨N, hN⟩ := missing_error hs.wellFormed (C95_decodes _) h
  exact answers_of hs h0 (q := .err) rfl ⟨N, fun σ W p pc depth hd hst hroot hS => ⟨_, hN σ W p pc depth hd hst hroot hS, rfl⟩⟩

end

/-! ### Examples -/

/-- `C101_no_variable` at work: the user types `rd p q.a`, and there is no `q`. -/
example (other : Wire.Json → Str) : ∃ N b, binary shopLibs N N partImage = .ok b ∧
    rd Remote.toy other b.program.backend ⟨partMem, 0⟩ (chars! "p q.a") = some (.error, ⟨partMem, 0⟩) := by
  obtain ⟨hlive, hL, -⟩ := Remote.toy_ok
  obtain ⟨f, hf, hpc, hreg⟩ := Whole.toy_selected ⟨partMem, 0⟩
  obtain ⟨N, hN⟩ := C101_no_variable (m := partMem) (v := chars! "q") part_stops
    (fun d hd => (by decide : ∀ d ∈ partVars, d.attr .name ≠ some (.str (chars! "q"))) d (part_var hd)) (.field (chars! "a") .var)
  obtain ⟨b, hb, h⟩ := hN N N (Nat.le_refl _) (Nat.le_refl _)
  exact ⟨N, b, hb, h _ Remote.toy Remote.Toy.mem other ⟨partMem, 0⟩ f _ hL (hlive _) hf rfl
    ⟨chars! "p", chars! "q.a", [], rfl, .inl rfl, by with_unfolding_all rfl⟩ 24 5 (by rw [hpc]; exact part_stopped) shop_line⟩

/-- `C101_missing` at work: the user types `rd p s.z`. -/
example (other : Wire.Json → Str) : ∃ N b, binary shopLibs N N partImage = .ok b ∧
    rd Remote.toy other b.program.backend ⟨partMem, 0⟩ (chars! "p s.z") = some (.error, ⟨partMem, 0⟩) :=
  part_answer (C101_missing (a0 := 100) part_stops part_s (.field (f := chars! "z") .var part_s (by simp [NoField])))
    ⟨partVars[0], List.mem_of_getElem? (i := 0) rfl, rfl, rfl, rfl, by omega, by omega, by decide⟩ _ ⟨chars! "p", chars! "s.z", [], rfl, .inl rfl, by with_unfolding_all rfl⟩ other

/-- The same with `rd p xs[2].a`: the array has two elements. -/
example (other : Wire.Json → Str) : ∃ N b, binary shopLibs N N partImage = .ok b ∧
    rd Remote.toy other b.program.backend ⟨partMem, 0⟩ (chars! "p xs[2].a") = some (.error, ⟨partMem, 0⟩) :=
  part_answer (C101_missing (a0 := 112) part_stops part_xs (.inField (.array .var part_xs (i := 2) (by omega))))
    ⟨partVars[2], List.mem_of_getElem? (i := 2) rfl, rfl, rfl, rfl, by omega, by omega, by decide⟩ _ ⟨chars! "p", chars! "xs[2].a", [], rfl, .inl rfl, by with_unfolding_all rfl⟩ other

end Rudy.Image
