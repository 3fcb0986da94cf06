import Verif.Props.ImageTexts
import Verif.Props.ImageParts
/-
C104 for the methods of parts of variables: `rd print v.f.m("text", 1)`.
-/
set_option linter.unusedSimpArgs false
set_option linter.unusedVariables false
namespace Rudy.Image
open Rudy Rudy.Dwarf Rudy.Walker Rudy.Layout Rudy.Data Rudy.Resolve Rudy.Declared Rudy.Entries Rudy.Modules Rudy.TypeNames Rudy.FnIndex Rudy.Shown Rudy.Whole Rudy.Listing
open Rudy.TypeRes (shallow resolveType Ordinary)
open Rudy.Eval (PassesAll Passes St)
open Rudy.Server (Arg)
open Rudy.Expr (Expr)

section
variable {w : Libs} {x : Executable} {us : List UnitOf}

/-- What the code finds for a part of a variable, of the type `own`, that is there in the part `m0` of memory: where it is, and the methods of its type. -/
theorem part_found_more {u : UnitOf} {files : UnitFiles} {t : Tree Die} (hs : Stops w x us u files t) {S : Str} {own : Desc} {e : Nat} {md : Tree Die} {path : List Str} {homes : List (Tree Die)} (h : HomeOf w x us S own e md path homes)
    (hu : Unmistakable (typedef w.lib x) (fileDb x.units) S own) {direct traits : List (Bool × Str)} (hf' : FunctionsOf w x S own md homes direct traits)
    {m0 : Mem} {v : Str} {a0 e0 a : Nat} {ex : Expr} (hp : Place (typedef w.lib x) (fileDb x.units) m0 w.lossy w.floatStr v a0 e0 ex a e) (hne : ex ≠ .var v) :
    ∃ N, ∀ stack depth, N ≤ stack → N ≤ depth → ∃ b, binary w stack depth x = .ok b ∧
      ∃ (ms all : List Discovery.Method), Discovery.methodsForPointer b.world ⟨0, e, .alias S⟩ = .ok (ms.filter (·.selfType.isSome)) ∧
        ms.filter (·.selfType.isSome) = all.filter (·.selfType.isSome) ∧ ms.map lineOf = direct ++ traits.filter (·.1) ∧ (∀ m ∈ ms, m.synthetic = false) ∧
        List.Forall₂ (Made w x S own depth) (functionsIn (homes.flatMap Tree.kids ++ (md.kids.filter isImplBlock).flatMap Tree.kids)) all ∧
        ∀ (σ : Type) (L : Remote.Lldb σ) (s : σ) (pc : Nat) (m : Mem), (∀ z b, m0 z = some b → m z = some b) → RootAt (b.info.world L) s pc (typedef w.lib x) (fileDb x.units) depth v a0 e0 →
          Shown.Strict ((b.info.world L).target s) (target (typedef w.lib x) (fileDb x.units) m w.lossy w.floatStr depth) →
          Eval.toRef (b.info.world L) ex (St.new s) = (.ok (a, .mk (some e) (.alias S)), ⟨some pc, [], s⟩) := by
  obtain ⟨M, hM⟩ := methods_found hs.compiled h hf'
  obtain ⟨K, hK⟩ := place_found_part hs.wellFormed (C95_decodes _) hp
  refine ⟨max M K + 1, fun stack depth hst hd => ?_⟩
  obtain ⟨fns, ix, b, hb, hwo, hix, -⟩ := world_of hs.compiled stack depth
  have hbs : b.stack = stack := by
    obtain ⟨fns, hfns, -⟩ := C53_by_name (syms w x) 0 false us hs.compiled.functions
    obtain ⟨ix, hix, -⟩ := C39_entry_in_its_module us hs.compiled.file
    simp only [binary, hs.compiled.units, hfns, hix, Res.bind_ok, Res.ok.injEq] at hb
    rw [← hb]
  obtain ⟨ms, hms, hlines, hsyn, all, hall, hmade⟩ := hM depth (by omega) fns ix hix (.alias S) (.inr ⟨rfl, hu⟩)
  refine ⟨b, hb, ms, all, ?_, hall, hlines, hsyn, hmade, fun σ L s pc m hm hroot hS => ?_⟩
  · rw [hwo]
    simp only [Discovery.methodsForPointer, hms, Res.bind_ok]
  · obtain ⟨td, htd, href⟩ := hK σ (b.info.world L) s pc depth none [] m (.inl rfl) (by omega) (by show K ≤ b.stack; omega) hroot hm hS
    rcases htd with ⟨-, h⟩ | htd
    · exact absurd h hne
    · obtain ⟨d, rfl⟩ : ∃ k, depth = k + 1 := ⟨depth - 1, by omega⟩
      rw [shallow_own h.named h.described htd] at href
      exact href

variable {u : UnitOf} {files : UnitFiles} {t : Tree Die} {m0 m : Mem}

/-- C104, the same for a method of a part of a variable: the user types `rd print v.f.m("text", 1)`, where `v.f` is of one of the user's own types, whose name tells it from all others. `self` is the address of the part. -/
theorem C104_method_of_part_partial (hs : Stops w x us u files t) {S : Str} {own : Desc} {eo : Nat} {md : Tree Die} {path : List Str} {homes : List (Tree Die)} (h : HomeOf w x us S own eo md path homes)
    (hu : Unmistakable (typedef w.lib x) (fileDb x.units) S own) {direct traits : List (Bool × Str)} (hf' : FunctionsOf w x S own md homes direct traits) {name : Str} {g : Tree Die} (hg : MethodOf w x S own md homes name g)
    {addr : Nat} (hcode : CodeAt w x g.die addr) (h0 : addr ≠ 0) {v : Str} {a0 e0 obj : Nat} {ex : Expr} {desc : Desc} (hd0 : Is (typedef w.lib x) (fileDb x.units) e0 desc)
    (hpl : Place (typedef w.lib x) (fileDb x.units) m0 w.lossy w.floatStr v a0 e0 ex obj eo) (hnv : ex ≠ .var v) {vs : List (Str × Nat × Nat)} {es : List Expr} {self : Nat} {tys : List Nat}
    (ho : Offered (typedef w.lib x) (fileDb x.units) m0 w.lossy w.floatStr vs tys es) (hk : ArgTypes g.kids (self :: tys))
    {e k : Nat} (hret : g.die.attr .type = some (.ref e)) (hsz : SizeIs (typedef w.lib x) (fileDb x.units) e k) (hk64 : k < 2 ^ 64)
    {n a : Nat} {val : RVal} {rname : Str} (hn : n ≤ 4) (hv : Holds (typedef w.lib x) (fileDb x.units) m w.lossy w.floatStr n a e val) (hne : ¬ val.Has (emptyText w.lossy))
    (hcl : Called (typedef w.lib x) (fileDb x.units) w.lib.render e rname) (ha0 : a ≠ 0) (ha : a < 2 ^ 64 - 1) :
    TextCallPrints w x us files t m0 m [(v, a0, e0)] vs tys es (.method ex name es) (fun as => Calls.methodExpr addr obj as (some k)) a
      (.text (page [chars! "type: " ++ rname, chars! "value: " ++ val.text])) := by
  have hw := hs.wellFormed
  have hdec : TypeRes.Decodes (fileDb x.units) := C95_decodes _
  obtain ⟨N1, h1⟩ := variables_found hs ([(v, a0, e0)] ++ vs) (by
    intro v' hv'
    rcases List.mem_cons.1 hv' with rfl | hv'
    · exact ⟨_, hd0⟩
    · exact ho.described v' hv')
  obtain ⟨N3, h3⟩ := part_found_more hs h hu hf' hpl hnv
  obtain ⟨N4, h4⟩ := C89_method_any_partial hw hdec hn hv hne hcl
  obtain ⟨N5, h5⟩ := place_size hw hdec hsz
  obtain ⟨N6, h6⟩ := offered_all hw hdec ho
  refine ⟨max N1 (max (max N3 (max N4 N5)) N6), fun stack depth hst hd => ?_⟩
  obtain ⟨b, hb, hbs, hT, hroot⟩ := h1 stack depth (by omega)
  obtain ⟨b', hb', ms0, all, hms, hall, -, -, hmade, hobj⟩ := h3 stack depth (by omega) (by omega)
  rw [hb] at hb'
  cases hb'
  rw [hall] at hms
  obtain ⟨pre, post, hfns, hrec, hname, hfirst⟩ := hg
  rw [hfns] at hmade
  obtain ⟨before, found, after, rfl, ⟨m1, m2, m3, -, m4, -, m6⟩, hbefore⟩ := made_split hmade
  rw [List.filter_append, List.filter_cons, if_pos (m2.2 hrec)] at hms
  obtain ⟨td, hfr, htd⟩ := m4 e hret
  obtain ⟨self', tys', htys', hres⟩ := m6 hrec
  cases hk.unique htys'
  refine ⟨b, hb, fun σ L mem owned free fr other s text hH huses hroom htx rel line hstop hline hloc => ?_⟩
  have hR := fun s => hroot σ L s fr (hH.live s) (hH.selected s) rel line hstop hline hloc
  obtain ⟨pc2, as, s1, -, hpass, hkeep, -, hrec'⟩ := h6 σ L mem owned free fr b depth (by omega) (by omega) hH hT (fun s v hv => hR s v (List.mem_append_right _ hv)) _ hres s (some fr.pc) [] (.inr rfl) huses hroom
  refine ⟨as, s1, hrec' _ fun _ _ => rfl, hkeep, fun s' load addr' ty summary hm' hrun => ?_⟩
  exact h4 σ L mem other b s s' _ ⟨pc2, [], s1⟩ text name ex es as depth obj _ k (before.filter (·.selfType.isSome)) (after.filter (·.selfType.isSome)) found td load addr' ty summary
    (by omega) (by omega) hH.reads (hH.live s1) (hH.live s') hm' hT htx (hobj σ L s fr.pc (mem s) (fun z b h => (huses z b h).1) (hR s _ (List.mem_append_left _ (List.mem_cons_self ..))) (strict_of L b hH.reads (hH.live s) hT)) (by exact List.not_mem_nil) hms (by
      intro d hd
      obtain ⟨hd1, hd2⟩ := List.mem_filter.1 hd
      obtain ⟨k', hk', q1, q2, -⟩ := forall₂_right hbefore d hd1
      rw [q1]
      exact hfirst k' hk' (q2.1 hd2)) (by rw [m1, hname]) (by rw [m3 addr hcode]; exact h0) hpass hfr htd (h5 depth (by omega) td (.inl htd)) hk64 (by rw [m3 addr hcode]; exact hrun) ha0 ha

/-- What the code finds for the receiver of a method: a variable of one of the user's own types, or a part of one whose type has a name that tells it from all others. -/
theorem named_receiver_found (hs : Stops w x us u files t) {S : Str} {own : Desc} {eo : Nat} {md : Tree Die} {path : List Str} {homes : List (Tree Die)} (h : HomeOf w x us S own eo md path homes)
    {direct traits : List (Bool × Str)} (hf' : FunctionsOf w x S own md homes direct traits) {v : Str} {a0 e0 obj : Nat} {ex : Expr}
    (hpl : Place (typedef w.lib x) (fileDb x.units) m0 w.lossy w.floatStr v a0 e0 ex obj eo) (hu : ex = .var v ∨ Unmistakable (typedef w.lib x) (fileDb x.units) S own) :
    ∃ N, ∀ stack depth, N ≤ stack → N ≤ depth → ∃ b, binary w stack depth x = .ok b ∧
      ∃ td all, Discovery.methodsForPointer b.world (Whole.located td) = .ok (all.filter (·.selfType.isSome)) ∧ syntheticMethods td.layout = [] ∧
        List.Forall₂ (Made w x S own depth) (functionsIn (homes.flatMap Tree.kids ++ (md.kids.filter isImplBlock).flatMap Tree.kids)) all ∧
        ∀ (σ : Type) (L : Remote.Lldb σ) (s : σ) (pc : Nat) (m : Mem), (∀ z b, m0 z = some b → m z = some b) → RootAt (b.info.world L) s pc (typedef w.lib x) (fileDb x.units) depth v a0 e0 →
          Shown.Strict ((b.info.world L).target s) (target (typedef w.lib x) (fileDb x.units) m w.lossy w.floatStr depth) →
          Eval.toRef (b.info.world L) ex (St.new s) = (.ok (obj, td), ⟨some pc, [], s⟩) := by
  by_cases hv : ex = .var v
  · subst hv
    cases hpl
    obtain ⟨N, hN⟩ := object_found hs h hf'
    refine ⟨N, fun stack depth _ hd => ?_⟩
    obtain ⟨b, hb, td, all, h1, h2, h3, h4⟩ := hN stack depth hd
    exact ⟨b, hb, td, all, h1, h2, h3, fun σ L s pc m _ hr _ => h4 σ L s pc v _ hr⟩
  · obtain ⟨N, hN⟩ := part_found_more hs h (hu.resolve_left hv) hf' hpl hv
    refine ⟨N, fun stack depth hst hd => ?_⟩
    obtain ⟨b, hb, ms, all, h1, h2, -, -, h3, h4⟩ := hN stack depth hst hd
    exact ⟨b, hb, _, all, by rw [← h2]; exact h1, rfl, h3, fun σ L s pc m hm hr hS => h4 σ L s pc m hm hr hS⟩

/-- C104, for a method: a text for a parameter whose type is neither `&str` nor `String` is an error, and nothing is run or written. -/
theorem C104_method_refused (hs : Stops w x us u files t) {S : Str} {own : Desc} {eo : Nat} {md : Tree Die} {path : List Str} {homes : List (Tree Die)} (h : HomeOf w x us S own eo md path homes)
    {direct traits : List (Bool × Str)} (hf' : FunctionsOf w x S own md homes direct traits) {name : Str} {g : Tree Die} (hg : MethodOf w x S own md homes name g)
    {v : Str} {a0 e0 obj : Nat} {ex : Expr} {desc0 : Desc} (hd0 : Is (typedef w.lib x) (fileDb x.units) e0 desc0)
    (hpl : Place (typedef w.lib x) (fileDb x.units) m0 w.lossy w.floatStr v a0 e0 ex obj eo) (hu : ex = .var v ∨ Unmistakable (typedef w.lib x) (fileDb x.units) S own)
    {vs : List (Str × Nat × Nat)} {es : List Expr} {as1 : List Arg} {self : Nat} {tys1 tys2 : List Nat}
    (hp : Passed (typedef w.lib x) (fileDb x.units) m0 w.lossy w.floatStr vs es as1) {ty : Nat} {desc : Desc} (hI : Is (typedef w.lib x) (fileDb x.units) ty desc) (hno : NoText desc)
    (hk : ArgTypes g.kids (self :: (tys1 ++ ty :: tys2))) (hl1 : tys1.length = es.length) (lit : Str) (es2 : List Expr) :
    ∃ N, ∀ stack depth, N ≤ stack → N ≤ depth → ∃ b, binary w stack depth x = .ok b ∧
      ∀ (σ : Type) (L : Remote.Lldb σ) (mem : σ → Mem) (other : Wire.Json → Str) (s : σ) (fr : Remote.Frame) (text : Str), Remote.ReadsMemory L mem → Remote.Live L s → Remote.Selected L s fr → mem s = m0 →
      Whole.Typed text (.method ex name (es ++ .str lit :: es2)) →
      ∀ rel line, StoppedIn w x us t fr.pc rel → LineAt files rel line → (∀ v' ∈ (v, a0, e0) :: vs, Local x files t fr v'.1 v'.2.1 v'.2.2) →
      rd L other b.program.backend s text = some (.error, s) := by
  have hw := hs.wellFormed
  have hdec : TypeRes.Decodes (fileDb x.units) := C95_decodes _
  obtain ⟨N1, h1⟩ := variables_found hs ((v, a0, e0) :: vs) (by
    intro v' hv'
    rcases List.mem_cons.1 hv' with rfl | hv'
    · exact ⟨_, hd0⟩
    · exact hp.described v' hv')
  obtain ⟨N2, h2⟩ := passed_all hw hdec hp
  obtain ⟨N3, h3⟩ := named_receiver_found hs h hf' hpl hu
  obtain ⟨N4, h4⟩ := types_at hw hdec hI
  refine ⟨max (max N1 N2) (max N3 N4), fun stack depth hst hd => ?_⟩
  obtain ⟨b, hb, hbs, hT, hroot⟩ := h1 stack depth (by omega)
  obtain ⟨b', hb', td, all, hms, hsyn, hmade, hobj⟩ := h3 stack depth (by omega) (by omega)
  rw [hb] at hb'
  cases hb'
  obtain ⟨pre, post, hfns, hrec, hname, hfirst⟩ := hg
  rw [hfns] at hmade
  obtain ⟨before, found, after, rfl, ⟨m1, m2, -, -, -, -, m6⟩, hbefore⟩ := made_split hmade
  rw [List.filter_append, List.filter_cons, if_pos (m2.2 hrec)] at hms
  obtain ⟨self', tys', htys', hres⟩ := m6 hrec
  cases hk.unique htys'
  refine ⟨b, hb, fun σ L mem other s fr text hL hlive hsel hm0 ⟨sub, a, as, q4, q5, q6⟩ rel line hstop hline hloc => ?_⟩
  have hS : Shown.Strict ((b.info.world L).target s) (target (typedef w.lib x) (fileDb x.units) m0 w.lossy w.floatStr depth) := by
    rw [← hm0]; exact strict_of L b hL hlive hT
  have hR := hroot σ L s fr hlive hsel rel line hstop hline hloc
  have hto := hobj σ L s fr.pc m0 (fun _ _ h => h) (hR _ (List.mem_cons_self ..)) hS
  obtain ⟨pc', -, hpass⟩ := h2 σ (b.info.world L) s fr.pc depth [] (by omega) (by show _ ≤ b.stack; omega)
    (fun v hv => hR v (List.mem_cons_of_mem _ hv)) hS (ofMethod found).params (some fr.pc) (.inr rfl)
  refine Listing.C84_value_error L other _ s text sub a as q4 q5 s (.inr ⟨_, q6, ?_⟩)
  rw [Whole.C86_evaluated]
  have hmw : (b.info.world L).methods (obj, td) = .ok ((before.filter (·.selfType.isSome) ++ found :: after.filter (·.selfType.isSome)).map ofMethod) := ofMethod_of hms
  have hfind : ((before.filter (·.selfType.isSome) ++ found :: after.filter (·.selfType.isSome)).map ofMethod).find? (fun c => c.name == name) = some (ofMethod found) := by
    rw [List.find?_eq_some_iff_append]
    refine ⟨by simp [ofMethod, m1, hname], (before.filter (·.selfType.isSome)).map ofMethod, (after.filter (·.selfType.isSome)).map ofMethod, by simp, ?_⟩
    intro c hc
    obtain ⟨d, hd, rfl⟩ := List.mem_map.1 hc
    obtain ⟨hd1, hd2⟩ := List.mem_filter.1 hd
    obtain ⟨k', hk', q1, q2, -⟩ := forall₂_right hbefore d hd1
    simpa [ofMethod, q1] using hfirst k' hk' (q2.1 hd2)
  have hdrop := forall₂_drop es.length hres
  rw [← hl1, List.drop_left, hl1] at hdrop
  have hhead : (((ofMethod found).params).drop es.length).head? = some (full (typedef w.lib x) (fileDb x.units) depth ty desc) := by
    show ((found.params.map (·.2)).drop es.length).head? = _
    cases hq : (found.params.map (·.2)).drop es.length with
    | nil => rw [hq] at hdrop; cases hdrop
    | cons td tds =>
      rw [hq] at hdrop
      cases hdrop with
      | cons h _ => rw [(h4 depth (by omega)).2.1] at h; cases h; rfl
  have hcv : Eval.convertArgs (b.info.world L) (es ++ .str lit :: es2) (ofMethod found).params ⟨some fr.pc, [], s⟩ = (.err, ⟨pc', [], s⟩) :=
    convertArgs_refused hpass (by rw [hhead]; simp only [Eval.convertArg, Eval.stringArg, noText_err hI hno])
  have hev : ∃ pc, Eval.evaluate (b.info.world L) (.method ex name (es ++ .str lit :: es2)) (St.new s) = (.err, ⟨pc, [], s⟩) := by
    have hcn : (syntheticMethods (obj, td).2.layout).contains name ≠ true := by simp [hsyn]
    rw [Eval.evaluate, bind_ok hto, Eval.methodShown, if_neg hcn]
    simp only [Eval.executeMethod, Eval.Ev.bind, Eval.Ev.lift, hmw, hfind, Res.ofOption]
    by_cases h0 : (ofMethod found).address = 0
    · exact ⟨some fr.pc, by simp [h0, Eval.Ev.lift]⟩
    · exact ⟨pc', by rw [if_neg h0]; simp only [Eval.Ev.bind, hcv]⟩
  obtain ⟨pc, hev⟩ := hev
  rw [hev]

end

/-! ### Examples -/

/-- The name `W` is enough to tell the type. -/
theorem say_W_only : Unmistakable (typedef sayLibs.lib sayImage) (fileDb sayImage.units) (chars! "W") (.struct (chars! "W") 1 1 [(chars! "a", 0, 60)]) := by
  refine ⟨⟨by decide, by decide⟩, fun e desc hI ho => ?_⟩
  obtain ⟨-, d, hd, hn⟩ := own_entry ho hI
  obtain ⟨t, ht, rfl, rfl⟩ := (entry_some sayFile say_compiled.offsets e d).1 hd
  have h30 : t.die.off = 30 := (by with_unfolding_all decide : ∀ t ∈ nodes sayFile, t.die.attr .name = some (.str (chars! "W")) → t.die.off = 30) t ht hn
  rw [h30] at hI
  cases desc with
  | struct => exact ho
  | «enum» n d vs s =>
    obtain ⟨⟨-, -, part, cs, ⟨-, -, b, a, hc, ⟨dd, h1, h2⟩, -⟩, -⟩, -⟩ := hI
    have hc' : (fileDb sayImage.units).children 30 = .ok [31, 32] := rfl
    rw [hc'] at hc
    have hm : part ∈ [31, 32] := by rw [Res.ok.inj hc]; simp
    have := (by decide : ∀ c ∈ [31, 32], ((fileDb sayImage.units).entry c).map Die.tag ≠ some .variantPart) part hm
    rw [h1] at this
    exact absurd h2 (by simpa using this)
  | cenum n d vs s =>
    obtain ⟨⟨-, ⟨dd, h1, h2⟩, -⟩, -⟩ := hI
    cases h1
    cases h2
  | _ => exact ho.elim

theorem say_y_local {f : Remote.Frame} (hreg : Calls.readRegisterByIndex f.registers 0 = some 1) : Local sayImage shopLines sayRun f (chars! "y") 101 55 := by
  have hy : ∀ d, Declared.VariableEntry sayRun d → d.attr .name = some (.str (chars! "y")) → d = sayY := by
    intro d hd hn
    rcases say_var hd with rfl | rfl
    · cases hn
    · rfl
  refine ⟨sayY, 0, 100, 1, ⟨by decide, .inr rfl⟩, rfl, hy, rfl, ⟨none, ?_⟩, rfl, hreg, rfl, by decide⟩
  exact (Declared.C94_position _ _ _ _).1 (by decide : Declared.position shopLines (fileDb sayImage.units) 42 = Res.ok none)

/-- `C104_method_of_part_partial` at work: the user types `rd p y.w.tell("hi")`. -/
example (other : Wire.Json → Str) : ∃ N b s', binary sayLibs N N sayImage = .ok b ∧
    rd talker other b.program.backend ⟨fun _ => none, 1000⟩ (chars! "p y.w.tell(\"hi\")") = some (.text (chars! "type: u8\nvalue: 7\n"), s') := by
  obtain ⟨f, hH, hpc, hreg⟩ := talker_heap
  obtain ⟨t, hfn⟩ := tell_functions
  obtain ⟨N, hN⟩ := C104_method_of_part_partial (m0 := fun _ => none) (m := bookMem) (tys := [70]) (es := [.str (chars! "hi")]) (ex := .field (.var (chars! "y")) (chars! "w")) (obj := 101) say_stops tell_home say_W_only hfn (g := sayTell) (name := chars! "tell")
    ⟨[], [], rfl, tell_receiver, rfl, by simp⟩ ⟨chars! "m::W::tell", tellName, tellName, rfl, by with_unfolding_all rfl, ⟨rfl, rfl, rfl⟩, tell_code⟩ (by decide)
    say_V (.field (o := 0) .var (fun _ => rfl) say_V (List.mem_cons_self ..) (by decide) (by decide)) (by simp)
    (.text (.str say_str (.inl ⟨rfl, rfl⟩) (by decide)) (by decide) .nil) (.arg rfl rfl (.arg rfl rfl .nil)) rfl (.one say_u8 rfl) (by decide) (n := 0) (by omega)
    (.plain say_u8 ⟨7, by unfold Mem.HoldsNat; decide, rfl⟩) (by intro h; cases h) say_u8_called.2 (a := 100) (by decide) (by decide)
  obtain ⟨b, hb, h⟩ := hN N N (Nat.le_refl _) (Nat.le_refl _)
  obtain ⟨as2, s1, -, -, h⟩ := h _ talker Remote.Toy.mem _ _ f other ⟨fun _ => none, 1000⟩ (chars! "p y.w.tell(\"hi\")") hH (fun _ _ h => by cases h) (by decide)
    ⟨chars! "p", chars! "y.w.tell(\"hi\")", [], rfl, .inl rfl, by with_unfolding_all rfl⟩ 24 5
    (by rw [hpc]; exact say_stopped) shop_line (by
      intro v hv
      cases List.mem_singleton.1 hv
      exact say_y_local hreg)
  exact ⟨N, b, _, hb, h ⟨bookMem, s1.free⟩ none none none none rfl (if_neg fun ⟨n, hn⟩ => method_not_malloc _ _ _ _ _ hn)⟩

/-- `C104_method_refused` at work: the user types `rd p y.s.step("hi")`; the parameter of `step` is a `u8`. -/
example (other : Wire.Json → Str) : ∃ N b, binary toolLibs N N bookImage = .ok b ∧
    rd Remote.toy other b.program.backend ⟨bookMem2, 0⟩ (chars! "p y.s.step(\"hi\")") = some (.error, ⟨bookMem2, 0⟩) := by
  obtain ⟨hlive, hL, -⟩ := Remote.toy_ok
  obtain ⟨f, hf, hpc, hreg⟩ := toy_selected ⟨bookMem2, 0⟩
  obtain ⟨N, hN⟩ := C104_method_refused (m0 := bookMem2) (name := chars! "step") (tys1 := []) (tys2 := []) (es := []) book_stops book_home book_functions (g := bookStep)
    ⟨[_, _], [], book_fns, book_step_receiver, rfl, by
      intro k hk _
      simp only [List.mem_cons, List.not_mem_nil, or_false] at hk
      rcases hk with rfl | rfl <;> decide⟩ book_T book_ys (.inr book_S_only) .nil book_u8 trivial (.arg rfl rfl (.arg rfl rfl .nil)) rfl (chars! "hi") []
  obtain ⟨b, hb, h⟩ := hN N N (Nat.le_refl _) (Nat.le_refl _)
  exact ⟨N, b, hb, h _ Remote.toy Remote.Toy.mem other ⟨bookMem2, 0⟩ f _ hL (hlive _) hf rfl ⟨chars! "p", chars! "y.s.step(\"hi\")", [], rfl, .inl rfl, by with_unfolding_all rfl⟩ 24 5
    (by rw [hpc]; exact book_stopped) shop_line (by
      intro v hv
      cases List.mem_singleton.1 hv
      exact book_y_local hreg)⟩

end Rudy.Image
