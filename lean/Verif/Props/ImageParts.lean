import Verif.Props.ImageCalls
/-
C99 and C100 for the parts of variables: `rd methods v.f` and `rd print v.f.m(1)`, where `v.f` is of one of the user's own types.
-/
namespace Rudy.Image
open Rudy Rudy.Dwarf Rudy.Walker Rudy.Layout Rudy.Data Rudy.Resolve Rudy.Declared Rudy.Entries Rudy.Modules Rudy.TypeNames Rudy.FnIndex Rudy.Shown Rudy.Whole Rudy.Listing
open Rudy.TypeRes (shallow resolveType Ordinary)
open Rudy.Eval (PassesAll Passes St)
open Rudy.Server (Arg)
open Rudy.Expr (Expr)

/-! ### Proofs -/

section
variable {w : Libs} {x : Executable} {us : List UnitOf}

theorem own_entry {typedef : Nat → Option Layout} {db : Parse.Db} {S : Str} {own : Desc} (ho : Own S own) {e : Nat} (hI : Is typedef db e own) :
    Ordinary typedef e ∧ Parse.Named db e S := by
  cases own with
  | struct n s a fs => cases ho; exact ⟨hI.1.1, hI.1.2.2.1⟩
  | «enum» n d vs s => cases ho; obtain ⟨⟨h1, -, _, _, h2⟩, -⟩ := hI; exact ⟨h1, h2.1.1⟩
  | cenum n d vs s => cases ho; exact ⟨hI.1.1, hI.1.2.2.1⟩
  | _ => exact ho.elim

/-- What the code has of the type of a part that is of one of the user's own types: its name. -/
theorem shallow_own {typedef : Nat → Option Layout} {db : Parse.Db} {S : Str} {own : Desc} (ho : Own S own) {e : Nat} (hI : Is typedef db e own) {d : Nat} {td : TypeDef}
    (h : shallow typedef db (d + 1) e = .ok td) : td = .mk (some e) (.alias S) := by
  obtain ⟨hO, hn⟩ := own_entry ho hI
  simp only [shallow, builtin_ordinary hO, Res.bind_ok, (dieName_iff db e S).2 hn, Res.ok.injEq] at h
  exact h.symm

/-- What the code finds for a part of a variable, of the type `own`: where it is, and the methods of its type. -/
theorem part_found {u : UnitOf} {files : UnitFiles} {t : Tree Die} (hs : Stops w x us u files t) {S : Str} {own : Desc} {e : Nat} {md : Tree Die} {path : List Str} {homes : List (Tree Die)} (h : HomeOf w x us S own e md path homes)
    (hu : Unmistakable (typedef w.lib x) (fileDb x.units) S own) {direct traits : List (Bool × Str)} (hf' : FunctionsOf w x S own md homes direct traits)
    {m : Mem} {v : Str} {a0 e0 a : Nat} {ex : Expr} (hp : Place (typedef w.lib x) (fileDb x.units) m w.lossy w.floatStr v a0 e0 ex a e) (hne : ex ≠ .var v) :
    ∃ N, ∀ stack depth, N ≤ stack → N ≤ depth → ∃ b, binary w stack depth x = .ok b ∧
      ∃ (ms all : List Discovery.Method), Discovery.methodsForPointer b.world ⟨0, e, .alias S⟩ = .ok (ms.filter (·.selfType.isSome)) ∧
        ms.filter (·.selfType.isSome) = all.filter (·.selfType.isSome) ∧ ms.map lineOf = direct ++ traits.filter (·.1) ∧ (∀ m ∈ ms, m.synthetic = false) ∧
        List.Forall₂ (Made w x S own depth) (functionsIn (homes.flatMap Tree.kids ++ (md.kids.filter isImplBlock).flatMap Tree.kids)) all ∧
        ∀ (σ : Type) (L : Remote.Lldb σ) (s : σ) (pc : Nat), RootAt (b.info.world L) s pc (typedef w.lib x) (fileDb x.units) depth v a0 e0 →
          Shown.Strict ((b.info.world L).target s) (target (typedef w.lib x) (fileDb x.units) m w.lossy w.floatStr depth) →
          Eval.toRef (b.info.world L) ex (St.new s) = (.ok (a, .mk (some e) (.alias S)), ⟨some pc, [], s⟩) := by
  obtain ⟨M, hM⟩ := methods_found hs.compiled h hf'
  obtain ⟨K, hK⟩ := place_found_from hs.wellFormed (C95_decodes _) hp
  refine ⟨max M K + 1, fun stack depth hst hd => ?_⟩
  obtain ⟨fns, ix, b, hb, hwo, hix, -⟩ := world_of hs.compiled stack depth
  have hbs : b.stack = stack := by
    obtain ⟨fns, hfns, -⟩ := C53_by_name (syms w x) 0 false us hs.compiled.functions
    obtain ⟨ix, hix, -⟩ := C39_entry_in_its_module us hs.compiled.file
    simp only [binary, hs.compiled.units, hfns, hix, Res.bind_ok, Res.ok.injEq] at hb
    rw [← hb]
  obtain ⟨ms, hms, hlines, hsyn, all, hall, hmade⟩ := hM depth (by omega) fns ix hix (.alias S) (.inr ⟨rfl, hu⟩)
  refine ⟨b, hb, ms, all, ?_, hall, hlines, hsyn, hmade, fun σ L s pc hroot hS => ?_⟩
  · rw [hwo]
    simp only [Discovery.methodsForPointer, hms, Res.bind_ok]
  · obtain ⟨td, htd, href⟩ := hK σ (b.info.world L) s pc depth none [] (.inl rfl) (by omega) (by show K ≤ b.stack; omega) hroot hS
    rcases htd with ⟨-, h⟩ | htd
    · exact absurd h hne
    · obtain ⟨d, rfl⟩ : ∃ k, depth = k + 1 := ⟨depth - 1, by omega⟩
      rw [shallow_own h.named h.described htd] at href
      exact href

variable {u : UnitOf} {files : UnitFiles} {t : Tree Die} {m0 m : Mem}

/-! ### C99 -/

/-- C99, of a part of a variable: the user types `rd methods v.f`, where `v.f` is of one of the user's own types, whose name tells it from all others. The page is that of a variable of the type. -/
theorem C99_methods_of_part_partial (hs : Stops w x us u files t) {S : Str} {own : Desc} {e : Nat} {md : Tree Die} {path : List Str} {homes : List (Tree Die)} (h : HomeOf w x us S own e md path homes)
    (hu : Unmistakable (typedef w.lib x) (fileDb x.units) S own) {direct traits : List (Bool × Str)} (hf : FunctionsOf w x S own md homes direct traits)
    {v : Str} {a0 e0 a : Nat} {ex : Expr} {desc : Desc} (h0 : Is (typedef w.lib x) (fileDb x.units) e0 desc)
    (hp : Place (typedef w.lib x) (fileDb x.units) m w.lossy w.floatStr v a0 e0 ex a e) (hne : ex ≠ .var v) :
    ∃ N, ∀ stack depth, N ≤ stack → N ≤ depth → ∃ b, binary w stack depth x = .ok b ∧
      ∀ (σ : Type) (L : Remote.Lldb σ) (mem : σ → Mem) (other : Wire.Json → Str) (s : σ) (fr : Remote.Frame) (text : Str),
      Remote.ReadsMemory L mem → Remote.Live L s → Remote.Selected L s fr → mem s = m → AsksMethods text ex →
      ∀ rel line, StoppedIn w x us t fr.pc rel → LineAt files rel line → Local x files t fr v a0 e0 →
      rd L other b.program.backend s text = some (.text (page (methodsPage S (((direct ++ traits).filter (·.1)).map (·.2)))), s) := by
  obtain ⟨N1, h1⟩ := variables_found hs [(v, a0, e0)] (by
    intro v' hv'
    cases List.mem_singleton.1 hv'
    exact ⟨_, h0⟩)
  obtain ⟨N2, h2⟩ := part_found hs h hu hf hp hne
  refine ⟨max N1 N2, fun stack depth hst hd => ?_⟩
  obtain ⟨b, hb, hbs, hT, hroot⟩ := h1 stack depth (by omega)
  obtain ⟨b', hb', ms, all, hmp, hall, hlines, hsyn, -, hto⟩ := h2 stack depth (by omega) (by omega)
  rw [hb] at hb'
  cases hb'
  refine ⟨b, hb, fun σ L mem other s fr text hL hlive hsel hm ⟨sub, a1, as, hw, hex, hpx⟩ rel line hstop hline hloc => ?_⟩
  have hR := hroot σ L s fr hlive hsel rel line hstop hline (by
    intro v' hv'
    cases List.mem_singleton.1 hv'
    exact hloc) _ (List.mem_singleton.2 rfl)
  have hS : Shown.Strict ((b.info.world L).target s) (target (typedef w.lib x) (fileDb x.units) m w.lossy w.floatStr depth) := by
    rw [← hm]; exact strict_of L b hL hlive hT
  have href := hto σ L s fr.pc hR hS
  have htk : Remote.talk L (b.program.toRef ex) s = (.ok ⟨0, e, .alias S⟩, s) := by
    show Remote.talk L ((Ask.toRef b.info ex).run.bind fun p => .ok (Whole.located p.2)) s = _
    rw [Listing.talk_bind, Whole.C86_referenced, href]
    rfl
  have hnp : NamesPlace L s ex := by
    cases hp with
    | var => exact absurd rfl hne
    | _ => trivial
  have := Listing.C84_methods_of_place L other b.program s text sub a1 as hw hex ex hpx hnp _ s htk _ hmp
  rw [this, page_found (fun m hm => hsyn m (List.mem_filter.1 hm).1), lines_self hlines]
  simp [List.filter_append, List.filter_filter, Layout.displayName]

/-! ### C100 -/

/-- C100, of a part of a variable: the user types `rd print v.f.m(1, x.y)`, where `v.f` is of one of the user's own types, whose name tells it from all others. The method is given the address of the part; the rest is as for the methods of a
variable. -/
theorem C100_method_of_part_partial (hs : Stops w x us u files t) {S : Str} {own : Desc} {eo : Nat} {md : Tree Die} {path : List Str} {homes : List (Tree Die)} (h : HomeOf w x us S own eo md path homes)
    (hu : Unmistakable (typedef w.lib x) (fileDb x.units) S own) {direct traits : List (Bool × Str)} (hf' : FunctionsOf w x S own md homes direct traits) {name : Str} {g : Tree Die}
    (hg : MethodOf w x S own md homes name g) {addr : Nat} (hcode : CodeAt w x g.die addr) (h0 : addr ≠ 0)
    {v : Str} {a0 e0 obj : Nat} {ex : Expr} {desc : Desc} (hd0 : Is (typedef w.lib x) (fileDb x.units) e0 desc)
    (hpl : Place (typedef w.lib x) (fileDb x.units) m0 w.lossy w.floatStr v a0 e0 ex obj eo) (hnv : ex ≠ .var v) {vs : List (Str × Nat × Nat)} {es : List Expr} {as : List Arg}
    (hp : Passed (typedef w.lib x) (fileDb x.units) m0 w.lossy w.floatStr vs es as)
    {e k : Nat} (hret : g.die.attr .type = some (.ref e)) (hsz : SizeIs (typedef w.lib x) (fileDb x.units) e k) (hk64 : k < 2 ^ 64)
    {n a : Nat} {val : RVal} {rname : Str} (hn : n ≤ 4) (hv : Holds (typedef w.lib x) (fileDb x.units) m w.lossy w.floatStr n a e val) (hne : ¬ val.Has (emptyText w.lossy))
    (hcl : Called (typedef w.lib x) (fileDb x.units) w.lib.render e rname) (ha0 : a ≠ 0) (ha : a < 2 ^ 64 - 1) :
    CallPrints w x us files t m0 m ((v, a0, e0) :: vs) (.method ex name es) (Calls.methodExpr addr obj as (some k)) a
      (.text (page [chars! "type: " ++ rname, chars! "value: " ++ val.text])) := by
  have hw := hs.wellFormed
  have hdec : TypeRes.Decodes (fileDb x.units) := C95_decodes _
  obtain ⟨N1, h1⟩ := variables_found hs ((v, a0, e0) :: vs) (by
    intro v' hv'
    rcases List.mem_cons.1 hv' with rfl | hv'
    · exact ⟨_, hd0⟩
    · exact hp.described v' hv')
  obtain ⟨N2, h2⟩ := passed_all hw hdec hp
  obtain ⟨N3, h3⟩ := part_found hs h hu hf' hpl hnv
  obtain ⟨N4, h4⟩ := C89_method_any_partial hw hdec hn hv hne hcl
  obtain ⟨N5, h5⟩ := place_size hw hdec hsz
  refine ⟨max (max N1 N2) (max N3 (max N4 N5)), fun stack depth hst hd => ?_⟩
  obtain ⟨b, hb, hbs, hT, hroot⟩ := h1 stack depth (by omega)
  obtain ⟨b', hb', ms0, all, hms, hall, -, -, hmade, hobj⟩ := h3 stack depth (by omega) (by omega)
  rw [hb] at hb'
  cases hb'
  rw [hall] at hms
  obtain ⟨pre, post, hfns, hrec, hname, hfirst⟩ := hg
  rw [hfns] at hmade
  obtain ⟨before, found, after, rfl, ⟨m1, m2, m3, -, m4, -⟩, hbefore⟩ := made_split hmade
  rw [List.filter_append, List.filter_cons, if_pos (m2.2 hrec)] at hms
  obtain ⟨td, hfr, htd⟩ := m4 e hret
  refine ⟨b, hb, fun σ L mem other s s' fr text load addr' ty summary hL hlive hlive' hsel hm0 hm' htx rel line hstop hline hloc hrun => ?_⟩
  have hS : Shown.Strict ((b.info.world L).target s) (target (typedef w.lib x) (fileDb x.units) m0 w.lossy w.floatStr depth) := by
    rw [← hm0]; exact strict_of L b hL hlive hT
  have hR := hroot σ L s fr hlive hsel rel line hstop hline hloc
  obtain ⟨pc', -, hpass⟩ := h2 σ (b.info.world L) s fr.pc depth [] (by omega) (by show _ ≤ b.stack; omega)
    (fun v hv => hR v (List.mem_cons_of_mem _ hv)) hS (ofMethod found).params (some fr.pc) (.inr rfl)
  exact h4 σ L mem other b s s' _ ⟨pc', [], s⟩ text name ex es as depth obj _ k (before.filter (·.selfType.isSome)) (after.filter (·.selfType.isSome)) found td load addr' ty summary
    (by omega) (by omega) hL hlive hlive' hm' hT htx (hobj σ L s fr.pc (hR _ (List.mem_cons_self ..)) hS) (by exact List.not_mem_nil) hms (by
      intro d hd
      obtain ⟨hd1, hd2⟩ := List.mem_filter.1 hd
      obtain ⟨k', hk', q1, q2, -⟩ := forall₂_right hbefore d hd1
      rw [q1]
      exact hfirst k' hk' (q2.1 hd2)) (by rw [m1, hname]) (by rw [m3 addr hcode]; exact h0) hpass hfr htd (h5 depth (by omega) td (.inl htd)) hk64 (by rw [m3 addr hcode]; exact hrun) ha0 ha

/-- C100, of a part of a variable: a call of a method that its type does not have, or that the executable has no code for, is an error, and nothing is run. -/
theorem C100_method_of_part_unknown (hs : Stops w x us u files t) {S : Str} {own : Desc} {eo : Nat} {md : Tree Die} {path : List Str} {homes : List (Tree Die)} (h : HomeOf w x us S own eo md path homes)
    (hu : Unmistakable (typedef w.lib x) (fileDb x.units) S own) {direct traits : List (Bool × Str)} (hf' : FunctionsOf w x S own md homes direct traits) {name : Str}
    (hno : (∀ g ∈ functionsIn (homes.flatMap Tree.kids ++ (md.kids.filter isImplBlock).flatMap Tree.kids), HasReceiver w x S own g → nameOr g.die (chars! "<anonymous>") ≠ name) ∨
      ∃ g, MethodOf w x S own md homes name g ∧ ¬ HasCode w x g.die)
    {v : Str} {a0 e0 obj : Nat} {ex : Expr} {desc : Desc} (hd0 : Is (typedef w.lib x) (fileDb x.units) e0 desc)
    (hpl : Place (typedef w.lib x) (fileDb x.units) m w.lossy w.floatStr v a0 e0 ex obj eo) (hnv : ex ≠ .var v) (es : List Expr) :
    Answers w x us files t m v a0 e0 (.method ex name es) .error := by
  obtain ⟨N1, h1⟩ := variables_found hs [(v, a0, e0)] (by
    intro v' hv'
    cases List.mem_singleton.1 hv'
    exact ⟨_, hd0⟩)
  obtain ⟨N3, h3⟩ := part_found hs h hu hf' hpl hnv
  refine ⟨max N1 N3, fun stack depth hst hd => ?_⟩
  obtain ⟨b, hb, hbs, hT, hroot⟩ := h1 stack depth (by omega)
  obtain ⟨b', hb', ms0, all, hms, hall, -, -, hmade, hobj⟩ := h3 stack depth (by omega) (by omega)
  rw [hb] at hb'
  cases hb'
  rw [hall] at hms
  refine ⟨b, hb, fun σ L mem other s fr text hL hlive hsel hm htx rel line hstop hline hloc => ?_⟩
  obtain ⟨sub, a, as, h4, h5, h6⟩ := htx
  refine Listing.C84_value_error L other _ s text sub a as h4 h5 s (.inr ⟨_, h6, ?_⟩)
  rw [Whole.C86_evaluated]
  have hR := hroot σ L s fr hlive hsel rel line hstop hline (by
    intro v' hv'
    cases List.mem_singleton.1 hv'
    exact hloc) _ (List.mem_singleton.2 rfl)
  have hS : Shown.Strict ((b.info.world L).target s) (target (typedef w.lib x) (fileDb x.units) m w.lossy w.floatStr depth) := by
    rw [← hm]; exact strict_of L b hL hlive hT
  have hto := hobj σ L s fr.pc hR hS
  have hmw : (b.info.world L).methods (obj, .mk (some eo) (.alias S)) = .ok ((all.filter (·.selfType.isSome)).map ofMethod) := ofMethod_of hms
  have hfind : ((all.filter (·.selfType.isSome)).map ofMethod).find? (fun c => c.name == name) = none ∨
      ∃ c, ((all.filter (·.selfType.isSome)).map ofMethod).find? (fun c => c.name == name) = some c ∧ c.address = 0 := by
    rcases hno with hno | ⟨g, ⟨pre, post, hfns, hrec, hname, hfirst⟩, hnc⟩
    · refine .inl (List.find?_eq_none.2 fun c hc => ?_)
      obtain ⟨d, hd, rfl⟩ := List.mem_map.1 hc
      obtain ⟨hd1, hd2⟩ := List.mem_filter.1 hd
      obtain ⟨k', hk', q1, q2, -⟩ := forall₂_right hmade d hd1
      have := hno k' hk' (q2.1 hd2)
      simpa [ofMethod, q1] using this
    · rw [hfns] at hmade
      obtain ⟨before, found, after, rfl, ⟨m1, m2, -, m3, -⟩, hbefore⟩ := made_split hmade
      refine .inr ⟨ofMethod found, ?_, m3 hnc⟩
      rw [List.filter_append, List.filter_cons, if_pos (m2.2 hrec), List.find?_eq_some_iff_append]
      refine ⟨by simp [ofMethod, m1, hname], (before.filter (·.selfType.isSome)).map ofMethod, (after.filter (·.selfType.isSome)).map ofMethod, by simp, ?_⟩
      intro c hc
      obtain ⟨d, hd, rfl⟩ := List.mem_map.1 hc
      obtain ⟨hd1, hd2⟩ := List.mem_filter.1 hd
      obtain ⟨k', hk', q1, q2, -⟩ := forall₂_right hbefore d hd1
      simpa [ofMethod, q1] using hfirst k' hk' (q2.1 hd2)
  have hev : Eval.evaluate (b.info.world L) (.method ex name es) (St.new s) = (.err, ⟨some fr.pc, [], s⟩) := by
    have hcn : (syntheticMethods (obj, TypeDef.mk (some eo) (.alias S)).2.layout).contains name ≠ true := by simp [syntheticMethods, TypeDef.layout]
    rw [Eval.evaluate, bind_ok hto, Eval.methodShown, if_neg hcn]
    rcases hfind with hfind | ⟨c, hfind, hc0⟩
    · simp only [Eval.executeMethod, Eval.Ev.bind, Eval.Ev.lift, hmw, hfind, Res.ofOption]
    · simp only [Eval.executeMethod, Eval.Ev.bind, Eval.Ev.lift, hmw, hfind, Res.ofOption, hc0, if_true]
  rw [hev]

end

/-! ### Examples -/

/-- The name `S` is enough to tell the type. -/
theorem book_S_only : Unmistakable (typedef toolLibs.lib bookImage) (fileDb bookImage.units) (chars! "S") (.struct (chars! "S") 1 1 [(chars! "a", 0, 60)]) := by
  refine ⟨⟨by decide, by decide⟩, fun e desc hI ho => ?_⟩
  obtain ⟨-, d, hd, hn⟩ := own_entry ho hI
  obtain ⟨t, ht, rfl, rfl⟩ := (entry_some bookFile book_compiled.offsets e d).1 hd
  have h30 : t.die.off = 30 := (by with_unfolding_all decide : ∀ t ∈ nodes bookFile, t.die.attr .name = some (.str (chars! "S")) → t.die.off = 30) t ht hn
  rw [h30] at hI
  cases desc with
  | struct => exact ho
  | «enum» n d vs s =>
    obtain ⟨⟨-, -, part, cs, ⟨-, -, b, a, hc, ⟨dd, h1, h2⟩, -⟩, -⟩, -⟩ := hI
    have hc' : (fileDb bookImage.units).children 30 = .ok [31, 32, 34] := rfl
    rw [hc'] at hc
    have hm : part ∈ [31, 32, 34] := by rw [Res.ok.inj hc]; simp
    have := (by decide : ∀ c ∈ [31, 32, 34], ((fileDb bookImage.units).entry c).map Die.tag ≠ some .variantPart) part hm
    rw [h1] at this
    exact absurd h2 (by simpa using this)
  | cenum n d vs s =>
    obtain ⟨⟨-, ⟨dd, h1, h2⟩, -⟩, -⟩ := hI
    cases h1
    cases h2
  | _ => exact ho.elim

/-- Memory with 7 at 100 and at 102. -/
def bookMem2 : Mem := fun a => if a = 100 ∨ a = 102 then some 7 else none

/-- `y.s` is at 102. -/
theorem book_ys : Place (typedef toolLibs.lib bookImage) (fileDb bookImage.units) bookMem2 toolLibs.lossy toolLibs.floatStr (chars! "y") 102 26 (.field (.var (chars! "y")) (chars! "s")) 102 30 :=
  .field (o := 0) .var (fun _ => rfl) book_T (List.mem_cons_self ..) (by decide) (by decide)

theorem book_y_local {f : Remote.Frame} (hreg : Calls.readRegisterByIndex f.registers 0 = some 1) : Local bookImage shopLines bookRun f (chars! "y") 102 26 := by
  refine ⟨bookY, 0, 101, 1, ⟨by decide, .inr rfl⟩, rfl, fun d hd hn => book_y hd hn, rfl, ⟨none, ?_⟩, rfl, hreg, rfl, by decide⟩
  exact (Declared.C94_position _ _ _ _).1 (by decide : Declared.position shopLines (fileDb bookImage.units) 42 = Res.ok none)

set_option maxRecDepth 8000 in
/-- `C99_methods_of_part_partial` at work: the user types `rd methods y.s`. -/
example (other : Wire.Json → Str) : ∃ N b, binary toolLibs N N bookImage = .ok b ∧
    rd Remote.toy other b.program.backend ⟨bookMem2, 0⟩ (chars! "methods y.s") =
      some (.text (chars! "Methods for S:\n  - fn get(&self) -> u8 (callable)\n  - fn step(&mut self, n: u8) (callable)\n"), ⟨bookMem2, 0⟩) := by
  obtain ⟨hlive, hL, -⟩ := Remote.toy_ok
  obtain ⟨N, hN⟩ := C99_methods_of_part_partial book_stops book_home book_S_only book_functions book_T book_ys (by simp)
  obtain ⟨b, hb, h⟩ := hN N N (Nat.le_refl _) (Nat.le_refl _)
  obtain ⟨f, hf, hpc, hreg⟩ := toy_selected ⟨bookMem2, 0⟩
  exact ⟨N, b, hb, h _ Remote.toy Remote.Toy.mem other ⟨bookMem2, 0⟩ f _ hL (hlive _) hf rfl ⟨chars! "methods", chars! "y.s", [], rfl, rfl, by with_unfolding_all rfl⟩ 24 5
    (by rw [hpc]; exact book_stopped) shop_line (book_y_local hreg)⟩

/-- `C100_method_of_part_partial` at work: the user types `rd p y.s.get()`; the debugger is told to call the function at 4000 with the address 102. -/
example (other : Wire.Json → Str) : ∃ N b, binary toolLibs N N bookImage = .ok b ∧
    rd Remote.caller other b.program.backend ⟨bookMem2, 0⟩ (chars! "p y.s.get()") = some (.text (chars! "type: u8\nvalue: 7\n"), ⟨bookMem2, 0⟩) := by
  obtain ⟨hlive, hL, -⟩ := Remote.toy_ok
  obtain ⟨N, hN⟩ := C100_method_of_part_partial (m := bookMem2) (m0 := bookMem2) book_stops book_home book_S_only book_functions (g := bookGet)
    ⟨[], _, book_fns, book_get_receiver, rfl, by simp⟩ ⟨chars! "m::S::get", bookNameGet, bookNameGet, rfl, by with_unfolding_all rfl, ⟨rfl, rfl, rfl⟩, book_get_code⟩ (by decide)
    book_T book_ys (by simp) .nil rfl (.one book_u8 rfl) (by decide) (n := 0) (a := 100) (by omega) (.plain book_u8 ⟨7, by unfold Mem.HoldsNat; decide, rfl⟩)
    (by intro h; cases h) book_u8_called.2 (by decide) (by decide)
  obtain ⟨b, hb, h⟩ := hN N N (Nat.le_refl _) (Nat.le_refl _)
  obtain ⟨f, hf, hpc, hreg⟩ := toy_selected ⟨bookMem2, 0⟩
  refine ⟨N, b, hb, h _ Remote.caller Remote.Toy.mem other ⟨bookMem2, 0⟩ ⟨bookMem2, 0⟩ f _ none none none none hL (hlive ⟨bookMem2, 0⟩) (hlive ⟨bookMem2, 0⟩) hf rfl rfl
    ⟨chars! "p", chars! "y.s.get()", [], rfl, .inl rfl, by with_unfolding_all rfl⟩ 24 5 (by rw [hpc]; exact book_stopped) shop_line ?_ rfl⟩
  intro v hv
  cases List.mem_singleton.1 hv
  exact book_y_local hreg

/-- `C100_method_of_part_unknown` at work: the user types `rd p y.s.new()`, but `new` has no receiver. -/
example : Answers toolLibs bookImage bookFile shopLines bookRun bookMem2 (chars! "y") 102 26 (.method (.field (.var (chars! "y")) (chars! "s")) (chars! "new") []) .error := by
  refine C100_method_of_part_unknown book_stops book_home book_S_only book_functions (.inl ?_) book_T book_ys (by simp) _
  intro g hg hr
  rw [book_fns] at hg
  simp only [List.mem_cons, List.not_mem_nil, or_false] at hg
  rcases hg with rfl | rfl | rfl
  · decide
  · obtain ⟨p, t, rest, recv, ⟨pre, h, -⟩, -⟩ := hr
    cases pre <;> cases h
  · decide

end Rudy.Image
