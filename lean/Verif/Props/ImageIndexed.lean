import Verif.Props.ImageMissing
/-
C98, continued: parts picked by the value of a variable, as in `xs[i]` and `names[key]`.
-/
set_option linter.unusedSimpArgs false
namespace Rudy.Image
open Rudy Rudy.Dwarf Rudy.Walker Rudy.Layout Rudy.Data Rudy.Resolve Rudy.Declared Rudy.Entries Rudy.Modules Rudy.TypeNames Rudy.FnIndex Rudy.Shown Rudy.Whole Rudy.Listing
open Rudy.TypeRes (shallow resolveType Ordinary)
open Rudy.Expr (Expr)

/-- Specification: what `rd print` of the expression `ex` is answered with, while the program - whose memory is `m` - is stopped at the start of a line of the function `t` of a unit with these files; the variable `v` is at `a0` with
the type of the entry `e0`, the variable `k` is at `ak` with the type of the entry `ek`. -/
def AnswersTwo (w : Libs) (x : Executable) (us : List UnitOf) (files : UnitFiles) (t : Tree Die) (m : Mem) (v : Str) (a0 e0 : Nat) (k : Str) (ak ek : Nat) (ex : Expr) (r : Listing.Printed) : Prop :=
  ∃ N, ∀ stack depth, N ≤ stack → N ≤ depth → ∃ b, binary w stack depth x = .ok b ∧
    ∀ (σ : Type) (L : Remote.Lldb σ) (mem : σ → Mem) (other : Wire.Json → Str) (s : σ) (fr : Remote.Frame) (text : Str),
    Remote.ReadsMemory L mem → Remote.Live L s → Remote.Selected L s fr → mem s = m → Whole.Typed text ex →
    ∀ rel line, StoppedIn w x us t fr.pc rel → LineAt files rel line → Local x files t fr v a0 e0 → Local x files t fr k ak ek →
    rd L other b.program.backend s text = some (r, s)

section
variable {w : Libs} {x : Executable} {us : List UnitOf} {m : Mem} {a0 e0 ak ek : Nat} {v k : Str} {u : UnitOf} {files : UnitFiles} {t : Tree Die}

/-- What is printed is what evaluating the expression gives. -/
theorem answers_two_of (hs : Stops w x us u files t) {desc desck : Desc} (h0 : Is (typedef w.lib x) (fileDb x.units) e0 desc) (hk : Is (typedef w.lib x) (fileDb x.units) ek desck)
    {ex : Expr} {value type : Str}
    (h : ∃ N, ∀ (σ : Type) (W : Eval.World σ) (p : σ) (pc depth : Nat), N ≤ depth → N ≤ W.stack →
      RootAt W p pc (typedef w.lib x) (fileDb x.units) depth v a0 e0 → RootAt W p pc (typedef w.lib x) (fileDb x.units) depth k ak ek →
      Shown.Strict (W.target p) (target (typedef w.lib x) (fileDb x.units) m w.lossy w.floatStr depth) →
      ∃ st, Eval.evaluate W ex (Eval.St.new p) = (.ok (value, type), st) ∧ st.proc = p) :
    AnswersTwo w x us files t m v a0 e0 k ak ek ex (.text (page [chars! "type: " ++ type, chars! "value: " ++ value])) := by
  obtain ⟨N, hN⟩ := variable_found hs.compiled h0 hs.unit hs.fn hs.types
  obtain ⟨K, hK⟩ := variable_found hs.compiled hk hs.unit hs.fn hs.types
  obtain ⟨M, hM⟩ := h
  refine ⟨max (max N K) M, fun stack depth hst hdp => ?_⟩
  obtain ⟨b, hb, hbs, hT, hv⟩ := hN stack depth (by omega)
  obtain ⟨b', hb', -, -, hv'⟩ := hK stack depth (by omega)
  have : b' = b := Res.ok.inj (hb'.symm.trans hb)
  subst this
  refine ⟨b', hb, fun σ L mem other s fr text hL hlive hsel hm htx rel line hstop hline hloc hloc' => ?_⟩
  have hS : Shown.Strict ((b'.info.world L).target s) (target (typedef w.lib x) (fileDb x.units) m w.lossy w.floatStr depth) := by
    rw [← hm]; exact strict_of L b' hL hlive hT
  obtain ⟨st, hev, hst⟩ := hM σ (b'.info.world L) s fr.pc depth (by omega) (by show M ≤ b'.stack; omega)
    (hv σ L s fr v a0 hlive hsel rel line hstop hline hloc) (hv' σ L s fr k ak hlive hsel rel line hstop hline hloc') hS
  rw [rd_value L other b' s htx hev, hst]

theorem index_value {σ : Type} (W : Eval.World σ) (b i : Expr) :
    (Eval.toInt W (.index b i) = (Eval.toRef W b).bind fun p => (Eval.indexRef W p (Eval.toStr W i) (Eval.toInt W i)).bind fun p =>
      .reading fun s => Eval.readInt (W.target s) W.stack W.stack p) ∧
    (Eval.toStr W (.index b i) = (Eval.toRef W b).bind fun p => (Eval.indexRef W p (Eval.toStr W i) (Eval.toInt W i)).bind fun p =>
      .reading fun s => Eval.readString (W.target s) W.stack W.stack p) := ⟨by rw [Eval.toInt], by rw [Eval.toStr]⟩

/-- The value of a place, as an index. -/
theorem place_int {σ : Type} (W : Eval.World σ) {typedef : Nat → Option Layout} {db : Parse.Db} {lossy : List UInt8 → Str} {floatStr : Nat → Nat → Str} {v : Str} {a0 e0 a e : Nat} {ix : Expr}
    (h : Place typedef db m lossy floatStr v a0 e0 ix a e) {st st' : Eval.St σ} {p : Eval.Ptr} (href : Eval.toRef W ix st = (.ok p, st')) :
    Eval.toInt W ix st = (Eval.readInt (W.target st'.proc) W.stack W.stack p, st') ∧ Eval.toStr W ix st = (Eval.readString (W.target st'.proc) W.stack W.stack p, st') := by
  cases h with
  | var =>
    rw [Eval.toRef] at href
    rw [Eval.toInt, Eval.toStr, Shown.bind_ok href, Shown.bind_ok href]
    exact ⟨rfl, rfl⟩
  | field hb ho hI hf hnd ha =>
    rw [Eval.toRef] at href
    obtain ⟨q, s, h1, h2⟩ := Shown.bind_inv href
    rw [Eval.toInt, Eval.toStr, Shown.bind_ok h1, Shown.bind_ok h1, Shown.bind_ok h2, Shown.bind_ok h2]
    exact ⟨rfl, rfl⟩
  | element hb ho hel hto hsz =>
    rw [Eval.toRef] at href
    obtain ⟨q, s, h1, h2⟩ := Shown.bind_inv href
    exact ⟨by rw [Eval.toInt, Shown.bind_ok h1, Shown.bind_ok h2]; rfl, by rw [Eval.toStr, Shown.bind_ok h1, Shown.bind_ok h2]; rfl⟩
  | @entry _ _ _ _ _ _ _ key _ hb hes hk hnd hmem =>
    rw [Eval.toRef] at href
    obtain ⟨q, s, h1, h2⟩ := Shown.bind_inv href
    constructor
    · rw [(index_value W _ _).1, Shown.bind_ok h1, Shown.bind_ok h2]; rfl
    · rw [(index_value W _ _).2, Shown.bind_ok h1, Shown.bind_ok h2]; rfl

theorem parse_natStr (i : Nat) (h : i < u64Max1) : parseU64 10 (natStr i) = some i := by
  rw [Expr.parseU64_eq 10 (by omega) _ (Expr.natStr_ne i) fun c hc => Expr.digitVal_dec c (Expr.natStr_digits i c hc), Expr.valueOf_natStr, if_pos h]

theorem natStr_not_empty (lossy : List UInt8 → Str) (i : Nat) : natStr i ≠ emptyText lossy := by
  intro h
  have := Expr.natStr_digits i '"' (by rw [h]; simp [emptyText])
  revert this
  decide

/-- What is shown of the place, the expression being evaluated to the same place as another one. -/
theorem same_place {σ : Type} (W : Eval.World σ) {ex ex' : Expr} {st st' : Eval.St σ} {p : Eval.Ptr} (h : Eval.toRef W ex st = (.ok p, st'))
    (h' : Eval.toRef W ex' st = (.ok p, st')) : Eval.evaluate W ex' st = Eval.evaluate W ex st := by
  rw [evaluate_place W _ _ _ _ h, evaluate_place W _ _ _ _ h']

/-- C98: the element of a `Vec` or array whose number is the value of another place, as in `xs[i]` or `xs[s.pos]`: it is printed as the element `b[i]` for the number `i` itself is. -/
theorem C98_variable_index_partial (hs : Stops w x us u files t) {n i a e aix eix sz : Nat} {val : RVal} {name : Str} {b ix : Expr} (hn : n ≤ 4) {desc desck : Desc}
    (h0 : Is (typedef w.lib x) (fileDb x.units) e0 desc) (hk : Is (typedef w.lib x) (fileDb x.units) ek desck)
    (hp : Place (typedef w.lib x) (fileDb x.units) m w.lossy w.floatStr v a0 e0 (.index b (.num i)) a e)
    (hix : Place (typedef w.lib x) (fileDb x.units) m w.lossy w.floatStr k ak ek ix aix eix)
    (hnum : Is (typedef w.lib x) (fileDb x.units) eix (.plain (.uint sz))) (hi : m.HoldsNat aix sz i) (hlt : i < u64Max1)
    (h : Holds (typedef w.lib x) (fileDb x.units) m w.lossy w.floatStr n a e val) (hne : ¬ val.Has (emptyText w.lossy))
    (hcl : Called (typedef w.lib x) (fileDb x.units) w.lib.render e name) :
    AnswersTwo w x us files t m v a0 e0 k ak ek (.index b ix) (.text (page [chars! "type: " ++ name, chars! "value: " ++ val.text])) := by
  have hdec : TypeRes.Decodes (fileDb x.units) := C95_decodes _
  obtain ⟨M, hM⟩ := place_found hs.wellFormed hdec hp
  obtain ⟨I, hI⟩ := place_found_from hs.wellFormed hdec hix
  obtain ⟨K, hK⟩ := C86_read_partial hs.wellFormed hdec hn h hne
  obtain ⟨J, hJ⟩ := called_place hs.wellFormed hdec hcl
  have hold : Holds (typedef w.lib x) (fileDb x.units) m w.lossy w.floatStr 0 aix eix (.leaf (natStr i)) := .plain hnum ⟨i, hi, by rw [natStr_toString]⟩
  obtain ⟨C, hC⟩ := holds_core hs.wellFormed hdec hold
  cases hp with
  | element hb ho hel hto hsz =>
    obtain ⟨B, hB⟩ := place_found hs.wellFormed hdec hb
    refine answers_two_of hs h0 hk ⟨max (max M I) (max (max K J) (max (C + 1) B)), fun σ W p pc depth hd hst hroot hroot' hS => ?_⟩
    obtain ⟨td, htd, href⟩ := hM σ W p pc depth (by omega) (by omega) hroot hS
    obtain ⟨tb, htb, hrefb⟩ := hB σ W p pc depth (by omega) (by omega) hroot hS
    obtain ⟨ti, hti, hrefi⟩ := hI σ W p pc depth (some pc) [] (.inr rfl) (by omega) (by omega) hroot' hS
    have htd' := htd.imp (·.1) id
    have hx := hK σ W _ (Eval.St.new p) ⟨some pc, [], p⟩ td depth (by omega) (by omega) hS htd' href
    rw [hJ depth (by omega) td htd'] at hx
    obtain ⟨y, hy, hy'⟩ := hC depth W.stack W.stack (by omega) (by omega) (by omega) ti (hti.imp (·.1) id)
    obtain ⟨sty, rfl⟩ := leaf_scalar hy'
    have hR := target_reads (typedef w.lib x) (fileDb x.units) m w.lossy w.floatStr depth
    have hy1 := readMem_strict hS hR _ _ _ _ hy (by intro ty h; exact natStr_not_empty w.lossy i (Value.scalar.inj h).2)
    obtain ⟨g, hg⟩ : ∃ g, W.stack = g + 1 := ⟨W.stack - 1, by omega⟩
    have hint : Eval.readInt (W.target p) W.stack W.stack (aix, ti) = .ok i := by
      have : Eval.readInt (W.target p) W.stack (g + 1) (aix, ti) = .ok i := by
        rw [Eval.readInt, hy1]
        simp only [Res.bind_ok, numericValue, parse_natStr i hlt]
      rw [← hg] at this
      exact this
    have hti' := (place_int W hix hrefi).1
    rw [show (⟨some pc, [], p⟩ : Eval.St σ).proc = p from rfl, hint] at hti'
    refine ⟨⟨some pc, [], p⟩, ?_, rfl⟩
    rw [← hx]
    refine same_place W href ?_
    rw [Eval.toRef, Shown.bind_ok hrefb] at href ⊢
    rw [Eval.indexRef] at href ⊢
    by_cases hm : Eval.isMap tb = true
    · simp only [hm, if_true, Eval.toStr, Eval.Ev.bind, Eval.Ev.lift, Prod.mk.injEq, reduceCtorEq, false_and] at href
    · simp only [hm, if_false, Bool.false_eq_true] at href ⊢
      rw [Shown.bind_ok hti']
      rw [Shown.bind_ok (show Eval.toInt W (.num i) ⟨some pc, [], p⟩ = (.ok i, ⟨some pc, [], p⟩) by rw [Eval.toInt]; rfl)] at href
      exact href

/-- C98: the entry of a map whose key is the text at another place, as in `names[key]`: it is printed as the entry `b["..."]` with that text is. -/
theorem C98_variable_key_partial (hs : Stops w x us u files t) {n a e aix eix : Nat} {val : RVal} {name key : Str} {b ix : Expr} (hn : n ≤ 4) {desc desck : Desc}
    (h0 : Is (typedef w.lib x) (fileDb x.units) e0 desc) (hk : Is (typedef w.lib x) (fileDb x.units) ek desck)
    (hp : Place (typedef w.lib x) (fileDb x.units) m w.lossy w.floatStr v a0 e0 (.index b (.str key)) a e)
    (hix : Place (typedef w.lib x) (fileDb x.units) m w.lossy w.floatStr k ak ek ix aix eix)
    (hold : Holds (typedef w.lib x) (fileDb x.units) m w.lossy w.floatStr 0 aix eix (.leaf (quoted key)))
    (h : Holds (typedef w.lib x) (fileDb x.units) m w.lossy w.floatStr n a e val) (hne : ¬ val.Has (emptyText w.lossy))
    (hcl : Called (typedef w.lib x) (fileDb x.units) w.lib.render e name) :
    AnswersTwo w x us files t m v a0 e0 k ak ek (.index b ix) (.text (page [chars! "type: " ++ name, chars! "value: " ++ val.text])) := by
  have hdec : TypeRes.Decodes (fileDb x.units) := C95_decodes _
  obtain ⟨M, hM⟩ := place_found hs.wellFormed hdec hp
  obtain ⟨I, hI⟩ := place_found_from hs.wellFormed hdec hix
  obtain ⟨K, hK⟩ := C86_read_partial hs.wellFormed hdec hn h hne
  obtain ⟨J, hJ⟩ := called_place hs.wellFormed hdec hcl
  obtain ⟨C, hC⟩ := holds_core hs.wellFormed hdec hold
  cases hp with
  | @entry _ _ _ kt vt ka _ _ contents hb hes hks hnd hmem =>
    obtain ⟨hpl, hne0, -⟩ := hks _ hmem
    obtain ⟨B, hB⟩ := place_found hs.wellFormed hdec hb
    refine answers_two_of hs h0 hk ⟨max (max M I) (max (max K J) (max (C + 1) B)), fun σ W p pc depth hd hst hroot hroot' hS => ?_⟩
    obtain ⟨td, htd, href⟩ := hM σ W p pc depth (by omega) (by omega) hroot hS
    obtain ⟨tb, htb, hrefb⟩ := hB σ W p pc depth (by omega) (by omega) hroot hS
    obtain ⟨ti, hti, hrefi⟩ := hI σ W p pc depth (some pc) [] (.inr rfl) (by omega) (by omega) hroot' hS
    have htd' := htd.imp (·.1) id
    have hx := hK σ W _ (Eval.St.new p) ⟨some pc, [], p⟩ td depth (by omega) (by omega) hS htd' href
    rw [hJ depth (by omega) td htd'] at hx
    obtain ⟨y, hy, hy'⟩ := hC depth W.stack W.stack (by omega) (by omega) (by omega) ti (hti.imp (·.1) id)
    obtain ⟨sty, rfl⟩ := leaf_scalar hy'
    have hR := target_reads (typedef w.lib x) (fileDb x.units) m w.lossy w.floatStr depth
    have hy1 := readMem_strict hS hR _ _ _ _ hy (by
      intro ty h
      have h' := (Value.scalar.inj h).2
      simp only [quoted, List.cons.injEq, true_and, List.append_left_inj] at h'
      exact hne0 h')
    obtain ⟨g, hg⟩ : ∃ g, W.stack = g + 1 := ⟨W.stack - 1, by omega⟩
    have hstr : Eval.readString (W.target p) W.stack W.stack (aix, ti) = .ok key := by
      have : Eval.readString (W.target p) W.stack (g + 1) (aix, ti) = .ok key := by
        rw [Eval.readString, hy1]
        simp only [Res.bind_ok, trimQuotes_quoted key hpl]
      rw [← hg] at this
      exact this
    have hti' := (place_int W hix hrefi).2
    rw [show (⟨some pc, [], p⟩ : Eval.St σ).proc = p from rfl, hstr] at hti'
    refine ⟨⟨some pc, [], p⟩, ?_, rfl⟩
    rw [← hx]
    refine same_place W href ?_
    rw [Eval.toRef, Shown.bind_ok hrefb] at href ⊢
    rw [Eval.indexRef] at href ⊢
    by_cases hm : Eval.isMap tb = true
    · simp only [hm, if_true] at href ⊢
      rw [Shown.bind_ok hti']
      rw [Shown.bind_ok (show Eval.toStr W (.str key) ⟨some pc, [], p⟩ = (.ok key, ⟨some pc, [], p⟩) by rw [Eval.toStr]; rfl)] at href
      exact href
    · simp only [hm, if_false, Bool.false_eq_true, Eval.toInt, Eval.Ev.bind, Eval.Ev.lift, Prod.mk.injEq, reduceCtorEq, false_and] at href

end

/-! ### A program it is about -/

/-- The memory of the program of `partImage`, where `s.a` is 1 and `xs` is `[1, 2]`. -/
def pickMem : Mem := pieces [(100, [1, 9]), (112, [1, 2])]

/-- `C98_variable_index_partial` at work: the user types `rd p xs[s.a]`, and `s.a` is 1. -/
example (other : Wire.Json → Str) : ∃ N b, binary shopLibs N N partImage = .ok b ∧
    rd Remote.toy other b.program.backend ⟨pickMem, 0⟩ (chars! "p xs[s.a]") = some (.text (chars! "type: u8\nvalue: 2\n"), ⟨pickMem, 0⟩) := by
  have hloc : ∀ (i : Nat) (v : Str) (a e : Nat) (fr : Remote.Frame), Calls.readRegisterByIndex fr.registers 0 = some 1 →
      (∃ d ∈ partVars, d.attr .name = some (.str v) ∧ d.attr .type = some (.ref e) ∧ partImage.loc d = some (Vars.fbreg (a - 1)) ∧ 1 ≤ a ∧ a < 200 ∧
        ∀ d' ∈ partVars, d'.attr .name = some (.str v) → d' = d) → Local partImage shopLines partRun fr v a e := by
    intro i v a e fr hreg hv
    obtain ⟨d, hd, h1, h2, h3, h4, h5, h6⟩ := hv
    refine ⟨d, 0, a - 1, 1, ⟨?_, ?_⟩, h1, fun d' hd' => h6 d' (part_var hd'), h2, ⟨none, ?_⟩, rfl, hreg, h3, ?_⟩
    · have he : reach Vars.opened partRun = shopRunDie :: partVars := by decide
      rw [he]; exact List.mem_cons_of_mem _ hd
    · exact (by decide : ∀ d ∈ partVars, d.tag = .formalParameter ∨ d.tag = .variable) d hd
    · refine (C94_position _ _ _ _).1 ?_
      exact (by decide : ∀ d ∈ partVars, position shopLines (fileDb partImage.units) d.off = Res.ok none) d hd
    · simp only [u64Max1]; omega
  obtain ⟨hlive, hL, -⟩ := Remote.toy_ok
  obtain ⟨f, hf, hpc, hreg⟩ := Whole.toy_selected ⟨pickMem, 0⟩
  obtain ⟨N, hN⟩ := C98_variable_index_partial (m := pickMem) (n := 0) (i := 1) (a := 113) (v := chars! "xs") (a0 := 112) (k := chars! "s") (ak := 100) (ix := .field (.var (chars! "s")) (chars! "a")) part_stops (by omega) part_xs part_s
    (.element .var (fun _ => rfl) (.array part_xs (i := 1) (by omega) (by decide)) (by simp [Ordinary, part_types.2.2.1]) (.one part_u8 rfl))
    (.field .var (fun _ => rfl) part_s (f := chars! "a") (List.mem_cons_self ..) (by decide) (by decide)) part_u8 (by unfold Mem.HoldsNat; decide) (by decide)
    (val := .leaf (natStr 2)) (.plain part_u8 ⟨2, by unfold Mem.HoldsNat; decide, by rw [natStr_toString]⟩) (part_leaf _ (by decide)) part_u8_called
  obtain ⟨b, hb, h⟩ := hN N N (Nat.le_refl _) (Nat.le_refl _)
  exact ⟨N, b, hb, h _ Remote.toy Remote.Toy.mem other ⟨pickMem, 0⟩ f _ hL (hlive _) hf rfl ⟨chars! "p", chars! "xs[s.a]", [], rfl, .inl rfl, by with_unfolding_all rfl⟩ 24 5 (by rw [hpc]; exact part_stopped) shop_line
    (hloc 2 _ _ _ f hreg ⟨partVars[2], List.mem_of_getElem? (i := 2) rfl, rfl, rfl, rfl, by omega, by omega, by decide⟩)
    (hloc 0 _ _ _ f hreg ⟨partVars[0], List.mem_of_getElem? (i := 0) rfl, rfl, rfl, rfl, by omega, by omega, by decide⟩)⟩

end Rudy.Image
