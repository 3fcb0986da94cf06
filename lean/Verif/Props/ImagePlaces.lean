import Verif.Props.Image
import Verif.Proof.Places
/-
C98: from the executable to what is printed of the parts of a variable.
-/
namespace Rudy.Image
open Rudy Rudy.Dwarf Rudy.Walker Rudy.Layout Rudy.Data Rudy.Resolve Rudy.Declared Rudy.Entries Rudy.Modules Rudy.TypeNames Rudy.FnIndex Rudy.Shown Rudy.Whole Rudy.Listing
open Rudy.TypeRes (shallow resolveType Ordinary)
open Rudy.Expr (Expr)

/-- Specification: where the program is stopped (in the frame `fr`) in the function `t`, one of its variables and parameters, and only one, is called `v`; its entry gives it the type of the entry `e`, and says it is at `a`: at an offset from the register of
the frame base. It is declared in a file of the unit or nowhere. -/
def Local (x : Executable) (files : UnitFiles) (t : Tree Die) (fr : Remote.Frame) (v : Str) (a e : Nat) : Prop :=
  ∃ d r o fp, VariableEntry t d ∧ d.attr .name = some (.str v) ∧ (∀ d', VariableEntry t d' → d'.attr .name = some (.str v) → d' = d) ∧
    d.attr .type = some (.ref e) ∧ (∃ p, DeclaredAt files (fileDb x.units) d.off p) ∧
    x.frameBase t.die = some (Vars.inReg r) ∧ Calls.readRegisterByIndex fr.registers r = some fp ∧ x.loc d = some (Vars.fbreg o) ∧ a = (fp + o) % u64Max1

/-- The variable is found where it is. -/
theorem variable_found {w : Libs} {x : Executable} {us : List UnitOf} (hc : Compiled w x us) {e : Nat} {desc : Desc}
    (h : Is (typedef w.lib x) (fileDb x.units) e desc) {u : UnitOf} {files : UnitFiles} (hz : (u, files) ∈ us.zip x.files) {t : Tree Die} (ht : t ∈ subtrees u.1)
    (hty : ∀ d ty, VariableEntry t d → d.attr .type = some (.ref ty) → Known (typedef w.lib x) (fileDb x.units) ty) :
    ∃ N, ∀ stack depth, N ≤ depth → ∃ b, binary w stack depth x = .ok b ∧ b.stack = stack ∧ TypesFrom b (typedef w.lib x) (fileDb x.units) w.lossy w.floatStr depth ∧
      ∀ (σ : Type) (L : Remote.Lldb σ) (s : σ) (fr : Remote.Frame) (v : Str) (a : Nat), Remote.Live L s → Remote.Selected L s fr →
      ∀ rel line, StoppedIn w x us t fr.pc rel → LineAt files rel line → Local x files t fr v a e →
      RootAt (b.info.world L) s fr.pc (typedef w.lib x) (fileDb x.units) depth v a e := by
  have hw : TypeRes.WellFormed (fileDb x.units) := by rw [hc.units]; exact C95_well_formed us hc.offsets hc.apart
  have hdec : TypeRes.Decodes (fileDb x.units) := C95_decodes _
  have hmem : u ∈ us := (List.of_mem_zip hz).1
  have hent : ∀ d, VariableEntry t d → (fileDb x.units).entry d.off = some d := by
    intro d hd
    obtain ⟨k, hk, rfl⟩ := variable_node ht hd
    rw [hc.units]
    exact entry_node us hc.offsets k (List.mem_flatMap.2 ⟨u, hmem, hk⟩)
  have hfiles : ∀ d, VariableEntry t d → unitFiles x d.off = files := by
    intro d hd
    obtain ⟨k, hk, rfl⟩ := variable_node ht hd
    exact unitFiles_of x us hc.units hc.offsets u files hz k hk
  obtain ⟨N, hN⟩ := types_at hw hdec h
  obtain ⟨M, hM⟩ := Shown.list_bound (reach Vars.opened t)
    (fun d depth => VariableEntry t d → ∀ ty, d.attr .type = some (.ref ty) → shallow (typedef w.lib x) (fileDb x.units) depth ty ≠ .panic) (by
      intro d _
      by_cases hd : VariableEntry t d ∧ ∃ ty, d.attr .type = some (.ref ty)
      · obtain ⟨hd, ty, hdt⟩ := hd
        obtain ⟨M, hM⟩ := Shown.known_shallow hw hdec (hty d ty hd hdt)
        refine ⟨M, fun depth hdep _ ty' h' => ?_⟩
        rw [hdt] at h'
        cases h'
        rw [hM depth hdep]
        simp
      · exact ⟨0, fun depth _ hv ty h' => absurd ⟨hv, ty, h'⟩ hd⟩)
  refine ⟨max N M + 1, fun stack depth hdp => ?_⟩
  obtain ⟨b, hb, hT, hE⟩ := C96_opens hc stack depth
  have hbs : b.stack = stack := by
    obtain ⟨fns, hfns, -⟩ := C53_by_name (syms w x) 0 false us hc.functions
    obtain ⟨ix, hix, -⟩ := C39_entry_in_its_module us hc.file
    simp only [binary, hc.units, hfns, hix, Res.bind_ok, Res.ok.injEq] at hb
    rw [← hb]
  refine ⟨b, hb, hbs, hT, fun σ L s fr v a hlive hsel rel line hstop hline ⟨d, r, o, fp, hdv, hdn, hdu, hdt, ⟨p, hdp'⟩, hfb, hreg, hloc, ha⟩ => ?_⟩
  obtain ⟨fns, ix, fn, l, hfns, hix, hlne, hfind, hrest⟩ := stopped hc hz ht hstop
  obtain ⟨base, trailing, h2, h4⟩ := hrest depth
  obtain ⟨loc, hloc', hlline⟩ := hline.location
  have h1 : (vars w depth x fns ix).lookupAddress fr.pc = some (fn, line) := by
    simp only [vars, hfind, hloc', Discovery.okOf, Option.bind_some, lookupAddress, answers, List.map_const', List.getLast?_replicate]
    rw [if_neg (by simpa using hlne)]
    simp [hlline]
  have hbv : b.vars = vars w depth x fns ix := by
    simp only [binary, hfns, hix, Res.bind_ok, Res.ok.injEq] at hb
    rw [← hb]
  obtain ⟨k, rfl⟩ : ∃ k, depth = k + 1 := ⟨depth - 1, by omega⟩
  have hres := (hN (k + 1) (by omega)).2.1
  obtain ⟨t', ht'⟩ : ∃ t, shallow (typedef w.lib x) (fileDb x.units) (k + 1) e = .ok t := TypeRes.shallow_of_resolveType (hN k (by omega)).2.1
  have hnamed : Parse.Named (fileDb x.units) d.off v := ⟨d, hent d hdv, hdn⟩
  have hdes : Declared.Describes (shallow (typedef w.lib x) (fileDb x.units) (k + 1)) (unitFiles x d.off) (fileDb x.units) d.off (some v) t' p :=
    ⟨fun n => ⟨fun hx => by cases hx; exact hnamed, fun hx => by rw [hnamed.unique hx]⟩, ⟨e, ⟨d, hent d hdv, hdt⟩, ht'⟩, by rw [hfiles d hdv]; exact hdp'⟩
  have hrd : Reading (b.info.variables L s) (shallow (typedef w.lib x) (fileDb x.units) (k + 1)) (fun d => unitFiles x d.off) (fileDb x.units) x.loc := ⟨hE.parse⟩
  have hfv := C94_found_partial (b.info.variables L s) _ _ (fileDb x.units) x.loc hrd fr.pc fn line base _ t trailing
    (by show b.vars.lookupAddress _ = _; rw [hbv]; exact h1) (by show b.vars.getFunction _ = _; rw [hbv]; exact h2) rfl
    (by show b.vars.baseAddress _ = _; rw [hbv]; exact h4) (by
      rintro d' ty hd' ⟨d'', he, hdt'⟩
      rw [hent d' hd'] at he
      cases he
      exact hM (k + 1) (by omega) d' hd'.1 hd' ty hdt') d hdv v t' p hdes (by
      rintro d' hd' ⟨d'', he, hdn'⟩
      rw [hent d' hd'] at he
      cases he
      exact hdu d' hd' hdn')
  have hreg' : (b.info.variables L s).ctx.reg r = .ok fp := by
    show (Remote.talk L (Remote.getRegister r) s).1 = _
    rw [Remote.C77_register L hlive hsel, hreg]
  have hloc'' : Vars.dataLocation (b.info.variables L s).ctx (x.frameBase t.die) base (x.loc d) = .ok (some a) := by
    rw [hfb, hloc, ha]; exact Vars.C55_frame_variable _ r o fp base hreg'
  have hal : (b.info.variables L s).resolve = resolveType (typedef w.lib x) (fileDb x.units) (k + 1) := hT.vars
  refine ⟨?_, _, hres, ?_⟩
  · show Remote.okOf (Remote.talk L Remote.getPc s) = _
    rw [Remote.C77_pc L hlive hsel]; rfl
  · show (Vars.getVariableAtPc (b.info.variables L s) fr.pc v).bind _ = _
    rw [hfv]
    simp only [Vars.variableInfo, hloc'', hal, TypeRes.fullType_shallow ht', hres, Res.bind_ok]
    rfl

/-- Specification: what `rd print` of the expression `ex` is answered with, while the program - whose memory is `m` - is stopped at the start of a line of the function `t` of a unit with these files, and `v` is a variable at `a0` with
the type of the entry `e0`. -/
def Answers (w : Libs) (x : Executable) (us : List UnitOf) (files : UnitFiles) (t : Tree Die) (m : Mem) (v : Str) (a0 e0 : Nat) (ex : Expr) (r : Listing.Printed) : Prop :=
  ∃ N, ∀ stack depth, N ≤ stack → N ≤ depth → ∃ b, binary w stack depth x = .ok b ∧
    ∀ (σ : Type) (L : Remote.Lldb σ) (mem : σ → Mem) (other : Wire.Json → Str) (s : σ) (fr : Remote.Frame) (text : Str),
    Remote.ReadsMemory L mem → Remote.Live L s → Remote.Selected L s fr → mem s = m → Whole.Typed text ex →
    ∀ rel line, StoppedIn w x us t fr.pc rel → LineAt files rel line → Local x files t fr v a0 e0 →
    rd L other b.program.backend s text = some (r, s)

section
variable {w : Libs} {x : Executable} {us : List UnitOf} {m : Mem} {a0 e0 : Nat} {v : Str} {u : UnitOf} {files : UnitFiles} {t : Tree Die}

/-- Where a function of the executable can be stopped at: it is the function `t` of the unit `u`, and the types of its variables are understood. -/
structure Stops (w : Libs) (x : Executable) (us : List UnitOf) (u : UnitOf) (files : UnitFiles) (t : Tree Die) : Prop where
  compiled : Compiled w x us
  unit : (u, files) ∈ us.zip x.files
  fn : t ∈ subtrees u.1
  types : ∀ d ty, VariableEntry t d → d.attr .type = some (.ref ty) → Known (typedef w.lib x) (fileDb x.units) ty

theorem Stops.wellFormed (hs : Stops w x us u files t) : TypeRes.WellFormed (fileDb x.units) := by
  rw [hs.compiled.units]; exact C95_well_formed us hs.compiled.offsets hs.compiled.apart

/-- What is printed is what evaluating the expression gives. -/
theorem answers_of (hs : Stops w x us u files t) {desc : Desc} (h0 : Is (typedef w.lib x) (fileDb x.units) e0 desc) {ex : Expr} {q : Res Eval.Shown}
    {r : Listing.Printed} (hr : match q with
      | .ok (value, type) => r = .text (page [chars! "type: " ++ type, chars! "value: " ++ value])
      | .err => r = .error
      | .panic => r = .failed [])
    (h : ∃ N, ∀ (σ : Type) (W : Eval.World σ) (p : σ) (pc depth : Nat), N ≤ depth → N ≤ W.stack →
      RootAt W p pc (typedef w.lib x) (fileDb x.units) depth v a0 e0 → Shown.Strict (W.target p) (target (typedef w.lib x) (fileDb x.units) m w.lossy w.floatStr depth) →
      ∃ st, Eval.evaluate W ex (Eval.St.new p) = (q, st) ∧ st.proc = p) :
    Answers w x us files t m v a0 e0 ex r := by
  obtain ⟨N, hN⟩ := variable_found hs.compiled h0 hs.unit hs.fn hs.types
  obtain ⟨M, hM⟩ := h
  refine ⟨max N M, fun stack depth hst hdp => ?_⟩
  obtain ⟨b, hb, hbs, hT, hv⟩ := hN stack depth (by omega)
  refine ⟨b, hb, fun σ L mem other s fr text hL hlive hsel hm htx rel line hstop hline hloc => ?_⟩
  have hroot := hv σ L s fr v a0 hlive hsel rel line hstop hline hloc
  have hS : Shown.Strict ((b.info.world L).target s) (target (typedef w.lib x) (fileDb x.units) m w.lossy w.floatStr depth) := by
    rw [← hm]; exact strict_of L b hL hlive hT
  obtain ⟨st, hev, hst⟩ := hM σ (b.info.world L) s fr.pc depth (by omega) (by show M ≤ b.stack; omega) hroot hS
  match q, hr, hev with
  | .ok (value, type), hr, hev => rw [hr, rd_value L other b s htx hev, hst]
  | .err, hr, hev =>
    obtain ⟨sub, a, as, h4, h5, h6⟩ := htx
    rw [hr]
    exact Listing.C84_value_error L other _ s text sub a as h4 h5 s (.inr ⟨_, h6, by rw [Whole.C86_evaluated, hev, ← hst]⟩)
  | .panic, hr, hev =>
    obtain ⟨sub, a, as, h4, h5, h6⟩ := htx
    rw [hr]
    exact Listing.C84_crash L other b.program s text sub a as h4 s (.inr (.inr (.inr (.inl ⟨h5, _, h6, by rw [Whole.C86_evaluated, hev, ← hst]⟩))))

/-- C98: the user types `rd print` and a variable, a field of it, an element of a `Vec` or array, an entry of a map with text keys, or what these make together (as `x.names["a"][2]`), while the program is stopped at the start of a line of the
function. What is printed is the name of the type that the entries of the executable give the place, and the value that memory holds there. The places are those of `Place`; for others the claim is false, see below. -/
theorem C98_place_printed_partial (hs : Stops w x us u files t) {n a e : Nat} {val : RVal} {name : Str} {ex : Expr} (hn : n ≤ 4) {desc : Desc}
    (h0 : Is (typedef w.lib x) (fileDb x.units) e0 desc) (hp : Place (typedef w.lib x) (fileDb x.units) m w.lossy w.floatStr v a0 e0 ex a e)
    (h : Holds (typedef w.lib x) (fileDb x.units) m w.lossy w.floatStr n a e val) (hne : ¬ val.Has (emptyText w.lossy))
    (hcl : Called (typedef w.lib x) (fileDb x.units) w.lib.render e name) :
    Answers w x us files t m v a0 e0 ex (.text (page [chars! "type: " ++ name, chars! "value: " ++ val.text])) := by
  have hdec : TypeRes.Decodes (fileDb x.units) := C95_decodes _
  obtain ⟨M, hM⟩ := place_found hs.wellFormed hdec hp
  obtain ⟨K, hK⟩ := C86_read_partial hs.wellFormed hdec hn h hne
  obtain ⟨J, hJ⟩ := called_place hs.wellFormed hdec hcl
  refine answers_of hs h0 (q := .ok (val.text, name)) rfl ⟨max M (max K J), fun σ W p pc depth hd hst hroot hS => ?_⟩
  obtain ⟨td, htd, href⟩ := hM σ W p pc depth (by omega) (by omega) hroot hS
  have htd' := htd.imp (·.1) id
  have hx := hK σ W ex (Eval.St.new p) ⟨some pc, [], p⟩ td depth (by omega) (by omega) hS htd' href
  rw [hJ depth (by omega) td htd'] at hx
  exact ⟨_, hx, rfl⟩

/-! ### Where the claim is false -/

theorem root_ref {σ : Type} {W : Eval.World σ} {p : σ} {pc depth : Nat} {desc : Desc}
    (hres : resolveType (typedef w.lib x) (fileDb x.units) depth e0 = .ok (full (typedef w.lib x) (fileDb x.units) depth e0 desc))
    (h : RootAt W p pc (typedef w.lib x) (fileDb x.units) depth v a0 e0) :
    Eval.toRef W (.var v) (Eval.St.new p) = (.ok (a0, full (typedef w.lib x) (fileDb x.units) depth e0 desc), ⟨some pc, [], p⟩) := by
  obtain ⟨hfr, td, htd, hv⟩ := h
  rw [hres] at htd
  cases htd
  simp only [Eval.toRef, Eval.variableRef, Eval.Ev.bind, Eval.getPc, Eval.St.new, hfr, Eval.Ev.reading, hv, Eval.Ev.lift]

/-- C98 is false of references and smart pointers: unlike in Rust, `v.f` is an error for a variable that is a reference, as `self` in most methods, and so is `v[i]`. -/
theorem C98_reference_fails (hs : Stops w x us u files t) {desc : Desc} (h0 : Is (typedef w.lib x) (fileDb x.units) e0 desc)
    (hd : (∃ mu e, desc = .reference mu e) ∨ (∃ mu e, desc = .pointer mu e) ∨ ∃ k i j e, desc = .smart k i j e) (f : Str) (i : Nat) :
    Answers w x us files t m v a0 e0 (.field (.var v) f) .error ∧ Answers w x us files t m v a0 e0 (.index (.var v) (.num i)) .error := by
  obtain ⟨N, hN⟩ := types_at hs.wellFormed (C95_decodes _) h0
  constructor
  · refine answers_of hs h0 (q := .err) rfl ⟨N, fun σ W p pc depth hdp hst hroot hS => ?_⟩
    have href := root_ref (hN depth hdp).2.1 hroot
    refine ⟨⟨some pc, [], p⟩, ?_, rfl⟩
    rw [Eval.evaluate, Shown.bind_ok href]
    rcases hd with ⟨mu, e, rfl⟩ | ⟨mu, e, rfl⟩ | ⟨k, i, j, e, rfl⟩ <;> rfl
  · refine answers_of hs h0 (q := .err) rfl ⟨N, fun σ W p pc depth hdp hst hroot hS => ?_⟩
    have href := root_ref (hN depth hdp).2.1 hroot
    refine ⟨⟨some pc, [], p⟩, ?_, rfl⟩
    rw [Eval.evaluate, Shown.bind_ok href]
    rcases hd with ⟨mu, e, rfl⟩ | ⟨mu, e, rfl⟩ | ⟨k, i, j, e, rfl⟩ <;> rfl

/-- C98 is false of what is behind a reference: `*v` is an error, whatever `v` is. -/
theorem C98_deref_fails (hs : Stops w x us u files t) {desc : Desc} (h0 : Is (typedef w.lib x) (fileDb x.units) e0 desc) (ex : Expr) :
    Answers w x us files t m v a0 e0 (.deref ex) .error :=
  answers_of hs h0 (q := .err) rfl ⟨0, fun _ _ p _ _ _ _ _ _ => ⟨Eval.St.new p, rfl, rfl⟩⟩

/-- C98 is false of parts of a field of a type of the user's own, and of elements of a field that is an array: `v.f.g` and `v.f[i]` are errors, whatever parts the field has. -/
theorem C98_part_of_field_fails (hs : Stops w x us u files t) {o e size align : Nat} {name f : Str} {fs : List (Str × Nat × Nat)}
    (h0 : Is (typedef w.lib x) (fileDb x.units) e0 (.struct name size align fs)) (hf : (f, o, e) ∈ fs) (hnd : (fs.map (·.1)).Nodup) (ha : a0 + o < u64Max1)
    (ho : Ordinary (typedef w.lib x) e) (g : Str) (i : Nat) :
    Answers w x us files t m v a0 e0 (.field (.field (.var v) f) g) .error ∧ Answers w x us files t m v a0 e0 (.index (.field (.var v) f) (.num i)) .error := by
  obtain ⟨N, hN⟩ := types_at hs.wellFormed (C95_decodes _) h0
  have key : ∀ (σ : Type) (W : Eval.World σ) (p : σ) (pc depth : Nat), N + 1 ≤ depth → RootAt W p pc (typedef w.lib x) (fileDb x.units) depth v a0 e0 →
      ∃ nm, Eval.toRef W (.field (.var v) f) (Eval.St.new p) = (.ok (a0 + o, .mk (some e) (.alias nm)), ⟨some pc, [], p⟩) := by
    intro σ W p pc depth hdp hroot
    have href := root_ref (hN depth (by omega)).2.1 hroot
    obtain ⟨depth, rfl⟩ : ∃ k, depth = k + 1 := ⟨depth - 1, by omega⟩
    obtain ⟨nm, hnm⟩ := shallow_ordinary (db := fileDb x.units) (d := depth) ho
    have hty : ty (typedef w.lib x) (fileDb x.units) (depth + 1) e = .mk (some e) (.alias nm) := ty_eq hnm
    have hfind := find_field (ty (typedef w.lib x) (fileDb x.units) (depth + 1)) hf hnd
    refine ⟨nm, ?_⟩
    rw [Eval.toRef, Shown.bind_ok href]
    simp only [Eval.Ev.lift, getStructField, full, TypeDef.layout, Desc.layout, toList_membersOf, hfind, Res.ofOption, Res.bind_ok, addU_ok ha, hty]
  constructor
  · refine answers_of hs h0 (q := .err) rfl ⟨N + 1, fun σ W p pc depth hdp hst hroot hS => ?_⟩
    obtain ⟨nm, href⟩ := key σ W p pc depth hdp hroot
    refine ⟨⟨some pc, [], p⟩, ?_, rfl⟩
    rw [Eval.evaluate, Shown.bind_ok href]
    rfl
  · refine answers_of hs h0 (q := .err) rfl ⟨N + 1, fun σ W p pc depth hdp hst hroot hS => ?_⟩
    obtain ⟨nm, href⟩ := key σ W p pc depth hdp hroot
    refine ⟨⟨some pc, [], p⟩, ?_, rfl⟩
    rw [Eval.evaluate, Shown.bind_ok href]
    rfl

/-- C98 is false of elements of a type of the user's own: `v[i]` is an error, although there is an element `i`. -/
theorem C98_own_element_fails (hs : Stops w x us u files t) {i e sz q : Nat} (hel : Element (typedef w.lib x) (fileDb x.units) m a0 e0 i e sz q)
    (ho : Ordinary (typedef w.lib x) e) : Answers w x us files t m v a0 e0 (.index (.var v) (.num i)) .error := by
  cases hel with
  | vec hI hl hq hi h1 h2 h3 =>
    rename_i q len lenOff dataOff capOff
    obtain ⟨N, hN⟩ := types_at hs.wellFormed (C95_decodes _) hI
    refine answers_of hs hI (q := .err) rfl ⟨N + 1, fun σ W p pc depth hdp hst hroot hS => ?_⟩
    have href := root_ref (hN depth (by omega)).2.1 hroot
    obtain ⟨depth, rfl⟩ : ∃ k, depth = k + 1 := ⟨depth - 1, by omega⟩
    obtain ⟨nm, hnm⟩ := shallow_ordinary (db := fileDb x.units) (d := depth) ho
    have hty : ty (typedef w.lib x) (fileDb x.units) (depth + 1) e = .mk (some e) (.alias nm) := ty_eq hnm
    have hR := target_reads (typedef w.lib x) (fileDb x.units) m w.lossy w.floatStr (depth + 1)
    refine ⟨⟨some pc, [], p⟩, ?_, rfl⟩
    rw [Eval.evaluate, Shown.bind_ok href, Eval.indexRef]
    have : indexSeq (W.target p) W.stack a0 (full (typedef w.lib x) (fileDb x.units) (depth + 1) e0 (.vec lenOff dataOff capOff e)) i = .err := by
      simp only [indexSeq, full, TypeDef.layout, Desc.layout, hS.vecInfo]
      simp only [vecInfo, addU_ok h1, addU_ok h2, Res.bind_ok, readLen_eq hR, readAddress_eq hR, (readNat_ok hR _ _ _).2 hl, (readNat_ok hR _ _ _).2 hq]
      rw [if_neg (by omega), hty]
      rfl
    have hmap : Eval.isMap (full (typedef w.lib x) (fileDb x.units) (depth + 1) e0 (.vec lenOff dataOff capOff e)) = false := rfl
    simp only [hmap, Bool.false_eq_true, if_false, Eval.toInt, Eval.Ev.bind, Eval.Ev.lift, Eval.Ev.reading, this]
  | array hI hi h3 =>
    rename_i len
    obtain ⟨N, hN⟩ := types_at hs.wellFormed (C95_decodes _) hI
    refine answers_of hs hI (q := .err) rfl ⟨N + 1, fun σ W p pc depth hdp hst hroot hS => ?_⟩
    have href := root_ref (hN depth (by omega)).2.1 hroot
    obtain ⟨depth, rfl⟩ : ∃ k, depth = k + 1 := ⟨depth - 1, by omega⟩
    obtain ⟨nm, hnm⟩ := shallow_ordinary (db := fileDb x.units) (d := depth) ho
    have hty : ty (typedef w.lib x) (fileDb x.units) (depth + 1) e = .mk (some e) (.alias nm) := ty_eq hnm
    refine ⟨⟨some pc, [], p⟩, ?_, rfl⟩
    rw [Eval.evaluate, Shown.bind_ok href, Eval.indexRef]
    have : indexSeq (W.target p) W.stack a0 (full (typedef w.lib x) (fileDb x.units) (depth + 1) e0 (.array e len)) i = .err := by
      simp only [indexSeq, full, TypeDef.layout, Desc.layout]
      rw [if_neg (by omega), hty]
      rfl
    have hmap : Eval.isMap (full (typedef w.lib x) (fileDb x.units) (depth + 1) e0 (.array e len)) = false := rfl
    simp only [hmap, Bool.false_eq_true, if_false, Eval.toInt, Eval.Ev.bind, Eval.Ev.lift, Eval.Ev.reading, this]

/-- C98 is false of slices: `v[i]` is an error for every `i`, although printing `v` shows the elements. -/
theorem C98_slice_element_fails (hs : Stops w x us u files t) {n d l e : Nat} {val : RVal} (h0 : Is (typedef w.lib x) (fileDb x.units) e0 (.slice d l e))
    (h : Holds (typedef w.lib x) (fileDb x.units) m w.lossy w.floatStr n a0 e0 val) (i : Nat) :
    Answers w x us files t m v a0 e0 (.index (.var v) (.num i)) .error := by
  obtain ⟨N, hN⟩ := types_at hs.wellFormed (C95_decodes _) h0
  obtain ⟨M, hM⟩ := holds_core hs.wellFormed (C95_decodes _) h
  refine answers_of hs h0 (q := .err) rfl ⟨max N (M + 1), fun σ W p pc depth hdp hst hroot hS => ?_⟩
  have href := root_ref (hN depth (by omega)).2.1 hroot
  have hR := target_reads (typedef w.lib x) (fileDb x.units) m w.lossy w.floatStr depth
  obtain ⟨y, hy, -⟩ := hM depth W.stack W.stack (by omega) (by omega) (by omega) _ (.inl (hN depth (by omega)).2.1)
  obtain ⟨g, hg⟩ : ∃ g, W.stack = g + 1 := ⟨W.stack - 1, by omega⟩
  have hy0 := hy
  rw [hg] at hy
  obtain ⟨_, _, _, _, _, _, _, _, hy'⟩ := C24_slice _ m hR g a0 (some e0) d l (ty (typedef w.lib x) (fileDb x.units) depth e) y hy
  have hy1 := readMem_strict hS hR _ _ _ _ hy0 (by rintro ty rfl; cases hy')
  refine ⟨⟨some pc, [], p⟩, ?_, rfl⟩
  rw [Eval.evaluate, Shown.bind_ok href, Eval.indexRef]
  have : indexSeq (W.target p) W.stack a0 (full (typedef w.lib x) (fileDb x.units) depth e0 (.slice d l e)) i = .err := by
    have hl : (full (typedef w.lib x) (fileDb x.units) depth e0 (.slice d l e)).layout = .slice (ty (typedef w.lib x) (fileDb x.units) depth e) d l := rfl
    simp only [indexSeq, hl, hy1, Res.bind_ok, hy', sliceInfo]
    rfl
  have hmap : Eval.isMap (full (typedef w.lib x) (fileDb x.units) depth e0 (.slice d l e)) = false := rfl
  simp only [hmap, Bool.false_eq_true, if_false, Eval.toInt, Eval.Ev.bind, Eval.Ev.lift, Eval.Ev.reading, this]

/-- C98 is false of tuples and results: printing a variable that is one crashes the session, whatever memory holds. -/
theorem C98_tuple_fails (hs : Stops w x us u files t) {desc : Desc} (h0 : Is (typedef w.lib x) (fileDb x.units) e0 desc)
    (hd : (∃ sz es, desc = .tuple sz es) ∨ ∃ n d o e o' e' sz, desc = .result n d o e o' e' sz) :
    Answers w x us files t m v a0 e0 (.var v) (.failed []) := by
  obtain ⟨N, hN⟩ := types_at hs.wellFormed (C95_decodes _) h0
  refine answers_of hs h0 (q := .panic) rfl ⟨N + 1, fun σ W p pc depth hdp hst hroot hS => ?_⟩
  have href := root_ref (hN depth (by omega)).2.1 hroot
  refine ⟨⟨some pc, [], p⟩, ?_, rfl⟩
  rw [evaluate_place W _ _ _ _ href]
  obtain ⟨g, hg⟩ : ∃ g, W.stack = g + 1 := ⟨W.stack - 1, by omega⟩
  simp only [Eval.pointerToResult, Eval.Ev.reading, hg]
  rcases hd with ⟨sz, es, rfl⟩ | ⟨n, d, o, e, o', e', sz, rfl⟩ <;> rfl

end

/-! ### Examples -/

/-- A file with the module `shop`: the structures `T` with the field `b: u8` and `S` with the fields `a: u8` and `t: T`, and the function `run` with the variables `s: S`, `r: &S`, `xs: [u8; 2]`, `ts: [T; 2]`,
`p: (u8, u8)` and `sl: &[u8]`. -/
def partFile : List UnitOf :=
  [(.node { off := 10, tag := .compileUnit, attrs := [(.language, .lang true)], unitLength := 200 } true false
      [.node { off := 20, tag := .namespace, attrs := [(.name, .str (chars! "shop"))] } true true
        [.node { off := 30, tag := .structureType, attrs := [(.name, .str (chars! "T")), (.byteSize, .data 1), (.alignment, .data 1)] } true false
          [.node { off := 31, tag := .member, attrs := [(.name, .str (chars! "b")), (.dataMemberLocation, .data 0), (.type, .ref 60)] } false false []],
         .node { off := 34, tag := .structureType, attrs := [(.name, .str (chars! "S")), (.byteSize, .data 2), (.alignment, .data 1)] } true false
          [.node { off := 35, tag := .member, attrs := [(.name, .str (chars! "a")), (.dataMemberLocation, .data 0), (.type, .ref 60)] } false false [],
           .node { off := 36, tag := .member, attrs := [(.name, .str (chars! "t")), (.dataMemberLocation, .data 1), (.type, .ref 30)] } false false []],
         .node { off := 40, tag := .subprogram, attrs := [(.name, .str (chars! "run")), (.linkageName, .str (chars! "_ZN4shop3runE"))], range := some (16, 48) } true true
          [.node { off := 41, tag := .variable, attrs := [(.name, .str (chars! "s")), (.type, .ref 34)] } false false [],
           .node { off := 42, tag := .variable, attrs := [(.name, .str (chars! "r")), (.type, .ref 62)] } false false [],
           .node { off := 43, tag := .variable, attrs := [(.name, .str (chars! "xs")), (.type, .ref 63)] } false false [],
           .node { off := 44, tag := .variable, attrs := [(.name, .str (chars! "ts")), (.type, .ref 65)] } false false [],
           .node { off := 45, tag := .variable, attrs := [(.name, .str (chars! "p")), (.type, .ref 67)] } false false [],
           .node { off := 46, tag := .variable, attrs := [(.name, .str (chars! "sl")), (.type, .ref 70)] } false false []]],
       .node { off := 60, tag := .baseType, attrs := [(.name, .str (chars! "u8")), (.byteSize, .data 1)] } false false [],
       .node { off := 62, tag := .pointerType, attrs := [(.name, .str (chars! "&shop::S")), (.type, .ref 34)] } false false [],
       .node { off := 63, tag := .arrayType, attrs := [(.type, .ref 60)] } true false [.node { off := 64, tag := .subrangeType, attrs := [(.count, .data 2)] } false false []],
       .node { off := 65, tag := .arrayType, attrs := [(.type, .ref 30)] } true false [.node { off := 66, tag := .subrangeType, attrs := [(.count, .data 2)] } false false []],
       .node { off := 67, tag := .structureType, attrs := [(.name, .str (chars! "(u8, u8)")), (.byteSize, .data 2)] } true false
        [.node { off := 68, tag := .member, attrs := [(.name, .str (chars! "__0")), (.dataMemberLocation, .data 0), (.type, .ref 60)] } false false [],
         .node { off := 69, tag := .member, attrs := [(.name, .str (chars! "__1")), (.dataMemberLocation, .data 1), (.type, .ref 60)] } false false []],
       .node { off := 70, tag := .structureType, attrs := [(.name, .str (chars! "&[u8]")), (.byteSize, .data 16)] } true false
        [.node { off := 71, tag := .member, attrs := [(.name, .str (chars! "data_ptr")), (.dataMemberLocation, .data 0), (.type, .ref 73)] } false false [],
         .node { off := 72, tag := .member, attrs := [(.name, .str (chars! "length")), (.dataMemberLocation, .data 8), (.type, .ref 60)] } false false []],
       .node { off := 73, tag := .pointerType, attrs := [(.type, .ref 60)] } false false []], 2)]

/-- An executable with this file: the variables of `run` are at 100, 104, 112, 114, 116 and 120, if the first register holds 1. -/
def partImage : Executable where
  symbols := [⟨chars! "_ZN4shop3runE", 4088, true, 32⟩]
  units := partFile.map encUnit
  files := [shopLines]
  loc := fun d => (([(41, 99), (42, 103), (43, 111), (44, 113), (45, 115), (46, 119)] : List (Nat × Nat)).find? (·.1 == d.off)).map fun p => Vars.fbreg p.2
  frameBase := fun _ => some (Vars.inReg 0)

/-- The variables of `run`. -/
def partVars : List Die :=
  [{ off := 41, tag := .variable, attrs := [(.name, .str (chars! "s")), (.type, .ref 34)] },
   { off := 42, tag := .variable, attrs := [(.name, .str (chars! "r")), (.type, .ref 62)] },
   { off := 43, tag := .variable, attrs := [(.name, .str (chars! "xs")), (.type, .ref 63)] },
   { off := 44, tag := .variable, attrs := [(.name, .str (chars! "ts")), (.type, .ref 65)] },
   { off := 45, tag := .variable, attrs := [(.name, .str (chars! "p")), (.type, .ref 67)] },
   { off := 46, tag := .variable, attrs := [(.name, .str (chars! "sl")), (.type, .ref 70)] }]

/-- The function `run`. -/
def partRun : Tree Die := .node shopRunDie true true (partVars.map fun d => .node d false false [])

/-- The unit. -/
def partUnit : UnitOf := partFile.head (by simp [partFile])

theorem partFile_ok : FileOk partFile := by
  refine ⟨by decide, ?_, by decide⟩
  intro u hu _
  simp only [partFile, List.mem_cons, List.not_mem_nil, or_false] at hu
  subst hu
  refine ⟨rfl, by decide, by decide, ?_⟩
  intro d hd ht
  have : Modules.nameOf d ≠ [] := (by decide : ∀ d ∈ partUnit.1.entries, d.tag = .namespace → Modules.nameOf d ≠ []) d hd ht
  simp only [Modules.nameOf] at this
  split at this
  · exact ⟨_, by assumption⟩
  · exact absurd rfl this

theorem partFile_offsets : Offsets partFile := by unfold Offsets; decide

theorem partFile_apart : NamesApart partFile := ⟨by decide, fun p hp ht => absurd ht ((by decide : ∀ p ∈ nodes partFile, p.die.tag ≠ .variantPart) p hp)⟩

theorem part_function {d : Die} {l : Str} (h : Function partFile d l) : d = shopRunDie := by
  obtain ⟨h1, h2, -⟩ := h
  exact (by decide : ∀ d ∈ candidates partFile, d.tag = .subprogram → d = shopRunDie) d h1 h2

theorem part_compiled : Compiled shopLibs partImage partFile where
  units := rfl
  file := partFile_ok
  offsets := partFile_offsets
  apart := partFile_apart
  functions := by
    refine ⟨by decide, ?_, ?_, ?_⟩
    · intro u hu
      simp only [partFile, List.mem_cons, List.not_mem_nil, or_false] at hu
      subst hu
      exact ⟨true, rfl⟩
    · intro d hd ht
      cases (by decide : ∀ d ∈ candidates partFile, d.tag = .subprogram → d = shopRunDie) d hd ht
      exact .inr ⟨_, rfl⟩
    · intro d hd s hs lo hi hr
      obtain ⟨l, hf, e, he, n, -, -, rfl⟩ := linked_iff _ _ _ _ _ hd hs
      cases part_function hf
      cases hr
      cases List.mem_singleton.1 he
      exact ⟨by simp, by simp [u64Max1]⟩
  tokenizes := plainLib_tokenizes false
  sorts := Address.built_new

theorem part_stopped : StoppedIn shopLibs partImage partFile partRun 4096 24 where
  found := ⟨_, _, 4088, 16, 48, ⟨by decide, rfl, rfl⟩, ⟨shop_symbol.1, shop_symbol.2, shop_symbol.3⟩, rfl, by omega, rfl, by omega, fun _ _ h _ => part_function h⟩
  alone := fun _ _ _ _ _ h _ _ _ _ _ _ => part_function h

/-- The types of the file. -/
theorem part_named (d : Die) (path : List Str) (hd : InModule partFile d path) (n shown : Str) (l : Layout) (hn : d.attr .name = some (.str n))
    (hs : Names shopLibs.lib.render (qualify path n) shown l) : typedef shopLibs.lib partImage d.off = some l := by
  have h := C96_types part_compiled d.off
  exact Res.ok.inj (h.symm.trans (C95_named (TypeNames.plainLib false) (TypeNames.plainLib_lexes false) _ partFile_ok partFile_offsets d path hd n shown l hn hs))

theorem part_unnamed (t : Tree Die) (ht : t ∈ nodes partFile) (hn : ∀ n, t.die.attr .name ≠ some (.str n)) : typedef shopLibs.lib partImage t.die.off = none := by
  have h := C96_types part_compiled t.die.off
  exact Res.ok.inj (h.symm.trans (C95_unnamed (TypeNames.plainLib false) _ partFile_ok partFile_offsets t ht hn))

theorem shop_own (id : Str) (hp : PathOk [chars! "shop"] id) : Names shopLibs.lib.render (qualify [chars! "shop"] id) (chars! "shop::" ++ id) (.alias id) := by
  refine .path _ _ _ (.other [chars! "shop"] id [] [] [] hp (by simp) (by intro h; cases h) ?_ .nil)
  rintro (h | ⟨r, rs, h, hr⟩)
  · cases h
  · cases h; exact absurd hr (by decide)

theorem part_types : typedef shopLibs.lib partImage 30 = some (.alias (chars! "T")) ∧ typedef shopLibs.lib partImage 34 = some (.alias (chars! "S")) ∧
    typedef shopLibs.lib partImage 60 = some (.uint 1) ∧ (∃ i, typedef shopLibs.lib partImage 62 = some (.reference false i)) ∧
    typedef shopLibs.lib partImage 63 = none ∧ typedef shopLibs.lib partImage 65 = none ∧ (∃ i, typedef shopLibs.lib partImage 67 = some (.tuple i 0)) ∧
    ∃ i, typedef shopLibs.lib partImage 70 = some (.slice i 0 0) := by
  have hS : Names shopLibs.lib.render (chars! "shop::S") (chars! "shop::S") (.alias (chars! "S")) := shop_own (chars! "S") ⟨by simp [IsIdent]; decide, by simp [IsIdent]; decide, by decide⟩
  have hT : Names shopLibs.lib.render (chars! "shop::T") (chars! "shop::T") (.alias (chars! "T")) := shop_own (chars! "T") ⟨by simp [IsIdent]; decide, by simp [IsIdent]; decide, by decide⟩
  have hu : Names shopLibs.lib.render (chars! "u8") (chars! "u8") (.uint 1) := names_u8 _
  refine ⟨?_, ?_, ?_, ?_, ?_, ?_, ?_, ?_⟩
  · exact part_named { off := 30, tag := .structureType, attrs := [(.name, .str (chars! "T")), (.byteSize, .data 1), (.alignment, .data 1)] } [chars! "shop"]
      ⟨_, List.mem_cons_self .., rfl, by decide⟩ _ _ _ rfl hT
  · exact part_named { off := 34, tag := .structureType, attrs := [(.name, .str (chars! "S")), (.byteSize, .data 2), (.alignment, .data 1)] } [chars! "shop"]
      ⟨_, List.mem_cons_self .., rfl, by decide⟩ _ _ _ rfl hS
  · exact part_named { off := 60, tag := .baseType, attrs := [(.name, .str (chars! "u8")), (.byteSize, .data 1)] } []
      ⟨_, List.mem_cons_self .., rfl, by decide⟩ _ _ _ rfl hu
  · exact ⟨_, part_named { off := 62, tag := .pointerType, attrs := [(.name, .str (chars! "&shop::S")), (.type, .ref 34)] } []
      ⟨_, List.mem_cons_self .., rfl, by decide⟩ _ _ _ rfl (.ref _ _ _ hS (by simp) (by simp))⟩
  · exact part_unnamed (.node { off := 63, tag := .arrayType, attrs := [(.type, .ref 60)] } true false [.node { off := 64, tag := .subrangeType, attrs := [(.count, .data 2)] } false false []])
      (List.mem_of_getElem? (i := 16) rfl) (by intro n h; cases h)
  · exact part_unnamed (.node { off := 65, tag := .arrayType, attrs := [(.type, .ref 30)] } true false [.node { off := 66, tag := .subrangeType, attrs := [(.count, .data 2)] } false false []])
      (List.mem_of_getElem? (i := 18) rfl) (by intro n h; cases h)
  · exact ⟨_, part_named { off := 67, tag := .structureType, attrs := [(.name, .str (chars! "(u8, u8)")), (.byteSize, .data 2)] } []
      ⟨_, List.mem_cons_self .., rfl, by decide⟩ _ _ _ rfl (.tuple (chars! "u8") [chars! "u8"] _ _ _ _ hu (by simp) (.cons _ _ _ _ _ _ hu .nil))⟩
  · exact ⟨_, part_named { off := 70, tag := .structureType, attrs := [(.name, .str (chars! "&[u8]")), (.byteSize, .data 16)] } []
      ⟨_, List.mem_cons_self .., rfl, by decide⟩ _ _ _ rfl (.slice _ _ _ hu)⟩

theorem part_u8 : Shown.Is (typedef shopLibs.lib partImage) (fileDb partImage.units) 60 (.plain (.uint 1)) :=
  ⟨⟨part_types.2.2.1, by simp [Shown.Plain]⟩, by simp [Shown.Desc.parts]⟩

theorem part_known : Known (typedef shopLibs.lib partImage) (fileDb partImage.units) 60 ∧ Known (typedef shopLibs.lib partImage) (fileDb partImage.units) 30 ∧
    Known (typedef shopLibs.lib partImage) (fileDb partImage.units) 34 :=
  ⟨.built (by simp [Ordinary, part_types.2.2.1]) part_u8.1 part_u8.2, .user (by simp [Ordinary, part_types.1]), .user (by simp [Ordinary, part_types.2.1])⟩

theorem part_s : Shown.Is (typedef shopLibs.lib partImage) (fileDb partImage.units) 34 (.struct (chars! "S") 2 1 [(chars! "a", 0, 60), (chars! "t", 1, 30)]) := by
  refine ⟨⟨?_, ⟨_, rfl, rfl⟩, ⟨_, rfl, rfl⟩, ⟨_, rfl, rfl⟩, ⟨_, rfl, rfl⟩, [35, 36], rfl, ?_, ?_⟩, ?_⟩
  · simp [Ordinary, part_types.2.1]
  · intro c hc
    simp only [List.mem_cons, List.not_mem_nil, or_false] at hc
    rcases hc with rfl | rfl <;> (rintro ⟨d, h1, h2⟩; cases h1; cases h2)
  · exact .cons ⟨⟨_, rfl, rfl⟩, ⟨_, rfl, rfl⟩, ⟨_, rfl, rfl⟩⟩ (.cons ⟨⟨_, rfl, rfl⟩, ⟨_, rfl, rfl⟩, ⟨_, rfl, rfl⟩⟩ .nil)
  · simp only [Shown.Desc.parts, List.map_cons, List.map_nil, List.mem_cons, List.not_mem_nil, or_false, forall_eq_or_imp, forall_eq]
    exact ⟨part_known.1, part_known.2.1⟩

theorem part_r : Shown.Is (typedef shopLibs.lib partImage) (fileDb partImage.units) 62 (.reference false 34) :=
  ⟨⟨part_types.2.2.2.1, ⟨_, rfl, rfl⟩⟩, by simpa [Shown.Desc.parts] using part_known.2.2⟩

theorem part_xs : Shown.Is (typedef shopLibs.lib partImage) (fileDb partImage.units) 63 (.array 60 2) := by
  refine ⟨⟨by simp [Ordinary, part_types.2.2.2.2.1], ⟨_, rfl, rfl⟩, ⟨_, rfl, rfl⟩, 64, ⟨[], [], rfl, ⟨_, rfl, rfl⟩, by simp⟩, ⟨_, rfl, rfl⟩⟩, by simpa [Shown.Desc.parts] using part_known.1⟩

theorem part_ts : Shown.Is (typedef shopLibs.lib partImage) (fileDb partImage.units) 65 (.array 30 2) := by
  refine ⟨⟨by simp [Ordinary, part_types.2.2.2.2.2.1], ⟨_, rfl, rfl⟩, ⟨_, rfl, rfl⟩, 66, ⟨[], [], rfl, ⟨_, rfl, rfl⟩, by simp⟩, ⟨_, rfl, rfl⟩⟩, by simpa [Shown.Desc.parts] using part_known.2.1⟩

theorem part_p : Shown.Is (typedef shopLibs.lib partImage) (fileDb partImage.units) 67 (.tuple 2 [(0, 60), (1, 60)]) := by
  obtain ⟨i, hi⟩ := part_types.2.2.2.2.2.2.1
  exact ⟨⟨⟨_, _, hi⟩, ⟨_, rfl, rfl⟩, [68, 69], rfl, .cons ⟨⟨_, rfl, rfl⟩, ⟨_, rfl, rfl⟩⟩ (.cons ⟨⟨_, rfl, rfl⟩, ⟨_, rfl, rfl⟩⟩ .nil)⟩, by simpa [Shown.Desc.parts] using part_known.1⟩

theorem part_sl : Shown.Is (typedef shopLibs.lib partImage) (fileDb partImage.units) 70 (.slice 0 8 60) := by
  obtain ⟨i, hi⟩ := part_types.2.2.2.2.2.2.2
  refine ⟨⟨⟨_, _, _, hi⟩, ⟨73, ⟨71, ⟨[], [72], rfl, ⟨_, rfl, rfl⟩, by simp⟩, ⟨_, rfl, rfl⟩, ⟨_, rfl, rfl⟩⟩, ⟨_, rfl, rfl⟩⟩, 72, ⟨[71], [], rfl, ⟨_, rfl, rfl⟩, ?_⟩, ⟨_, rfl, rfl⟩⟩,
    by simpa [Shown.Desc.parts] using part_known.1⟩
  simp only [List.mem_singleton, forall_eq]
  rintro ⟨d, h1, h2⟩
  cases h1
  cases h2

theorem part_var {d : Die} (h : VariableEntry partRun d) : d ∈ partVars := by
  obtain ⟨h1, h2⟩ := h
  have he : reach Vars.opened partRun = shopRunDie :: partVars := by decide
  rw [he] at h1
  rcases List.mem_cons.1 h1 with rfl | h1
  · rcases h2 with h2 | h2 <;> cases h2
  · exact h1

theorem part_stops : Stops shopLibs partImage partFile partUnit shopLines partRun where
  compiled := part_compiled
  unit := List.mem_cons_self ..
  fn := List.mem_of_getElem? (i := 7) rfl
  types := by
    intro d ty hd hty
    have hd := part_var hd
    simp only [partVars, List.mem_cons, List.not_mem_nil, or_false] at hd
    rcases hd with rfl | rfl | rfl | rfl | rfl | rfl <;> cases hty
    · exact part_known.2.2
    · obtain ⟨i, hi⟩ := part_types.2.2.2.1
      exact .built (by simp [Ordinary, hi]) part_r.1 part_r.2
    · exact .user part_xs.1.1
    · exact .user part_ts.1.1
    · obtain ⟨i, hi⟩ := part_types.2.2.2.2.2.2.1
      exact .built (by simp [Ordinary, hi]) part_p.1 part_p.2
    · obtain ⟨i, hi⟩ := part_types.2.2.2.2.2.2.2
      exact .built (by simp [Ordinary, hi]) part_sl.1 part_sl.2

/-- The memory of the program. -/
def partMem : Mem := pieces [(100, [7, 9]), (104, [100, 0, 0, 0, 0, 0, 0, 0]), (112, [1, 2]), (114, [3, 4]), (116, [5, 6]), (120, [112, 0, 0, 0, 0, 0, 0, 0, 2, 0, 0, 0, 0, 0, 0, 0])]

/-- What the answers to commands are, while the program is stopped at line 5. -/
theorem part_answer {v : Str} {a0 e0 : Nat} {ex : Expr} {r : Listing.Printed} (h : Answers shopLibs partImage partFile shopLines partRun partMem v a0 e0 ex r)
    (hv : ∃ d ∈ partVars, d.attr .name = some (.str v) ∧ d.attr .type = some (.ref e0) ∧ partImage.loc d = some (Vars.fbreg (a0 - 1)) ∧ 1 ≤ a0 ∧ a0 < 200 ∧
      ∀ d' ∈ partVars, d'.attr .name = some (.str v) → d' = d)
    (text : Str) (htx : Whole.Typed text ex) (other : Wire.Json → Str) :
    ∃ N b, binary shopLibs N N partImage = .ok b ∧ rd Remote.toy other b.program.backend ⟨partMem, 0⟩ text = some (r, ⟨partMem, 0⟩) := by
  obtain ⟨hlive, hL, -⟩ := Remote.toy_ok
  obtain ⟨f, hf, hpc, hreg⟩ := Whole.toy_selected ⟨partMem, 0⟩
  obtain ⟨N, hN⟩ := h
  obtain ⟨b, hb, h⟩ := hN N N (Nat.le_refl _) (Nat.le_refl _)
  obtain ⟨d, hd, h1, h2, h3, h4, h5, h6⟩ := hv
  refine ⟨N, b, hb, h _ Remote.toy Remote.Toy.mem other ⟨partMem, 0⟩ f text hL (hlive _) hf rfl htx 24 5 (by rw [hpc]; exact part_stopped) shop_line
    ⟨d, 0, a0 - 1, 1, ⟨?_, ?_⟩, h1, fun d' hd' => h6 d' (part_var hd'), h2, ⟨none, ?_⟩, rfl, hreg, h3, ?_⟩⟩
  · have he : reach Vars.opened partRun = shopRunDie :: partVars := by decide
    rw [he]; exact List.mem_cons_of_mem _ hd
  · exact (by decide : ∀ d ∈ partVars, d.tag = .formalParameter ∨ d.tag = .variable) d hd
  · refine (C94_position _ _ _ _).1 ?_
    exact (by decide : ∀ d ∈ partVars, position shopLines (fileDb partImage.units) d.off = Res.ok none) d hd
  · simp only [u64Max1]; omega

theorem part_u8_called : Called (typedef shopLibs.lib partImage) (fileDb partImage.units) shopLibs.lib.render 60 (chars! "u8") :=
  .known (t := .prim (chars! "u8")) (.plain part_u8.1 (.prim (by simp [TypeText.fixedTable]))) trivial (by simp [Ordinary, part_types.2.2.1])

theorem part_byte (a b : Nat) (hb : Mem.HoldsNat partMem a 1 b) : Holds (typedef shopLibs.lib partImage) (fileDb partImage.units) partMem shopLibs.lossy shopLibs.floatStr 0 a 60 (.leaf (natStr b)) :=
  .plain part_u8 ⟨b, hb, by rw [natStr_toString]⟩

theorem part_leaf (t : Str) (ht : t ≠ emptyText shopLibs.lossy) : ¬ (RVal.leaf t).Has (emptyText shopLibs.lossy) := by
  intro h; cases h; exact ht rfl

/-- `C98_place_printed_partial` at work: the user types `rd p s.a`. -/
example (other : Wire.Json → Str) : ∃ N b, binary shopLibs N N partImage = .ok b ∧
    rd Remote.toy other b.program.backend ⟨partMem, 0⟩ (chars! "p s.a") = some (.text (chars! "type: u8\nvalue: 7\n"), ⟨partMem, 0⟩) :=
  part_answer (C98_place_printed_partial part_stops (by omega) part_s
    (.field .var (fun _ => rfl) part_s (f := chars! "a") (List.mem_cons_self ..) (by decide) (by decide)) (part_byte 100 7 (by unfold Mem.HoldsNat; decide)) (part_leaf _ (by decide)) part_u8_called)
    ⟨partVars[0], List.mem_of_getElem? (i := 0) rfl, rfl, rfl, rfl, by omega, by omega, by decide⟩ _ ⟨chars! "p", chars! "s.a", [], rfl, .inl rfl, by with_unfolding_all rfl⟩ other

/-- The same with `rd p xs[1]`. -/
example (other : Wire.Json → Str) : ∃ N b, binary shopLibs N N partImage = .ok b ∧
    rd Remote.toy other b.program.backend ⟨partMem, 0⟩ (chars! "p xs[1]") = some (.text (chars! "type: u8\nvalue: 2\n"), ⟨partMem, 0⟩) :=
  part_answer (C98_place_printed_partial part_stops (by omega) part_xs
    (.element .var (fun _ => rfl) (.array part_xs (i := 1) (by omega) (by decide)) (by simp [Ordinary, part_types.2.2.1]) (.one part_u8 rfl)) (part_byte 113 2 (by unfold Mem.HoldsNat; decide))
      (part_leaf _ (by decide)) part_u8_called)
    ⟨partVars[2], List.mem_of_getElem? (i := 2) rfl, rfl, rfl, rfl, by omega, by omega, by decide⟩ _ ⟨chars! "p", chars! "xs[1]", [], rfl, .inl rfl, by with_unfolding_all rfl⟩ other

/-- `C98_reference_fails` at work: the user types `rd p r.a`. -/
example (other : Wire.Json → Str) : ∃ N b, binary shopLibs N N partImage = .ok b ∧
    rd Remote.toy other b.program.backend ⟨partMem, 0⟩ (chars! "p r.a") = some (.error, ⟨partMem, 0⟩) :=
  part_answer (C98_reference_fails (a0 := 104) part_stops part_r (.inl ⟨_, _, rfl⟩) (chars! "a") 0).1
    ⟨partVars[1], List.mem_of_getElem? (i := 1) rfl, rfl, rfl, rfl, by omega, by omega, by decide⟩ _ ⟨chars! "p", chars! "r.a", [], rfl, .inl rfl, by with_unfolding_all rfl⟩ other

/-- `C98_deref_fails` at work: the user types `rd p *r`. -/
example (other : Wire.Json → Str) : ∃ N b, binary shopLibs N N partImage = .ok b ∧
    rd Remote.toy other b.program.backend ⟨partMem, 0⟩ (chars! "p *r") = some (.error, ⟨partMem, 0⟩) :=
  part_answer (C98_deref_fails (a0 := 104) part_stops part_r _)
    ⟨partVars[1], List.mem_of_getElem? (i := 1) rfl, rfl, rfl, rfl, by omega, by omega, by decide⟩ _ ⟨chars! "p", chars! "*r", [], rfl, .inl rfl, by with_unfolding_all rfl⟩ other

/-- `C98_part_of_field_fails` at work: the user types `rd p s.t.b`. -/
example (other : Wire.Json → Str) : ∃ N b, binary shopLibs N N partImage = .ok b ∧
    rd Remote.toy other b.program.backend ⟨partMem, 0⟩ (chars! "p s.t.b") = some (.error, ⟨partMem, 0⟩) :=
  part_answer (C98_part_of_field_fails (a0 := 100) part_stops part_s (f := chars! "t") (List.mem_cons_of_mem _ (List.mem_cons_self ..)) (by decide) (by decide) (by simp [Ordinary, part_types.1]) (chars! "b") 0).1
    ⟨partVars[0], List.mem_of_getElem? (i := 0) rfl, rfl, rfl, rfl, by omega, by omega, by decide⟩ _ ⟨chars! "p", chars! "s.t.b", [], rfl, .inl rfl, by with_unfolding_all rfl⟩ other

/-- `C98_own_element_fails` at work: the user types `rd p ts[1]`. -/
example (other : Wire.Json → Str) : ∃ N b, binary shopLibs N N partImage = .ok b ∧
    rd Remote.toy other b.program.backend ⟨partMem, 0⟩ (chars! "p ts[1]") = some (.error, ⟨partMem, 0⟩) :=
  part_answer (C98_own_element_fails (sz := 1) (a0 := 114) part_stops (.array part_ts (i := 1) (by omega) (by decide)) (by simp [Ordinary, part_types.1]))
    ⟨partVars[3], List.mem_of_getElem? (i := 3) rfl, rfl, rfl, rfl, by omega, by omega, by decide⟩ _ ⟨chars! "p", chars! "ts[1]", [], rfl, .inl rfl, by with_unfolding_all rfl⟩ other

/-- `C98_slice_element_fails` at work: the user types `rd p sl[1]`. -/
example (other : Wire.Json → Str) : ∃ N b, binary shopLibs N N partImage = .ok b ∧
    rd Remote.toy other b.program.backend ⟨partMem, 0⟩ (chars! "p sl[1]") = some (.error, ⟨partMem, 0⟩) := by
  have hold : Holds (typedef shopLibs.lib partImage) (fileDb partImage.units) partMem shopLibs.lossy shopLibs.floatStr 1 120 70 (.seq [.leaf (natStr 1), .leaf (natStr 2)]) := by
    refine .slice (p := 112) part_sl (.one part_u8 rfl) (by unfold Mem.HoldsNat; decide) (by unfold Mem.HoldsNat; decide) ?_ (by decide) (by decide) (by decide) (by decide)
    intro i v hv
    match i, hv with
    | 0, hv => cases hv; exact part_byte 112 1 (by unfold Mem.HoldsNat; decide)
    | 1, hv => cases hv; exact part_byte 113 2 (by unfold Mem.HoldsNat; decide)
  exact part_answer (C98_slice_element_fails part_stops part_sl hold 1)
    ⟨partVars[5], List.mem_of_getElem? (i := 5) rfl, rfl, rfl, rfl, by omega, by omega, by decide⟩ _ ⟨chars! "p", chars! "sl[1]", [], rfl, .inl rfl, by with_unfolding_all rfl⟩ other

/-- `C98_tuple_fails` at work: the user types `rd p p`. -/
example (other : Wire.Json → Str) : ∃ N b, binary shopLibs N N partImage = .ok b ∧
    rd Remote.toy other b.program.backend ⟨partMem, 0⟩ (chars! "p p") = some (.failed [], ⟨partMem, 0⟩) :=
  part_answer (C98_tuple_fails (a0 := 116) part_stops part_p (.inl ⟨_, _, rfl⟩))
    ⟨partVars[4], List.mem_of_getElem? (i := 4) rfl, rfl, rfl, rfl, by omega, by omega, by decide⟩ _ ⟨chars! "p", chars! "p", [], rfl, .inl rfl, by with_unfolding_all rfl⟩ other

end Rudy.Image
