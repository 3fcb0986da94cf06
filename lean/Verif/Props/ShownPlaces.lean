import Verif.Props.Shown
import Verif.Props.Variables
import Verif.Props.Index
import Verif.Proof.Aliases
/-
More of C76: what is printed for the variables of the function the program is stopped in, and for elements.
-/
set_option linter.unusedSimpArgs false
namespace Rudy.Shown
open Rudy Rudy.Dwarf Rudy.Parse Rudy.Layout Rudy.Data Rudy.TypeRes Rudy.Eval Rudy.Expr

/-- The evaluator gets its variables from the debug information `V`: address and type of what `get_variable_at_pc` finds. -/
def VariablesFrom {σ : Type} (W : World σ) (V : Vars.World) : Prop :=
  ∀ p pc x, W.variableAt p pc x =
    (Vars.getVariableAtPc V pc x).bind fun o => .ok (o.map fun i => i.address.map fun a => (a, i.ty))

section
variable {typedef : Nat → Option Layout} {db : Db} {m : Mem} {lossy : List UInt8 → Str} {floatStr : Nat → Nat → Str}

theorem holds_is {n a e : Nat} {v : RVal} (h : Holds typedef db m lossy floatStr n a e v) : ∃ desc, Is typedef db e desc := by
  cases h <;> exact ⟨_, by assumption⟩

/-- The type of a value memory holds can be resolved. -/
theorem holds_resolves (hw : WellFormed db) (hdec : Decodes db) {n a e : Nat} {v : RVal} (h : Holds typedef db m lossy floatStr n a e v) :
    ∃ M, ∀ d, M ≤ d → ∃ td, resolveType typedef db d e = .ok td := by
  obtain ⟨desc, hI⟩ := holds_is h
  obtain ⟨M, hM⟩ := types_at hw hdec hI
  exact ⟨M, fun d hd => ⟨_, (hM d hd).2.1⟩⟩

/-- C76 for a variable of the function the program is stopped in: the only one of its name, at an offset from the frame base
that is in a register. It is printed as the value memory holds at that offset from the contents of the register. -/
theorem C76_local_partial (hw : WellFormed db) (hdec : Decodes db) {n a e : Nat} {val : RVal} (hn : n ≤ 4)
    (h : Holds typedef db m lossy floatStr n a e val) :
    ∃ N, ∀ (σ : Type) (W : World σ) (V : Vars.World) (x : Str) (p : σ) (pc : Nat) (f : Vars.Fn)
      (t : Walker.Tree Die) (line base r o fp depth : Nat) (v : Vars.Var), N ≤ depth → N ≤ W.stack →
      W.target p = target typedef db m lossy floatStr depth → W.frame p = some pc → VariablesFrom W V → V.resolve = resolveType typedef db depth →
      -- the program is stopped in the function `f`
      Vars.At V pc f t line base →
      -- `v` is its only variable called `x`
      v.name = some x → (Vars.paramsOf V.parse t ++ Vars.localsOf V.parse t).filter (fun w => w.name == some x) = [v] →
      -- `v` is at the address `a` …
      f.frameBase = some (Vars.inReg r) → V.ctx.reg r = .ok fp → v.loc = some (Vars.fbreg o) → a = (fp + o) % u64Max1 →
      -- … and has the type described at `e`
      shallow typedef db depth e = .ok v.ty →
      ∃ name, (evaluate W (.var x) (St.new p)).1 = .ok (val.text, name) := by
  obtain ⟨N, hN⟩ := C76_variable_partial hw hdec hn h
  obtain ⟨M, hM⟩ := holds_resolves hw hdec h
  refine ⟨max N M + 1, fun σ W V x p pc f t line base r o fp depth v hd hs hT hf hV hVr hat hname huniq hfb hreg hloc ha hty => ?_⟩
  obtain ⟨k, rfl⟩ : ∃ k, depth = k + 1 := ⟨depth - 1, by omega⟩
  have hloc' : Vars.dataLocation V.ctx f.frameBase base v.loc = .ok (some a) := by
    rw [hfb, hloc, ha]; exact Vars.C55_frame_variable V.ctx r o fp base hreg
  have hvar := Vars.C33_unique_name_found_partial V pc f t line base hat v x hname huniq
  obtain ⟨td, htd⟩ := hM (k + 1) (by omega)
  refine ⟨_, hN σ W x p pc td (k + 1) (by omega) (by omega) hT hf (.inl htd) ?_⟩
  rw [hV, hvar]
  simp only [Vars.variableInfo, hloc', hVr, fullType_shallow hty, htd, Res.bind_ok, Option.map_some]

/-- The element `i` of the `Vec` or array of type `e` at `a`, with elements of type `t` and size `s`, is at `p`. -/
inductive Element (typedef : Nat → Option Layout) (db : Db) (m : Mem) : (a e i t s p : Nat) → Prop
  | vec {a e i t s q len lenOff dataOff capOff : Nat} : Is typedef db e (.vec lenOff dataOff capOff t) → m.HoldsNat (a + lenOff) 8 len →
      m.HoldsNat (a + dataOff) 8 q → i < len → a + lenOff < u64Max1 → a + dataOff < u64Max1 → q + i * s < u64Max1 →
      Element typedef db m a e i t s (q + i * s)
  | array {a e i t s len : Nat} : Is typedef db e (.array t len) → i < len → a + i * s < u64Max1 →
      Element typedef db m a e i t s (a + i * s)

/-- C76 for an element `x[i]` of a `Vec` or an array, if its type is not one of the user's own. -/
theorem C76_element_partial (hw : WellFormed db) (hdec : Decodes db) {n a e i t s q : Nat} {v : RVal} (hn : n ≤ 4)
    (hel : Element typedef db m a e i t s q) (ho : ¬ Ordinary typedef t) (hsz : SizeIs typedef db t s)
    (h : Holds typedef db m lossy floatStr n q t v) :
    ∃ N, ∀ (σ : Type) (W : World σ) (x : Str) (p : σ) (pc : Nat) (td : TypeDef) (depth : Nat), N ≤ depth → N ≤ W.stack →
      W.target p = target typedef db m lossy floatStr depth → W.frame p = some pc →
      resolveType typedef db depth e = .ok td →
      W.variableAt p pc x = .ok (some (some (a, td))) →
      ∃ name, (evaluate W (.index (.var x) (.num i)) (St.new p)).1 = .ok (v.text, name) := by
  obtain ⟨N, hN⟩ := C76_shown_partial hw hdec hn h
  obtain ⟨K, hK⟩ := size_named hw hdec ho hsz
  have key : ∀ desc : Desc, Is typedef db e desc → t ∈ desc.parts →
      (∀ d f, shallow typedef db d t = .ok (ty typedef db d t) → (ty typedef db d t).size = .ok (some s) →
        indexSeq (target typedef db m lossy floatStr d) f a (full typedef db d e desc) i = .ok (q, ty typedef db d t)) →
      (∀ d, isMap (full typedef db d e desc) = false) →
      ∃ N, ∀ (σ : Type) (W : World σ) (x : Str) (p : σ) (pc : Nat) (td : TypeDef) (depth : Nat), N ≤ depth → N ≤ W.stack →
      W.target p = target typedef db m lossy floatStr depth → W.frame p = some pc →
      resolveType typedef db depth e = .ok td →
      W.variableAt p pc x = .ok (some (some (a, td))) →
      ∃ name, (evaluate W (.index (.var x) (.num i)) (St.new p)).1 = .ok (v.text, name) := by
    intro desc hI hmem hix hmap
    obtain ⟨M, hM⟩ := types_at hw hdec hI
    refine ⟨max N (max K M), fun σ W x p pc td depth hd hs hT hfr htd hv => ?_⟩
    obtain ⟨hp, hr, _⟩ := hM depth (by omega)
    have hft := hp t hmem
    rw [hr] at htd
    cases htd
    have hes := hK depth depth depth (by omega) (by omega) (by omega) hft
    refine ⟨(ty typedef db depth t).displayName, ?_⟩
    rw [hN σ W (.index (.var x) (.num i)) (St.new p) ⟨some pc, [], p⟩ _ depth (by omega) (by omega) hT (.inr hft)]
    have hs : toRef W (.var x) (St.new p) = (.ok (a, full typedef db depth e desc), ⟨some pc, [], p⟩) := by
      simp only [toRef, variableRef, Ev.bind, getPc, St.new, hfr, Ev.reading, hv, Ev.lift]
    rw [toRef, bind_ok hs, indexRef, hmap]
    simp only [Bool.false_eq_true, if_false, toInt, Ev.bind, Ev.lift, Ev.reading, hT, hix depth W.stack hft hes]
  cases hel with
  | vec hI hl hq hi h1 h2 h3 =>
    refine key _ hI (by simp [Desc.parts]) ?_ (fun d => rfl)
    intro d f hsh hes
    have hR := target_reads typedef db m lossy floatStr d
    simp only [indexSeq, full, TypeDef.layout, Desc.layout, vecInfo, addU_ok h1, addU_ok h2, Res.bind_ok, readLen_eq hR, readAddress_eq hR,
      (readNat_ok hR _ _ _).2 hl, (readNat_ok hR _ _ _).2 hq]
    rw [if_neg (by omega)]
    exact elementAt_ok _ _ _ _ hes h3
  | array hI hi h3 =>
    refine key _ hI (by simp [Desc.parts]) ?_ (fun d => rfl)
    intro d f hsh hes
    simp only [indexSeq, full, TypeDef.layout, Desc.layout]
    rw [if_neg (by omega)]
    exact elementAt_ok _ _ _ _ hes h3

end

/-! ### Examples -/

/-- `C76_element_partial` at work: the `Vec<u8>` at 168 in `mapMem` is `[1, 2]`; `x[1]` is printed as `2`. -/
example : ∃ N, ∀ (W : World Unit) (td : TypeDef), W.target () = target demoTypedef (dbOf demo) mapMem
      (fun _ => []) (fun _ _ => []) (N + 3) → W.frame () = some 4096 → N ≤ W.stack →
    resolveType demoTypedef (dbOf demo) (N + 3) 1 = .ok td → W.variableAt () 4096 (chars! "x") = .ok (some (some (168, td))) →
    ∃ name, (evaluate W (.index (.var (chars! "x")) (.num 1)) (St.new ())).1 = .ok (chars! "2", name) := by
  have hel : Element demoTypedef (dbOf demo) mapMem 168 1 1 30 1 (300 + 1 * 1) :=
    .vec (len := 2) is_vec (by unfold Mem.HoldsNat; decide) (by unfold Mem.HoldsNat; decide) (by decide) (by decide) (by decide) (by decide)
  obtain ⟨N, hN⟩ := C76_element_partial demo_wellFormed.1 demo_wellFormed.2.1 (Nat.zero_le 4) hel (fun h => h) (.one is_u8 rfl)
    (holds_u8 (n := 0) (v := 2) (t := chars! "2") (by unfold Mem.HoldsNat; decide) rfl)
  exact ⟨N, fun W td h1 h2 h3 h4 h5 => hN Unit W (chars! "x") () 4096 td (N + 3) (by omega) h3 h1 h2 h4 h5⟩

/-- A function with one variable, `m`, described at 40, 60 below the frame base (that is in register 6 and holds 160). -/
def oneVar : Walker.Tree Die :=
  .node { off := 1, tag := .subprogram } true false
    [.node { off := 2, tag := .variable, attrs := [(.name, .str (chars! "m"))] } false false []]

/-- The type of this variable. -/
def oneVarType : TypeDef := .mk (some 40) (.map (.hashMap 24 16 40 32 24 0) (.mk (some 30) (.uint 1)) (.mk (some 1) (.vec 16 8 0 (.mk (some 30) (.uint 1)))))

/-- The debug information of this function. -/
def oneVarInfo (depth : Nat) : Vars.World where
  lookupAddress _ := some (0, 5)
  getFunction _ := some { toks := Walker.enc oneVar, frameBase := some (Vars.inReg 6) }
  baseAddress _ := some 4096
  parse d := if d.tag = .variable then .ok { die := d, name := some (chars! "m"), line := none, loc := some (Vars.fbreg (u64Max1 - 60)), ty := oneVarType }
    else .err
  resolve := resolveType demoTypedef (dbOf demo) depth
  ctx := { reg := fun _ => .ok 160, sp := .ok 0 }

theorem oneVar_reads (depth : Nat) : ¬ Vars.Crashes (oneVarInfo depth).parse oneVar := by
  rintro ⟨d, _, _, h⟩
  simp only [oneVarInfo] at h
  split at h <;> cases h

/-- `C76_local_partial` at work: the user types `m`. -/
example : ∃ N, ∀ (W : World Unit), W.target () = target demoTypedef (dbOf demo) mapMem (fun _ => []) (fun _ _ => []) (N + 4) →
    W.frame () = some 4096 → N ≤ W.stack → VariablesFrom W (oneVarInfo (N + 4)) →
    ∃ name, (evaluate W (.var (chars! "m")) (St.new ())).1 = .ok (chars! "{\n  7: [\n    1,\n    2\n  ]\n}", name) := by
  obtain ⟨N, hN⟩ := C76_local_partial demo_wellFormed.1 demo_wellFormed.2.1 (by omega) holds_map
  refine ⟨N, fun W h1 h2 h3 h4 => ?_⟩
  refine hN Unit W (oneVarInfo (N + 4)) (chars! "m") () 4096 { toks := Walker.enc oneVar, frameBase := some (Vars.inReg 6) } oneVar 5 4096
    6 (u64Max1 - 60) 160 (N + 4) { die := { off := 2, tag := .variable, attrs := [(.name, .str (chars! "m"))] }, name := some (chars! "m"), line := none, loc := some (Vars.fbreg (u64Max1 - 60)), ty := oneVarType } (by omega) h3 h1 h2 h4 rfl ⟨0, rfl, rfl, ⟨[], by simp⟩, rfl, oneVar_reads _⟩ rfl ?_ rfl rfl rfl (by decide)
    ?_
  · with_unfolding_all rfl
  · have h : shallow demoTypedef (dbOf demo) 4 40 = .ok oneVarType := rfl
    exact shallow_mono (by omega) h

end Rudy.Shown
