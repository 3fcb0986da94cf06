import Verif.Props.Kept
import Verif.Props.Whole
/-
C105 at the prompt: what `rd print` has printed it prints again in every process that has the same memory and more.
-/
set_option linter.unusedSimpArgs false
set_option linter.unusedVariables false
namespace Rudy.Whole
open Rudy Rudy.Server Rudy.Layout Rudy.Data Rudy.Eval Rudy.Shown Rudy.Listing
open Rudy.Expr (Expr parseExpression joinWith)

variable {σ σ' : Type}

theorem sees_of {L : Remote.Lldb σ} {L' : Remote.Lldb σ'} (b : Binary) {mem : σ → Mem} {mem' : σ' → Mem} (hL : Remote.ReadsMemory L mem) (h0 : Remote.ReadsNothing L)
    (hL' : Remote.ReadsMemory L' mem') (h0' : Remote.ReadsNothing L') {s : σ} {s' : σ'} (hs : Remote.Live L s) (hs' : Remote.Live L' s') {f : Remote.Frame}
    (hf : Remote.Selected L s f) (hf' : Remote.Selected L' s' f) (hm : ∀ z x, mem s z = some x → mem' s' z = some x) :
    Sees (b.info.world L) s (b.info.world L') s' where
  frame := by
    show Remote.okOf (Remote.talk L' Remote.getPc s') = Remote.okOf (Remote.talk L Remote.getPc s)
    rw [Remote.C77_pc L hs hf, Remote.C77_pc L' hs' hf']; rfl
  variableAt := by
    have hv : b.info.variables L' s' = b.info.variables L s := by
      have : ∀ i, (Remote.talk L' (Remote.getRegister i) s').1 = (Remote.talk L (Remote.getRegister i) s).1 := fun i => by
        rw [Remote.C77_register L hs hf, Remote.C77_register L' hs' hf']
      simp only [Ask.Info.variables, this]
    funext pc x
    show (Vars.getVariableAtPc (b.info.variables L' s') pc x).bind _ = (Vars.getVariableAtPc (b.info.variables L s) pc x).bind _
    rw [hv]
  covers := by
    refine ⟨fun a n bs h => ?_, rfl, rfl, rfl⟩
    have h : Remote.okOf (Remote.talk L (Remote.readMemory a n) s) = some bs := h
    show Remote.okOf (Remote.talk L' (Remote.readMemory a n) s') = some bs
    rw [Remote.read_over' L hL h0 hs] at h
    rw [Remote.read_over' L' hL' h0' hs']
    exact slice_more hm h
  stack := Nat.le_refl _

/-- C105: the user types `rd print` and an expression without calls, and a value is printed. Then the same is printed for every process that is stopped at the same place with the same registers and has at least the same memory, with whatever debugger - whatever
else is in memory, wherever more of it has become readable. And nothing is changed in either process. -/
theorem C105_printed {L : Remote.Lldb σ} {L' : Remote.Lldb σ'} (other other' : Wire.Json → Str) (b : Binary) {mem : σ → Mem} {mem' : σ' → Mem} (hL : Remote.ReadsMemory L mem)
    (h0 : Remote.ReadsNothing L) (hL' : Remote.ReadsMemory L' mem') (h0' : Remote.ReadsNothing L') {s : σ} {s' : σ'} (hs : Remote.Live L s) (hs' : Remote.Live L' s') {f : Remote.Frame}
    (hf : Remote.Selected L s f) (hf' : Remote.Selected L' s' f) (hm : ∀ z x, mem s z = some x → mem' s' z = some x) {text : Str} {e : Expr} (ht : Typed text e) (hc : CallFree e)
    {shown : Str} {s1 : σ} (h : rd L other b.program.backend s text = some (.text shown, s1)) :
    s1 = s ∧ rd L' other' b.program.backend s' text = some (.text shown, s') := by
  have hev := fun {α : Type} => C86_evaluated L b s e
  have hq := (quiet_callFree (b.info.world L) e hc).2.2.2 (St.new s)
  cases hr : (evaluate (b.info.world L) e (St.new s)).1 with
  | ok v =>
    have hfull : evaluate (b.info.world L) e (St.new s) = (.ok (v.1, v.2), (evaluate (b.info.world L) e (St.new s)).2) := by rw [← hr]
    rw [rd_value L other b s ht hfull] at h
    cases h
    obtain ⟨h1, h2, h3⟩ := C105_shown (sees_of b hL h0 hL' h0' hs hs' hf hf' hm) hr hq.1
    have hfull' : evaluate (b.info.world L') e (St.new s') = (.ok (v.1, v.2), (evaluate (b.info.world L') e (St.new s')).2) := by rw [← h1]
    refine ⟨hq.2, ?_⟩
    rw [rd_value L' other' b s' ht hfull', h3]
  | err =>
    obtain ⟨sub, a, as, h4, h5, h6⟩ := ht
    rw [Listing.C84_value_error L other b.program s text sub a as h4 h5 _ (.inr ⟨_, h6, by rw [C86_evaluated, hr]⟩)] at h
    cases h
  | panic =>
    obtain ⟨sub, a, as, h4, h5, h6⟩ := ht
    rw [Listing.C84_crash L other b.program s text sub a as h4 _ (.inr (.inr (.inr (.inl ⟨h5, _, h6, by rw [C86_evaluated, hr]⟩))))] at h
    cases h

/-- C105: two processes that are stopped at the same place and whose memories nowhere contradict each other: if an expression without calls is shown for both, it is shown the same. -/
theorem C105_agree {L : Remote.Lldb σ} {L' : Remote.Lldb σ'} (other other' : Wire.Json → Str) (b : Binary) {mem : σ → Mem} {mem' : σ' → Mem} (hL : Remote.ReadsMemory L mem)
    (h0 : Remote.ReadsNothing L) (hL' : Remote.ReadsMemory L' mem') (h0' : Remote.ReadsNothing L') {s : σ} {s' : σ'} (hs : Remote.Live L s) (hs' : Remote.Live L' s') {f : Remote.Frame}
    (hf : Remote.Selected L s f) (hf' : Remote.Selected L' s' f) (hm : ∀ z x x', mem s z = some x → mem' s' z = some x' → x = x') {text : Str} {e : Expr} (ht : Typed text e) (hc : CallFree e)
    {shown shown' : Str} {s1 : σ} {s1' : σ'} (h : rd L other b.program.backend s text = some (.text shown, s1))
    (h' : rd L' other' b.program.backend s' text = some (.text shown', s1')) : shown = shown' := by
  -- a debugger of a process that has both memories
  let mm : Mem := fun z => (mem s z).or (mem' s' z)
  let LL : Remote.Lldb Remote.Toy := { Remote.toy with thread := fun _ => some ⟨1, none, some f⟩ }
  have hLL : Remote.ReadsMemory LL Remote.Toy.mem := fun t a n hn => Remote.toy_ok.2.1 t a n hn
  have hsel : Remote.Selected LL ⟨mm, 0⟩ f := ⟨⟨_, rfl, rfl⟩, hf.2⟩
  have h1 := (C105_printed other other b hL h0 hLL (fun _ _ => rfl) hs ⟨rfl, rfl⟩ hf (s' := ⟨mm, 0⟩) hsel (fun z x hz => by show (mem s z).or _ = _; rw [hz]; rfl) ht hc h).2
  have h2 := (C105_printed other' other b hL' h0' hLL (fun _ _ => rfl) hs' ⟨rfl, rfl⟩ hf' (s' := ⟨mm, 0⟩) hsel (fun z x hz => by
    show (mem s z).or (mem' s' z) = _
    cases hz' : mem s z with
    | none => exact hz
    | some y => rw [hm z y x hz' hz]; rfl) ht hc h').2
  rw [h1] at h2
  cases h2
  rfl

/-! ### An example -/

/-- A later process of the program of the example of C86: the same map, and more memory. -/
def laterProcess : Remote.Toy := ⟨fun z => (mapMem z).or (some 7), 12⟩

/-- `C105_printed` at work: the map of the example of C86 is printed for the later process as well, as `rd p m` prints it for the process of the example. -/
theorem later_printed (other : Wire.Json → Str) : ∃ N, rd Remote.toy other (mapBinary N).program.backend laterProcess (chars! "p m") =
    some (.text (chars! "type: HashMap<u8, Vec<u8>>\nvalue: {\n  7: [\n    1,\n    2\n  ]\n}\n"), laterProcess) := by
  obtain ⟨hlive, hL, h0, -⟩ := Remote.toy_ok
  obtain ⟨N, hN⟩ := map_printed other
  obtain ⟨f, hf, -, -⟩ := toy_selected mapProcess
  obtain ⟨f', hf', -, -⟩ := toy_selected laterProcess
  have hff : f' = f := by
    obtain ⟨⟨t, ht, h1⟩, -⟩ := hf
    obtain ⟨⟨t', ht', h1'⟩, -⟩ := hf'
    cases ht; cases ht'
    cases h1; cases h1'
    rfl
  subst hff
  refine ⟨N, (C105_printed other other (mapBinary N) hL h0 hL h0 (hlive _) (hlive _) hf hf' (fun z x hz => ?_) map_typed (by simp [CallFree]) hN).2⟩
  show (mapMem z).or _ = _
  rw [show mapMem z = some x from hz]; rfl

end Rudy.Whole
