import Verif.Props.Ask
import Verif.Props.CallShown
/-
C88 Programs that are loaded elsewhere than the file says, C89 what is typed and what a call prints.
-/
set_option linter.unusedSimpArgs false
namespace Rudy.Whole
open Rudy Rudy.Server Rudy.Dwarf Rudy.Parse Rudy.Layout Rudy.Data Rudy.TypeRes Rudy.Eval Rudy.Shown Rudy.Listing
open Rudy.Ask (Only)
open Rudy.Expr (Expr parseExpression joinWith)

/-! ### C88 -/

theorem asks_not_base {b : Binary} {cmd : Str} {args : List Str} : ¬ Asks b cmd args .getBaseAddress := by
  rintro ⟨e, -, ⟨-, h⟩ | ⟨-, x, -, h⟩⟩ <;> cases h

/-- C88 is false of the code: in no session is the client asked where the program is loaded … -/
theorem C88_base_not_asked_fails (binaries : Str → Option Binary) (ls : List Line) :
    .sent (.event .getBaseAddress) ∉ (session (fun p => (binaries p).map fun b => b.program.backend) ls).1 := by
  intro h
  obtain ⟨-, b, cmd, args, -, -, -, -, h⟩ := C87_session binaries ls _ h
  exact asks_not_base h

theorem handle_base {σ : Type} (L : Remote.Lldb σ) (g : σ → Option Nat) (s : σ) {e : Event} (he : e ≠ .getBaseAddress) :
    Remote.handle { L with mainModule := g } s e = Remote.handle L s e := by
  cases e <;> first | exact absurd rfl he | rfl

theorem talk_base {σ α : Type} (L : Remote.Lldb σ) (g : σ → Option Nat) {c : Conv α} (h : Only (fun e => e ≠ .getBaseAddress) c) (s : σ) :
    Remote.talk { L with mainModule := g } c s = Remote.talk L c s := by
  induction c generalizing s with
  | ok a => rfl
  | err => rfl
  | panic => rfl
  | ask e k ih =>
    simp only [Remote.talk]
    rw [Remote.exchange_eq, Remote.exchange_eq, handle_base L g s h.1]
    exact ih _ (h.2 _) _

/-- … so that what is printed does not depend on it: the same for two debuggers that differ in nothing else. -/
theorem C88_load_address_ignored_fails {σ : Type} (L : Remote.Lldb σ) (g : σ → Option Nat) (other : Wire.Json → Str) (b : Binary) (s : σ) (text : Str) :
    rd { L with mainModule := g } other b.program.backend s text = rd L other b.program.backend s text := by
  unfold rd
  cases hw : Front.words text with
  | nil => rfl
  | cons sub args =>
    simp only [hw, sent_back]
    rw [talk_base L g (Only.mono' (C87_command b (Front.expand sub) args) fun e h he => asks_not_base (he ▸ h)) s]

/-- C88: a program that is loaded past all the addresses in its file - those are between `lo` and `hi`, it is moved by `d` - has no variables:
`rd print x` is an error wherever it is stopped. -/
theorem C88_moved_variable_fails {σ : Type} (L : Remote.Lldb σ) (other : Wire.Json → Str) (b : Binary) {s : σ} (hs : Remote.Live L s) {f : Remote.Frame}
    (hf : Remote.Selected L s f) {lo hi d a : Nat} (hr : ∀ p, b.vars.lookupAddress p ≠ none → lo ≤ p ∧ p < hi) (ha : lo ≤ a ∧ a < hi) (hd : hi ≤ lo + d)
    (hpc : f.pc = a + d) {text x : Str} (ht : Typed text (.var x)) :
    rd L other b.program.backend s text = some (.error, s) := by
  have hn : b.vars.lookupAddress f.pc = none := by
    cases h : b.vars.lookupAddress f.pc with
    | none => rfl
    | some y =>
      have := hr f.pc (by rw [h]; exact Option.some_ne_none y)
      omega
  have hfr : (b.info.world L).frame s = some f.pc := by
    show Remote.okOf (Remote.talk L Remote.getPc s) = _
    rw [Remote.C77_pc L hs hf]; rfl
  have hvar : (b.info.world L).variableAt s f.pc x = .ok none := by
    show (Vars.getVariableAtPc (b.info.variables L s) f.pc x).bind _ = _
    have : Vars.getVariableAtPc (b.info.variables L s) f.pc x = .ok none := by
      unfold Vars.getVariableAtPc
      have : (b.info.variables L s).lookupAddress f.pc = none := hn
      rw [this]
    rw [this]; rfl
  obtain ⟨sub, c, as, h3, h4, h5⟩ := ht
  refine C84_value_error L other b.program s text sub c as h3 h4 s (.inr ⟨_, h5, ?_⟩)
  rw [C86_evaluated]
  simp only [evaluate, variableRef, Ev.bind, Eval.getPc, St.new, hfr, Ev.reading, Ev.lift, hvar, Option.map_none]

/-! ### C89 -/

theorem ofFunction_of {b : Binary} {f : Str} {found : Discovery.Found} {rest : List Discovery.Found}
    (h : Discovery.discover b.world f = .ok (found :: rest)) : b.info.functions f = .ok (ofFunction found :: rest.map ofFunction) := by
  show (Discovery.discover b.world f).bind _ = _
  rw [h]; rfl

theorem ofMethod_of {b : Binary} {p : Ptr} {ms : List Discovery.Method} (h : Discovery.methodsForPointer b.world (located p.2) = .ok ms) :
    b.info.methods p = .ok (ms.map ofMethod) := by
  show (Discovery.methodsForPointer b.world (located p.2)).bind _ = _
  rw [h]; rfl

section
variable {typedef : Nat → Option Layout} {db : Db} {lossy : List UInt8 → Str} {floatStr : Nat → Nat → Str}

/-- What is passed for an argument the user types, in a process stopped in the frame `f`: a number as it is; a variable by its address
with the size of its type (a pointer, whatever the function expects: C72). -/
inductive Given {σ : Type} (L : Remote.Lldb σ) (b : Binary) (s : σ) (f : Remote.Frame) : Expr → Arg → Prop
  | number (n : Nat) : Given L b s f (.num n) ⟨natStr n, .integer, none⟩
  | variable (x shown : Str) (at_ : Nat) (ty : TypeDef) (size : Option Nat) :
      Vars.getVariableAtPc (b.info.variables L s) f.pc x = .ok (some ⟨shown, some at_, ty⟩) → ty.size = .ok size →
      Given L b s f (.var x) ⟨hexStr at_, .pointer, size⟩

/-- What is passed for all of them. -/
inductive GivenAll {σ : Type} (L : Remote.Lldb σ) (b : Binary) (s : σ) (f : Remote.Frame) : List Expr → List Arg → Prop
  | nil : GivenAll L b s f [] []
  | cons {e : Expr} {a : Arg} {es : List Expr} {as : List Arg} : Given L b s f e a → GivenAll L b s f es as → GivenAll L b s f (e :: es) (a :: as)

theorem given_frame {σ : Type} {L : Remote.Lldb σ} {b : Binary} {s : σ} {f : Remote.Frame} (hs : Remote.Live L s) (hf : Remote.Selected L s f) :
    (b.info.world L).frame s = some f.pc := by
  show Remote.okOf (Remote.talk L Remote.getPc s) = _
  rw [Remote.C77_pc L hs hf]; rfl

theorem given_var {σ : Type} {L : Remote.Lldb σ} {b : Binary} {s : σ} {f : Remote.Frame} {x shown : Str} {at_ : Nat} {ty : TypeDef} (hs : Remote.Live L s)
    (hf : Remote.Selected L s f) (hv : Vars.getVariableAtPc (b.info.variables L s) f.pc x = .ok (some ⟨shown, some at_, ty⟩))
    {pc : Option Nat} (hpc : pc = none ∨ pc = some f.pc) (cs : List Event) :
    toRef (b.info.world L) (.var x) ⟨pc, cs, s⟩ = (.ok (at_, ty), ⟨some f.pc, cs, s⟩) := by
  have hfr := given_frame (b := b) hs hf
  have hvar : (b.info.world L).variableAt s f.pc x = .ok (some (some (at_, ty))) := by
    show (Vars.getVariableAtPc (b.info.variables L s) f.pc x).bind _ = _
    rw [hv]; rfl
  rcases hpc with rfl | rfl <;>
    simp only [toRef, variableRef, Ev.bind, Eval.getPc, hfr, Ev.reading, Ev.lift, hvar]

theorem given_passes {σ : Type} {L : Remote.Lldb σ} {b : Binary} {s : σ} {f : Remote.Frame} (hs : Remote.Live L s) (hf : Remote.Selected L s f)
    {es : List Expr} {as : List Arg} (h : GivenAll L b s f es as) (cs : List Event) : ∀ (ts : List TypeDef) (pc : Option Nat), pc = none ∨ pc = some f.pc →
      ∃ pc', PassesAll (b.info.world L) es ts ⟨pc, cs, s⟩ as ⟨pc', cs, s⟩ := by
  induction h with
  | nil => exact fun ts pc _ => ⟨pc, .nil⟩
  | cons h _ ih =>
    intro ts pc hpc
    cases h with
    | number n =>
      obtain ⟨pc', h'⟩ := ih ts.tail pc hpc
      refine ⟨pc', .cons (s1 := ⟨pc, cs, s⟩) ?_ h'⟩
      have := Passes.number (W := b.info.world L) (n := n) (t := ts.head?) (s := ⟨pc, cs, s⟩)
      rw [natStr_toString]
      exact this
    | «variable» x shown at_ ty size hv hsz =>
      obtain ⟨pc', h'⟩ := ih ts.tail (some f.pc) (.inr rfl)
      exact ⟨pc', .cons (.place (by trivial) (given_var hs hf hv hpc cs) hsz) h'⟩

/-- C89: `rd print f(…)` runs the first function found under the name `f` once, at its address, with what is passed for the arguments
(`PassesAll`, C72; evaluating them leaves the process in the state `st1.proc`) - the text of the call is what C71 says - and prints the
name of its return type and the value memory holds, afterwards, at the address the call returned. -/
theorem C89_function_any_partial (hw : WellFormed db) (hdec : Decodes db) {render : List TypeNames.Tok → Str} {m : Mem} {n a e : Nat} {v : RVal}
    {name : Str} (hn : n ≤ 4) (h : Holds typedef db m lossy floatStr n a e v) (hne : ¬ v.Has (emptyText lossy))
    (hc : Called typedef db render e name) :
    ∃ N, ∀ (σ : Type) (L : Remote.Lldb σ) (mem : σ → Mem) (other : Wire.Json → Str) (b : Binary) (s s' : σ) (st1 : St σ)
      (text f : Str) (es : List Expr) (as : List Arg) (depth k : Nat) (found : Discovery.Found) (rest : List Discovery.Found) (td : TypeDef)
      (load addr : Option Nat) (t u : Option Str), N ≤ depth → N ≤ b.stack →
      Remote.ReadsMemory L mem → Remote.Live L st1.proc → Remote.Live L s' → mem s' = m → TypesFrom b typedef db lossy floatStr depth →
      Typed text (.call f es) →
      -- the function, with as many parameters, and a result of the type described at `e`, of `k` bytes
      Discovery.discover b.world f = .ok (found :: rest) → found.address ≠ 0 → found.params.length = es.length →
      PassesAll (b.info.world L) es (ofFunction found).params (St.new s) as st1 →
      found.ret = some td → resolveType typedef db depth e = .ok td → td.size = .ok (some k) → k < 2 ^ 64 →
      -- LLDB runs it, and the address of the result is `a`
      L.evaluate st1.proc (Calls.functionExpr found.address as (some k)) = (.value true false a load addr t u, s') →
      a ≠ 0 → a < 2 ^ 64 - 1 →
      rd L other b.program.backend s text = some (.text (page [chars! "type: " ++ name, chars! "value: " ++ v.text]), s') := by
  obtain ⟨N, hN⟩ := C86_place_partial hw hdec hn h hne hc
  refine ⟨N, fun σ L mem other b s s' st1 text f es as depth k found rest td load addr t u hd hst hL hlive hlive' hm hT ht hf ha0 hlen hpass hret htd hsz hk
    hrun h0 hlt => ?_⟩
  refine hN σ L mem other b s s' text (.call f es) depth td hd hst hL hlive' hm hT ht ?_ htd
  rw [C86_referenced]
  have hx : RanFunction (b.info.world L) f es (St.new s) (some td) (.complex a k (chars! "complex"))
      ⟨st1.pc, st1.calls ++ [.executeFunction found.address as (some k)], s'⟩ := by
    refine ⟨ofFunction found, rest.map ofFunction, as, st1, some k, s', ofFunction_of hf, ha0, ?_, hret.symm,
      (convertArgs_ok ..).2 hpass, ?_, ?_, rfl⟩
    · simp [ofFunction, hlen]
    · show sizeOpt found.ret = _
      rw [hret]; exact hsz
    · have := (Remote.C77_called_at (base := 0) (args := as) L hlive (load := load) (addr := addr) (t := t) (u := u)
        (address := found.address) hlt h0 hk).2 hrun
      simp only [Ask.Info.world, ofFunction, this, Remote.okOf]
  have := (function_iff ..).2 hx
  rw [toRef, bind_ok this]
  rfl

/-- C89: … with numbers and variables as arguments. -/
theorem C89_function_partial (hw : WellFormed db) (hdec : Decodes db) {render : List TypeNames.Tok → Str} {m : Mem} {n a e : Nat} {v : RVal}
    {name : Str} (hn : n ≤ 4) (h : Holds typedef db m lossy floatStr n a e v) (hne : ¬ v.Has (emptyText lossy))
    (hc : Called typedef db render e name) :
    ∃ N, ∀ (σ : Type) (L : Remote.Lldb σ) (mem : σ → Mem) (other : Wire.Json → Str) (b : Binary) (s s' : σ) (fr : Remote.Frame)
      (text f : Str) (es : List Expr) (as : List Arg) (depth k : Nat) (found : Discovery.Found) (rest : List Discovery.Found) (td : TypeDef)
      (load addr : Option Nat) (t u : Option Str), N ≤ depth → N ≤ b.stack →
      Remote.ReadsMemory L mem → Remote.Live L s → Remote.Live L s' → Remote.Selected L s fr → mem s' = m → TypesFrom b typedef db lossy floatStr depth →
      Typed text (.call f es) → GivenAll L b s fr es as →
      -- the function, with as many parameters, and a result of the type described at `e`, of `k` bytes
      Discovery.discover b.world f = .ok (found :: rest) → found.address ≠ 0 → found.params.length = es.length →
      found.ret = some td → resolveType typedef db depth e = .ok td → td.size = .ok (some k) → k < 2 ^ 64 →
      -- LLDB runs it, and the address of the result is `a`
      L.evaluate s (Calls.functionExpr found.address as (some k)) = (.value true false a load addr t u, s') →
      a ≠ 0 → a < 2 ^ 64 - 1 →
      rd L other b.program.backend s text = some (.text (page [chars! "type: " ++ name, chars! "value: " ++ v.text]), s') := by
  obtain ⟨N, hN⟩ := C89_function_any_partial hw hdec hn h hne hc
  refine ⟨N, fun σ L mem other b s s' fr text f es as depth k found rest td load addr t u hd hst hL hlive hlive' hfr hm hT ht hg hf ha0 hlen hret htd hsz hk
    hrun h0 hlt => ?_⟩
  obtain ⟨pc, hp⟩ := given_passes hlive hfr hg [] (ofFunction found).params none (.inl rfl)
  exact hN σ L mem other b s s' ⟨pc, [], s⟩ text f es as depth k found rest td load addr t u hd hst hL hlive hlive' hm hT ht hf ha0 hlen hp hret htd hsz hk hrun
    h0 hlt

/-- C89, methods of any place, with anything as arguments: `as` is what is passed for them. -/
theorem C89_method_any_partial (hw : WellFormed db) (hdec : Decodes db) {render : List TypeNames.Tok → Str} {m : Mem} {n a e : Nat} {v : RVal}
    {name : Str} (hn : n ≤ 4) (h : Holds typedef db m lossy floatStr n a e v) (hne : ¬ v.Has (emptyText lossy))
    (hc : Called typedef db render e name) :
    ∃ N, ∀ (σ : Type) (L : Remote.Lldb σ) (mem : σ → Mem) (other : Wire.Json → Str) (b : Binary) (s s' : σ) (st0 st1 : St σ)
      (text method : Str) (base : Expr) (es : List Expr) (as : List Arg) (depth obj : Nat) (ty : TypeDef) (k : Nat) (before after : List Discovery.Method) (found : Discovery.Method) (td : TypeDef)
      (load addr : Option Nat) (t u : Option Str), N ≤ depth → N ≤ b.stack →
      Remote.ReadsMemory L mem → Remote.Live L st1.proc → Remote.Live L s' → mem s' = m → TypesFrom b typedef db lossy floatStr depth →
      Typed text (.method base method es) →
      -- the object, and the method found first, not one rudy answers itself, with a result of the type described at `e`, of `k` bytes
      toRef (b.info.world L) base (St.new s) = (.ok (obj, ty), st0) →
      method ∉ syntheticMethods ty.layout →
      Discovery.methodsForPointer b.world (located ty) = .ok (before ++ found :: after) → (∀ d ∈ before, d.name ≠ method) →
      found.name = method → found.address ≠ 0 →
      PassesAll (b.info.world L) es (ofMethod found).params st0 as st1 →
      found.ret = some td → resolveType typedef db depth e = .ok td → td.size = .ok (some k) → k < 2 ^ 64 →
      -- LLDB runs it, and the address of the result is `a`
      L.evaluate st1.proc (Calls.methodExpr found.address obj as (some k)) = (.value true false a load addr t u, s') →
      a ≠ 0 → a < 2 ^ 64 - 1 →
      rd L other b.program.backend s text = some (.text (page [chars! "type: " ++ name, chars! "value: " ++ v.text]), s') := by
  obtain ⟨N, hN⟩ := C86_place_partial hw hdec hn h hne hc
  refine ⟨N, fun σ L mem other b s s' st0 st1 text method base es as depth obj ty k before after found td load addr t u hd hst hL hlive hlive' hm hT ht hobj
    hsyn hms hbefore hname ha0 hp hret htd hsz hk hrun h0 hlt => ?_⟩
  refine hN σ L mem other b s s' text (.method base method es) depth td hd hst hL hlive' hm hT ht ?_ htd
  rw [C86_referenced]
  have hfind : ((before ++ found :: after).map ofMethod).find? (fun c => c.name == method) = some (ofMethod found) := by
    rw [List.find?_eq_some_iff_append]
    refine ⟨by simp [ofMethod, hname], before.map ofMethod, after.map ofMethod, by simp, ?_⟩
    intro c hc
    obtain ⟨d, hd, rfl⟩ := List.mem_map.1 hc
    simpa [ofMethod] using hbefore d hd
  have hx : RanMethod (b.info.world L) base method es (St.new s) (some td) (.complex a k (chars! "complex"))
      ⟨st1.pc, st1.calls ++ [.executeMethod found.address obj as (some k)], s'⟩ := by
    refine ⟨(obj, ty), st0, _, ofMethod found, as, st1, some k, s', hobj, hsyn,
      ofMethod_of hms, hfind, ha0, hret.symm, (convertArgs_ok ..).2 hp, ?_, ?_, rfl⟩
    · show sizeOpt found.ret = _
      rw [hret]; exact hsz
    · have := (Remote.C77_called_at (base := obj) (args := as) L hlive (load := load) (addr := addr) (t := t) (u := u)
        (address := found.address) hlt h0 hk).1 hrun
      simp only [Ask.Info.world, ofMethod, this, Remote.okOf]
  obtain ⟨obj', st0, h0', hm', h1⟩ := (method_iff ..).2 hx
  have hcn : (syntheticMethods obj'.2.layout).contains method ≠ true := by simpa using hm'
  rw [toRef, bind_ok h0', methodRef, if_neg hcn, bind_ok h1]
  rfl

/-- C89: `rd print x.m(…)`, with numbers and variables as arguments, for a variable `x` at `at` - `hv` says that the debug information, with the registers of the selected frame,
has it there - runs the first method of its type with the name `m` once, on `x` itself, and prints what it returned. -/
theorem C89_method_partial (hw : WellFormed db) (hdec : Decodes db) {render : List TypeNames.Tok → Str} {m : Mem} {n a e : Nat} {v : RVal}
    {name : Str} (hn : n ≤ 4) (h : Holds typedef db m lossy floatStr n a e v) (hne : ¬ v.Has (emptyText lossy))
    (hc : Called typedef db render e name) :
    ∃ N, ∀ (σ : Type) (L : Remote.Lldb σ) (mem : σ → Mem) (other : Wire.Json → Str) (b : Binary) (s s' : σ) (f : Remote.Frame)
      (text x shown method : Str) (es : List Expr) (as : List Arg) (depth obj : Nat) (ty : TypeDef) (k : Nat) (before after : List Discovery.Method) (found : Discovery.Method) (td : TypeDef)
      (load addr : Option Nat) (t u : Option Str), N ≤ depth → N ≤ b.stack →
      Remote.ReadsMemory L mem → Remote.Live L s → Remote.Live L s' → Remote.Selected L s f → mem s' = m → TypesFrom b typedef db lossy floatStr depth →
      Typed text (.method (.var x) method es) → GivenAll L b s f es as →
      -- the variable, and the method found first, not one rudy answers itself, with a result of the type described at `e`, of `k` bytes
      Vars.getVariableAtPc (b.info.variables L s) f.pc x = .ok (some ⟨shown, some obj, ty⟩) →
      method ∉ syntheticMethods ty.layout →
      Discovery.methodsForPointer b.world (located ty) = .ok (before ++ found :: after) → (∀ d ∈ before, d.name ≠ method) →
      found.name = method → found.address ≠ 0 →
      found.ret = some td → resolveType typedef db depth e = .ok td → td.size = .ok (some k) → k < 2 ^ 64 →
      -- LLDB runs it, and the address of the result is `a`
      L.evaluate s (Calls.methodExpr found.address obj as (some k)) = (.value true false a load addr t u, s') →
      a ≠ 0 → a < 2 ^ 64 - 1 →
      rd L other b.program.backend s text = some (.text (page [chars! "type: " ++ name, chars! "value: " ++ v.text]), s') := by
  obtain ⟨N, hN⟩ := C89_method_any_partial hw hdec hn h hne hc
  refine ⟨N, fun σ L mem other b s s' f text x shown method es as depth obj ty k before after found td load addr t u hd hst hL hlive hlive' hf hm hT ht hg hv
    hsyn hms hbefore hname ha0 hret htd hsz hk hrun h0 hlt => ?_⟩
  have hobj : toRef (b.info.world L) (.var x) (St.new s) = (.ok (obj, ty), ⟨some f.pc, [], s⟩) := given_var hlive hf hv (.inl rfl) []
  obtain ⟨pc, hp⟩ := given_passes hlive hf hg [] (ofMethod found).params (some f.pc) (.inr rfl)
  exact hN σ L mem other b s s' _ ⟨pc, [], s⟩ text method (.var x) es as depth obj ty k before after found td load addr t u hd hst hL hlive hlive' hm hT ht hobj hsyn hms hbefore hname ha0 hp hret htd
    hsz hk hrun h0 hlt

end
/-! ### Examples -/

/-- The debugger of C77 has the program stopped at 4096; in this file all code is below 100, so it was moved by 4096 - 16, say. -/
def movedBinary : Binary := { mapBinary 9 with vars := { (mapBinary 9).vars with lookupAddress := fun a => if a < 100 then some (0, 5) else none } }

example (other : Wire.Json → Str) : rd Remote.toy other movedBinary.program.backend mapProcess (chars! "p m") = some (.error, mapProcess) := by
  obtain ⟨f, hf, hpc, -⟩ := toy_selected mapProcess
  refine C88_moved_variable_fails Remote.toy other movedBinary (Remote.toy_ok.1 _) hf (lo := 0) (hi := 100) (d := 4080) (a := 16) ?_ (by decide) (by decide)
    (by rw [hpc]) map_typed
  intro p hp
  simp only [movedBinary] at hp
  split at hp
  · exact ⟨Nat.zero_le _, by assumption⟩
  · exact absurd rfl hp

/-- The example of C86 with a function `get`, at 16, that returns a map. -/
def getBinary (N : Nat) : Binary :=
  { mapBinary N with
    world :=
      { Discovery.bare [.binary [Discovery.entryOf (chars! "r") ⟨chars! "get", [], [], chars! "get"⟩ 16] 0] with
        fnEntry := fun _ _ => some 1
        file := fun _ =>
          { entry := fun e => if e = 1 then some { off := 1, tag := .subprogram, attrs := [(.name, .str (chars! "get")), (.type, .ref 40)] } else none
            children := fun _ => .ok [] }
        resolve := fun _ => resolveType demoTypedef (dbOf TypeRes.demo) (N + 3) } }

/-- Its only function, as rudy finds it. -/
def getFound : Discovery.Found where
  name := chars! "get"
  fullName := chars! "get"
  signature := Discovery.signature ⟨chars! "get", [], [], chars! "get"⟩ [] (some Shown.mapType)
  address := 16
  callable := true
  modulePath := []
  ret := some Shown.mapType
  params := []

theorem get_found (N : Nat) : Discovery.discover (getBinary N).world (chars! "get") = .ok [getFound] := by
  have h : (getBinary N).world.resolve 0 40 = .ok Shown.mapType := map_type N
  have h1 : Discovery.discover (getBinary N).world (chars! "get") =
      (Discovery.describe (getBinary N).world ⟨⟨chars! "get", [], [], chars! "get"⟩, 16, 0⟩).bind fun r => .ok [r] := by with_unfolding_all rfl
  have h2 : Discovery.createFunction (getBinary N).world ⟨⟨chars! "get", [], [], chars! "get"⟩, 16, 0⟩ 0 1 = .ok getFound := by
    have h3 : Discovery.functionInfo ((getBinary N).world.file 0) 1 = .ok ⟨chars! "get", none, 1, [], some 40⟩ := by with_unfolding_all rfl
    rw [Discovery.createFunction, h3]
    simp only [Res.bind_ok, Discovery.resolveParams, h]
    rfl
  have h4 : Discovery.getFunction (getBinary N).world ⟨chars! "get", [], [], chars! "get"⟩ = some (0, 1) := by with_unfolding_all rfl
  rw [h1, Discovery.describe, h4]
  simp only [h2, Res.bind_ok]

/-- `C89_function_partial` at work, with a debugger in which calls return 100, where the process has a map. -/
example (other : Wire.Json → Str) : ∃ N, rd Remote.caller other (getBinary N).program.backend mapProcess (chars! "p get()") =
    some (.text (chars! "type: HashMap<u8, Vec<u8>>\nvalue: {\n  7: [\n    1,\n    2\n  ]\n}\n"), mapProcess) := by
  obtain ⟨hlive, hL, -⟩ := Remote.toy_ok
  obtain ⟨f, hf, -, -⟩ := toy_selected mapProcess
  obtain ⟨N, hN⟩ := C89_function_partial demo_wellFormed.1 demo_wellFormed.2.1 (by omega) holds_map map_no_empty map_called
  have hm : Remote.Toy.mem mapProcess = mapMem := by simp only [mapProcess]
  have := hN Remote.Toy Remote.caller Remote.Toy.mem other (getBinary N) mapProcess mapProcess f (chars! "p get()") (chars! "get") [] [] (N + 3) 48
    getFound [] Shown.mapType none none none none
    (by omega) (by simp only [getBinary, mapBinary]; omega) hL (hlive mapProcess) (hlive mapProcess) hf hm ⟨by simp only [getBinary], rfl, by simp only [getBinary, mapBinary], by simp only [getBinary, mapBinary]⟩
    ⟨chars! "p", chars! "get()", [], rfl, .inl rfl, by with_unfolding_all rfl⟩ .nil (get_found N) (by decide) rfl rfl (map_type N) rfl (by decide) rfl (by decide) (by decide)
  exact ⟨N, by rw [this, map_page]⟩

/-- The same with a method `get` of the type of maps, at 4096: `fn get(self) -> HashMap<u8, Vec<u8>>`. -/
def methodWorld (r : Nat → Res TypeDef) : Discovery.World :=
  { Discovery.shop .structureType Discovery.sLayout [] with
    file := fun _ => Discovery.table [({ off := 40, tag := .structureType }, [41]),
      ({ off := 41, tag := .subprogram, attrs := [(.name, .str (chars! "get")), (.linkageName, .str (chars! "get")), (.type, .ref 40)] }, [42]),
      (Discovery.paramDie 42 (chars! "self") 40, [])]
    modules := fun _ => ⟨[], .mk [] []⟩
    resolve := fun _ => r }

def methodBinary (N : Nat) : Binary :=
  { mapBinary N with world := methodWorld (resolveType demoTypedef (dbOf TypeRes.demo) (N + 3)) }

theorem method_found (r : Nat → Res TypeDef) : ∃ found, Discovery.methodsForPointer (methodWorld fun e => if e = 40 then .ok Shown.mapType else r e)
    (located Shown.mapType) = .ok [found] ∧ found.name = chars! "get" ∧ found.address = 4096 ∧ found.ret = some Shown.mapType := by
  exact ⟨_, by with_unfolding_all rfl, by with_unfolding_all rfl, by with_unfolding_all rfl, by with_unfolding_all rfl⟩

theorem method_found' (N : Nat) : ∃ found, Discovery.methodsForPointer (methodBinary N).world (located Shown.mapType) = .ok ([] ++ found :: []) ∧
    found.name = chars! "get" ∧ found.address = 4096 ∧ found.ret = some Shown.mapType := by
  have : (methodBinary N).world = methodWorld fun e => if e = 40 then .ok Shown.mapType else resolveType demoTypedef (dbOf TypeRes.demo) (N + 3) e := by
    have : resolveType demoTypedef (dbOf TypeRes.demo) (N + 3) =
        fun e => if e = 40 then .ok Shown.mapType else resolveType demoTypedef (dbOf TypeRes.demo) (N + 3) e := by
      funext e
      by_cases he : e = 40
      · rw [if_pos he, he, map_type]
      · rw [if_neg he]
    simp only [methodBinary]
    rw [← this]
  rw [this]
  exact method_found _

/-- `C89_method_partial` at work: the user types `rd p m.get(5, m)`; the number 5 and the address of `m` are passed. -/
example (other : Wire.Json → Str) : ∃ N, rd Remote.caller other (methodBinary N).program.backend mapProcess (chars! "p m.get(5, m)") =
    some (.text (chars! "type: HashMap<u8, Vec<u8>>\nvalue: {\n  7: [\n    1,\n    2\n  ]\n}\n"), mapProcess) := by
  obtain ⟨hlive, hL, -⟩ := Remote.toy_ok
  obtain ⟨f, hf, hpc, hreg⟩ := toy_selected mapProcess
  obtain ⟨N, hN⟩ := C89_method_partial demo_wellFormed.1 demo_wellFormed.2.1 (by omega) holds_map map_no_empty map_called
  have hm : Remote.Toy.mem mapProcess = mapMem := by simp only [mapProcess]
  obtain ⟨found, h1, h2, h3, h4⟩ := method_found' N
  have hv : Vars.getVariableAtPc ((methodBinary N).info.variables Remote.caller mapProcess) f.pc (chars! "m") = .ok (some ⟨chars! "m", some 100, oneVarType⟩) := by
    have hreg' : ((methodBinary N).info.variables Remote.caller mapProcess).ctx.reg 0 = .ok 1 := by
      show (Remote.talk Remote.caller (Remote.getRegister 0) mapProcess).1 = _
      have hf' : Remote.Selected Remote.caller mapProcess f := hf
      rw [Remote.C77_register Remote.caller (hlive mapProcess) hf', hreg]
    have hat : Vars.At ((methodBinary N).info.variables Remote.caller mapProcess) f.pc
        { toks := Walker.enc oneVar, frameBase := some (Vars.inReg 0) } oneVar 5 4096 := ⟨0, rfl, rfl, ⟨[], by simp⟩, rfl, by rintro ⟨d, _, _, h⟩; cases h⟩
    rw [Vars.C33_unique_name_found_partial _ f.pc _ oneVar 5 4096 hat
      { die := { off := 2, tag := .variable, attrs := [(.name, .str (chars! "m"))] }, name := some (chars! "m"), line := none,
        loc := some (Vars.fbreg 99), ty := oneVarType } (chars! "m") rfl (by with_unfolding_all rfl)]
    simp only [Vars.variableInfo, Vars.C55_frame_variable _ 0 99 1 4096 hreg', Res.bind_ok]
    rfl
  have := hN Remote.Toy Remote.caller Remote.Toy.mem other (methodBinary N) mapProcess mapProcess f (chars! "p m.get(5, m)") (chars! "m") (chars! "m") (chars! "get") [.num 5, .var (chars! "m")]
    [⟨chars! "5", .integer, none⟩, ⟨hexStr 100, .pointer, some 48⟩] (N + 3) 100 oneVarType 48 [] [] found Shown.mapType none none none none
    (by omega) (by simp only [methodBinary, mapBinary]; omega) hL (hlive mapProcess) (hlive mapProcess) hf hm
    ⟨by simp only [methodBinary, methodWorld], rfl, by simp only [methodBinary, mapBinary], by simp only [methodBinary, mapBinary]⟩
    ⟨chars! "p", chars! "m.get(5,", [chars! "m)"], rfl, .inl rfl, by with_unfolding_all rfl⟩
    (.cons (.number 5) (.cons (.variable _ _ _ _ _ hv rfl) .nil)) hv (show chars! "get" ∉ syntheticMethods Shown.mapType.layout by decide) h1 (by simp) h2 (by rw [h3]; decide) h4 (map_type N) rfl (by decide)
    rfl (by decide) (by decide)
  exact ⟨N, by rw [this, map_page]⟩

end Rudy.Whole
