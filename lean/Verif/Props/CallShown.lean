import Verif.Props.Shown
import Verif.Props.Remote
import Verif.Props.CallArgs
/-
C82: what is shown for a call is what the call returned.
-/
set_option linter.unusedSimpArgs false
namespace Rudy.Shown
open Rudy Rudy.Dwarf Rudy.Parse Rudy.Layout Rudy.Data Rudy.TypeRes Rudy.Eval Rudy.Expr Rudy.Server

/-! ### Specification -/

/-- The call `f(args)` ran: `f` is the function found first, `vals` are its arguments, as many as it has parameters, and the
process answered `r` to the request to run it at its address; `ret` is its declared return type. -/
structure RanFunction {σ : Type} (W : World σ) (f : Str) (args : List Expr) (st : St σ) (ret : Option TypeDef) (r : CallResult) (st' : St σ) : Prop where
  ran : ∃ c cs vals st1 size p, W.functions f = .ok (c :: cs) ∧ c.address ≠ 0 ∧ args.length = c.params.length ∧ ret = c.ret ∧
    convertArgs W args c.params st = (.ok vals, st1) ∧ sizeOpt c.ret = .ok size ∧
    W.execute (.executeFunction c.address vals size) st1.proc = (some r, p) ∧
    st' = ⟨st1.pc, st1.calls ++ [.executeFunction c.address vals size], p⟩

/-- The call `base.m(args)` of a method of the program ran: on the object at the place `base` stands for. -/
structure RanMethod {σ : Type} (W : World σ) (base : Expr) (m : Str) (args : List Expr) (st : St σ) (ret : Option TypeDef) (r : CallResult) (st' : St σ) : Prop where
  ran : ∃ obj st0 ms c vals st1 size p, toRef W base st = (.ok obj, st0) ∧ m ∉ syntheticMethods obj.2.layout ∧
    W.methods obj = .ok ms ∧ ms.find? (fun c => c.name == m) = some c ∧ c.address ≠ 0 ∧ ret = c.ret ∧
    convertArgs W args c.params st0 = (.ok vals, st1) ∧ sizeOpt c.ret = .ok size ∧
    W.execute (.executeMethod c.address obj.1 vals size) st1.proc = (some r, p) ∧
    st' = ⟨st1.pc, st1.calls ++ [.executeMethod c.address obj.1 vals size], p⟩

/-- The text of a call whose result has no type. -/
def untyped (a : Nat) : Str := chars! "<complex value at " ++ hexStr a ++ chars! ">"

/-! ### Calls -/

theorem execute_ok {σ : Type} {W : World σ} {e : Event} {s : St σ} {r : CallResult} {p : σ} (h : W.execute e s.proc = (some r, p)) :
    execute W e s = (.ok r, ⟨s.pc, s.calls ++ [e], p⟩) := by simp only [execute, h]

theorem execute_inv {σ : Type} {W : World σ} {e : Event} {s s' : St σ} {r : CallResult} (h : execute W e s = (.ok r, s')) :
    ∃ p, W.execute e s.proc = (some r, p) ∧ s' = ⟨s.pc, s.calls ++ [e], p⟩ := by
  simp only [execute] at h
  cases hx : W.execute e s.proc with
  | mk o p =>
    rw [hx] at h
    cases o with
    | none => cases h
    | some r' => cases h; exact ⟨p, rfl, rfl⟩

theorem lift_inv {σ α : Type} {x : Res α} {a : α} {s s' : St σ} (h : (Ev.lift x : Ev σ α) s = (.ok a, s')) : x = .ok a ∧ s' = s := by
  simp only [Ev.lift, Prod.mk.injEq] at h
  exact ⟨h.1, h.2.symm⟩

theorem function_iff {σ : Type} (W : World σ) (f : Str) (args : List Expr) (st st' : St σ) (ret : Option TypeDef) (r : CallResult) :
    executeFunction W f args.length (convertArgs W args) st = (.ok (r, ret), st') ↔ RanFunction W f args st ret r st' := by
  constructor
  · intro h
    rw [executeFunction] at h
    obtain ⟨fs, s1, k1, g1⟩ := bind_inv h
    clear h
    obtain ⟨h1, rfl⟩ := lift_inv k1
    obtain ⟨c, s2, k2, h⟩ := bind_inv g1
    clear g1 k1
    obtain ⟨h2, rfl⟩ := lift_inv k2
    clear k2
    cases fs with
    | nil => cases h2
    | cons c' cs =>
      cases h2
      split at h
      · cases h
      · rename_i ha
        split at h
        · cases h
        · rename_i hl
          obtain ⟨vals, s3, h3, g3⟩ := bind_inv h
          clear h
          obtain ⟨size, s4, k4, g4⟩ := bind_inv g3
          clear g3
          obtain ⟨h4, rfl⟩ := lift_inv k4
          clear k4
          obtain ⟨r', s5, k5, g5⟩ := bind_inv g4
          clear g4
          obtain ⟨h6, rfl⟩ := lift_inv g5
          cases h6
          obtain ⟨p, h5, rfl⟩ := execute_inv k5
          exact ⟨c, cs, vals, _, size, p, h1, ha, Classical.byContradiction hl, rfl, h3, h4, h5, rfl⟩
  · rintro ⟨c, cs, vals, st1, size, p, h1, h2, h3, rfl, h4, h5, h6, rfl⟩
    rw [executeFunction, bind_ok (s' := st) (a := c :: cs) (by rw [h1]; rfl), bind_ok (show (Ev.lift (Res.ofOption (c :: cs).head?) : Ev σ Callee) st = (.ok c, st) from rfl), if_neg h2,
      if_neg (by simpa using h3), bind_ok h4, bind_ok (s' := st1) (a := size) (by rw [h5]; rfl), bind_ok (execute_ok h6)]
    rfl

theorem method_iff {σ : Type} (W : World σ) (base : Expr) (m : Str) (args : List Expr) (st st' : St σ) (ret : Option TypeDef) (r : CallResult) :
    (∃ obj st0, toRef W base st = (.ok obj, st0) ∧ m ∉ syntheticMethods obj.2.layout ∧
      executeMethod W obj m (convertArgs W args) st0 = (.ok (r, ret), st')) ↔ RanMethod W base m args st ret r st' := by
  constructor
  · rintro ⟨obj, st0, h0, hs, h⟩
    rw [executeMethod] at h
    obtain ⟨ms, s1, k1, g1⟩ := bind_inv h
    clear h
    obtain ⟨h1, rfl⟩ := lift_inv k1
    obtain ⟨c, s2, k2, h⟩ := bind_inv g1
    clear g1 k1
    obtain ⟨h2, rfl⟩ := lift_inv k2
    clear k2
    cases hf : ms.find? (fun c => c.name == m) with
    | none => rw [hf] at h2; cases h2
    | some c' =>
      rw [hf] at h2
      cases h2
      split at h
      · cases h
      · rename_i ha
        obtain ⟨vals, s3, h3, g3⟩ := bind_inv h
        clear h
        obtain ⟨size, s4, k4, g4⟩ := bind_inv g3
        clear g3
        obtain ⟨h4, rfl⟩ := lift_inv k4
        clear k4
        obtain ⟨r', s5, k5, g5⟩ := bind_inv g4
        clear g4
        obtain ⟨h6, rfl⟩ := lift_inv g5
        cases h6
        obtain ⟨p, h5, rfl⟩ := execute_inv k5
        exact ⟨obj, _, ms, c, vals, _, size, p, h0, hs, h1, hf, ha, rfl, h3, h4, h5, rfl⟩
  · rintro ⟨obj, st0, ms, c, vals, st1, size, p, h0, hs, h1, hf, h2, rfl, h4, h5, h6, rfl⟩
    refine ⟨obj, st0, h0, hs, ?_⟩
    rw [executeMethod, bind_ok (s' := st0) (a := ms) (by rw [h1]; rfl), bind_ok (s' := st0) (a := c) (by rw [hf]; rfl), if_neg h2,
      bind_ok h4, bind_ok (s' := st1) (a := size) (by rw [h5]; rfl), bind_ok (execute_ok h6)]
    rfl

/-- C82: a call shows something only if it ran: the value that came back in a register in decimal with the type the debugger
gave it, or what is at the address that came back, as a value of the declared type. -/
theorem C82_function {σ : Type} (W : World σ) (f : Str) (args : List Expr) (st st' : St σ) (x : Shown) :
    evaluate W (.call f args) st = (.ok x, st') ↔
      ∃ ret r, RanFunction W f args st ret r st' ∧
        ((∃ v t, r = .simple v t ∧ x = (natStr v, t)) ∨
         (∃ a n t, r = .complex a n t ∧ ret = none ∧ x = (untyped a, chars! "unknown")) ∨
         (∃ a n t td, r = .complex a n t ∧ ret = some td ∧ pointerToResult W (a, td) st' = (.ok x, st'))) := by
  have keep : ∀ p s y s', pointerToResult W p s = (.ok y, s') → s' = s := fun p s y s' h => by
    simp only [pointerToResult, Ev.reading, Prod.mk.injEq] at h; exact h.2.symm
  constructor
  · intro h
    rw [evaluate] at h
    obtain ⟨⟨r, ret⟩, s1, h1, h2⟩ := bind_inv h
    cases r with
    | simple v t =>
      cases h2
      exact ⟨ret, _, (function_iff ..).1 h1, .inl ⟨v, t, rfl, rfl⟩⟩
    | complex a n t =>
      cases ret with
      | none => cases h2; exact ⟨none, _, (function_iff ..).1 h1, .inr (.inl ⟨a, n, t, rfl, rfl, rfl⟩)⟩
      | some td =>
        have h2 : pointerToResult W (a, td) s1 = (.ok x, st') := h2
        have := keep _ _ _ _ h2
        subst this
        exact ⟨some td, _, (function_iff ..).1 h1, .inr (.inr ⟨a, n, t, td, rfl, rfl, h2⟩)⟩
  · rintro ⟨ret, r, h, hx⟩
    rw [evaluate, bind_ok ((function_iff ..).2 h)]
    rcases hx with ⟨v, t, rfl, rfl⟩ | ⟨a, n, t, rfl, rfl, rfl⟩ | ⟨a, n, t, td, rfl, rfl, hp⟩
    · rfl
    · rfl
    · exact hp

/-- C82: the same for methods of the program. -/
theorem C82_method {σ : Type} (W : World σ) (base : Expr) (m : Str) (args : List Expr) (st st0 st' : St σ) (obj : Ptr) (x : Shown)
    (hobj : toRef W base st = (.ok obj, st0)) (hm : m ∉ syntheticMethods obj.2.layout) :
    evaluate W (.method base m args) st = (.ok x, st') ↔
      ∃ ret r, RanMethod W base m args st ret r st' ∧
        ((∃ v t, r = .simple v t ∧ x = (natStr v, t)) ∨
         (∃ a n t, r = .complex a n t ∧ ret = none ∧ x = (untyped a, chars! "unknown")) ∨
         (∃ a n t td, r = .complex a n t ∧ ret = some td ∧ pointerToResult W (a, td) st' = (.ok x, st'))) := by
  have keep : ∀ p s y s', pointerToResult W p s = (.ok y, s') → s' = s := fun p s y s' h => by
    simp only [pointerToResult, Ev.reading, Prod.mk.injEq] at h; exact h.2.symm
  have hc : (syntheticMethods obj.2.layout).contains m ≠ true := by simpa using hm
  constructor
  · intro h
    rw [evaluate, bind_ok hobj, methodShown, if_neg hc] at h
    obtain ⟨⟨r, ret⟩, s1, h1, h2⟩ := bind_inv h
    have hr := (method_iff W base m args st s1 ret r).1 ⟨obj, st0, hobj, hm, h1⟩
    cases r with
    | simple v t =>
      cases h2
      exact ⟨ret, _, hr, .inl ⟨v, t, rfl, rfl⟩⟩
    | complex a n t =>
      cases ret with
      | none => cases h2; exact ⟨none, _, hr, .inr (.inl ⟨a, n, t, rfl, rfl, rfl⟩)⟩
      | some td =>
        have h2 : pointerToResult W (a, td) s1 = (.ok x, st') := h2
        have := keep _ _ _ _ h2
        subst this
        exact ⟨some td, _, hr, .inr (.inr ⟨a, n, t, td, rfl, rfl, h2⟩)⟩
  · rintro ⟨ret, r, h, hx⟩
    obtain ⟨obj', st0', h0, hs, h⟩ := (method_iff ..).2 h
    rw [hobj] at h0
    cases h0
    rw [evaluate, bind_ok hobj, methodShown, if_neg hc, bind_ok h]
    rcases hx with ⟨v, t, rfl, rfl⟩ | ⟨a, n, t, rfl, rfl, rfl⟩ | ⟨a, n, t, td, rfl, rfl, hp⟩
    · rfl
    · rfl
    · exact hp

/-- C82: a method rudy answers itself is not run: its answer is shown with its type, and nothing happens in the process. -/
theorem C82_synthetic {σ : Type} (W : World σ) (base : Expr) (m : Str) (st st0 : St σ) (obj : Ptr) (t s : Str)
    (hobj : toRef W base st = (.ok obj, st0)) (hm : m ∈ syntheticMethods obj.2.layout)
    (hv : evalSynthetic (W.target st0.proc) obj.1 obj.2 m = .ok (.scalar t s)) :
    evaluate W (.method base m []) st = (.ok (s, t), st0) := by
  have hc : (syntheticMethods obj.2.layout).contains m = true := by simpa using hm
  rw [evaluate, bind_ok hobj, methodShown, if_pos hc, if_neg (by simp)]
  simp only [Ev.reading, hv, Res.bind_ok]
  rfl

section
variable {typedef : Nat → Option Layout} {db : Db} {m : Mem} {lossy : List UInt8 → Str} {floatStr : Nat → Nat → Str}

/-- C82: if the function of the program returns a value of the type of the entry `e`, and after the call memory holds `v` at
the address that came back, then `v` is shown, with the name of the type (nesting of at most four levels, as in C76). -/
theorem C82_returned_partial (hw : WellFormed db) (hdec : Decodes db) {n a e : Nat} {v : RVal} (hn : n ≤ 4)
    (h : Holds typedef db m lossy floatStr n a e v) :
    ∃ N, ∀ (σ : Type) (W : World σ) (f : Str) (args : List Expr) (st st' : St σ) (td : TypeDef) (depth k : Nat) (t : Str), N ≤ depth → N ≤ W.stack →
      W.target st'.proc = target typedef db m lossy floatStr depth → resolveType typedef db depth e = .ok td →
      RanFunction W f args st (some td) (.complex a k t) st' →
      evaluate W (.call f args) st = (.ok (v.text, td.displayName), st') := by
  obtain ⟨N, hN⟩ := C76_shown_partial hw hdec hn h
  refine ⟨N, fun σ W f args st st' td depth k t hd hs hT htd hr => ?_⟩
  refine hN σ W (.call f args) st st' td depth hd hs hT (.inl htd) ?_
  rw [toRef, bind_ok ((function_iff ..).2 hr)]
  rfl

/-- … and for methods. -/
theorem C82_method_returned_partial (hw : WellFormed db) (hdec : Decodes db) {n a e : Nat} {v : RVal} (hn : n ≤ 4)
    (h : Holds typedef db m lossy floatStr n a e v) :
    ∃ N, ∀ (σ : Type) (W : World σ) (base : Expr) (name : Str) (args : List Expr) (st st' : St σ) (td : TypeDef) (depth k : Nat) (t : Str),
      N ≤ depth → N ≤ W.stack →
      W.target st'.proc = target typedef db m lossy floatStr depth → resolveType typedef db depth e = .ok td →
      RanMethod W base name args st (some td) (.complex a k t) st' →
      evaluate W (.method base name args) st = (.ok (v.text, td.displayName), st') := by
  obtain ⟨N, hN⟩ := C76_shown_partial hw hdec hn h
  refine ⟨N, fun σ W base name args st st' td depth k t hd hs hT htd hr => ?_⟩
  refine hN σ W (.method base name args) st st' td depth hd hs hT (.inl htd) ?_
  obtain ⟨obj, st0, h0, hm, h1⟩ := (method_iff ..).2 hr
  have hc : (syntheticMethods obj.2.layout).contains name ≠ true := by simpa using hm
  rw [toRef, bind_ok h0, methodRef, if_neg hc, bind_ok h1]
  rfl

end

/-! ### A process with functions -/

/-- The type of the map of `mapWorld`. -/
def mapType : TypeDef := .mk (some 40) (.map (.hashMap 24 16 40 32 24 0) (.mk (some 30) (.uint 1)) (.mk (some 1) (.vec 16 8 0 (.mk (some 30) (.uint 1)))))

/-- `mapWorld` with a function `get` and a method `get` of every object that return this map. -/
def getWorld (N : Nat) : World Unit :=
  { mapWorld N with
    functions := fun f => if f = chars! "get" then .ok [⟨chars! "get", 512, [], some mapType⟩] else .ok []
    methods := fun _ => .ok [⟨chars! "other", 256, [], none⟩, ⟨chars! "get", 512, [], some mapType⟩]
    execute := fun _ s => (some (.complex 100 48 (chars! "complex")), s) }

/-- `C82_returned_partial` at work: the user types `get()`. -/
example : ∃ N, evaluate (getWorld N) (.call (chars! "get") []) (St.new ()) =
    (.ok (chars! "{\n  7: [\n    1,\n    2\n  ]\n}", chars! "HashMap<u8, Vec<u8>>"), ⟨none, [.executeFunction 512 [] (some 48)], ()⟩) := by
  obtain ⟨N, hN⟩ := C82_returned_partial demo_wellFormed.1 demo_wellFormed.2.1 (by omega) holds_map
  refine ⟨N, hN Unit (getWorld N) (chars! "get") [] _ _ mapType (N + 3) 48 (chars! "complex") (by omega) (Nat.le_refl _) rfl
    (((resolveType_le demoTypedef (dbOf demo) 3 (N + 3) (by omega) 40).eq
      (by rw [demo_resolves.2.1]; simp)).trans demo_resolves.2.1) ?_⟩
  exact ⟨_, _, [], St.new (), some 48, (), rfl, by decide, rfl, rfl, by rw [convertArgs]; rfl, rfl, rfl, rfl⟩

/-- … and `m.get()`. -/
example : ∃ N, evaluate (getWorld N) (.method (.var (chars! "m")) (chars! "get") []) (St.new ()) =
    (.ok (chars! "{\n  7: [\n    1,\n    2\n  ]\n}", chars! "HashMap<u8, Vec<u8>>"), ⟨some 4096, [.executeMethod 512 100 [] (some 48)], ()⟩) := by
  obtain ⟨N, hN⟩ := C82_method_returned_partial demo_wellFormed.1 demo_wellFormed.2.1 (by omega) holds_map
  refine ⟨N, hN Unit (getWorld N) (.var (chars! "m")) (chars! "get") [] _ _ mapType (N + 3) 48 (chars! "complex") (by omega) (Nat.le_refl _) rfl
    (((resolveType_le demoTypedef (dbOf demo) 3 (N + 3) (by omega) 40).eq
      (by rw [demo_resolves.2.1]; simp)).trans demo_resolves.2.1) ?_⟩
  exact ⟨(100, mapType), ⟨some 4096, [], ()⟩, _, _, [], _, some 48, (), by rw [toRef]; rfl, by simp [syntheticMethods, mapType, TypeDef.layout], rfl, rfl, by decide, rfl,
    by rw [convertArgs]; rfl, rfl, rfl, rfl⟩

/-- `mapWorld` with an array of three bytes as its variable `xs`. -/
def arrayWorld (N : Nat) : World Unit :=
  { mapWorld N with variableAt := fun _ _ x => .ok (if x = chars! "xs" then some (some (100, .mk none (.array (.mk none (.uint 1)) 3))) else none) }

/-- `xs.len()` is answered by rudy. -/
example (N : Nat) : evaluate (arrayWorld N) (.method (.var (chars! "xs")) (chars! "len") []) (St.new ()) = (.ok (chars! "3", chars! "usize"), ⟨some 4096, [], ()⟩) :=
  C82_synthetic (arrayWorld N) _ _ _ ⟨some 4096, [], ()⟩ (100, .mk none (.array (.mk none (.uint 1)) 3)) _ _ (by rw [toRef]; rfl) (by decide) rfl

end Rudy.Shown

namespace Rudy.Remote
open Rudy Rudy.Server Rudy.Eval Rudy.Shown Rudy.Calls Rudy.Data

variable {σ : Type}

/-- C82 through the debugger: a function of a sized type is run by one evaluation of the text of the call, and what is at the
address the debugger reports is what is shown. -/
theorem C82_debugger (L : Lldb σ) (W : World σ) {s s' : σ} (hs : Live L s) {f : Str} {c : Callee} {cs : List Callee} {td : Layout.TypeDef}
    {n a : Nat} {load addr : Option Nat} {t u : Option Str}
    (hf : W.functions f = .ok (c :: cs)) (hc : c.address ≠ 0) (hp : c.params = []) (hr : c.ret = some td) (hsz : td.size = .ok (some n)) (hn : n < 2 ^ 64)
    (ha : a ≠ 0) (ha' : a < 2 ^ 64 - 1)
    (hrun : L.evaluate s (functionExpr c.address [] (some n)) = (.value true false a load addr t u, s')) :
    evaluate (over L W) (.call f []) (St.new s) =
      pointerToResult (over L W) (a, td) ⟨none, [.executeFunction c.address [] (some n)], s'⟩ := by
  have h : RanFunction (over L W) f [] (St.new s) (some td) (.complex a n (chars! "complex"))
      ⟨none, [.executeFunction c.address [] (some n)], s'⟩ := by
    refine ⟨c, cs, [], St.new s, some n, s', hf, hc, by rw [hp]; rfl, hr.symm, by rw [convertArgs]; rfl, by rw [hr]; exact hsz, ?_, rfl⟩
    have := (C77_called_at (base := 0) (args := []) L hs (load := load) (addr := addr) (t := t) (u := u) (address := c.address) ha' ha hn).2 hrun
    simp only [over, St.new, this, okOf]
  rw [evaluate, bind_ok ((function_iff ..).2 h)]
  rfl

/-- C82 is false of functions that return nothing: whatever is left in the register is shown as their value, of type
`usize`. -/
theorem C82_unit_fails (L : Lldb σ) (W : World σ) {s s' : σ} (hs : Live L s) {f : Str} {c : Callee} {cs : List Callee}
    {v : Nat} {load addr : Option Nat} {t u : Option Str}
    (hf : W.functions f = .ok (c :: cs)) (hc : c.address ≠ 0) (hp : c.params = []) (hr : c.ret = none) (hv : v < 2 ^ 64)
    (hrun : L.evaluate s (functionExpr c.address [] none) = (.value true false v load addr t u, s')) :
    evaluate (over L W) (.call f []) (St.new s) = (.ok (Layout.natStr v, chars! "usize"), ⟨none, [.executeFunction c.address [] none], s'⟩) := by
  have h : RanFunction (over L W) f [] (St.new s) none (.simple v (chars! "usize"))
      ⟨none, [.executeFunction c.address [] none], s'⟩ := by
    refine ⟨c, cs, [], St.new s, none, s', hf, hc, by rw [hp]; rfl, hr.symm, by rw [convertArgs]; rfl, by rw [hr]; rfl, ?_, rfl⟩
    have := (C77_called (base := 0) (args := []) L hs (load := load) (addr := addr) (t := t) (u := u) (address := c.address) hv).2 hrun
    simp only [over, St.new, this, okOf]
  exact (C82_function ..).2 ⟨none, _, h, .inl ⟨v, _, rfl, rfl⟩⟩

/-- A debugger in which every call leaves 100. -/
noncomputable def caller : Lldb Toy := { toy with evaluate := fun s _ => (.value true false 100 none none none none, s) }

/-- A program with `f`, which returns a `u8`, and `g`, which returns nothing. -/
def twoFunctions : World Toy where
  target _ := demoTarget (demoMem 16 [5])
  frame _ := some 64
  variableAt _ _ _ := .ok none
  methods _ := .ok []
  functions n := .ok [⟨n, 512, [], if n = chars! "f" then some (.mk none (.uint 1)) else none⟩]
  execute _ s := (none, s)
  remote := ⟨fun _ s => (none, s), fun _ _ s => (none, s), fun _ _ _ => none, fun _ => []⟩
  isFloat _ := false
  stack := 4

example (s : Toy) : evaluate (over caller twoFunctions) (.call (chars! "f") []) (St.new s) =
    pointerToResult (over caller twoFunctions) (100, .mk none (.uint 1)) ⟨none, [.executeFunction 512 [] (some 1)], s⟩ :=
  C82_debugger caller twoFunctions (s' := s) ⟨rfl, rfl⟩ rfl (by decide) rfl rfl rfl (by decide) (by decide) (by decide) rfl

example (s : Toy) : evaluate (over caller twoFunctions) (.call (chars! "g") []) (St.new s) =
    (.ok (chars! "100", chars! "usize"), ⟨none, [.executeFunction 512 [] none], s⟩) :=
  C82_unit_fails caller twoFunctions (s' := s) ⟨rfl, rfl⟩ rfl (by decide) rfl rfl (by decide) rfl

end Rudy.Remote
