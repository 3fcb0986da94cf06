import Verif.Model.Eval
import Mathlib.Data.List.Forall2
/-
Helpers and vocabulary for the evaluator (C34, C37, C48-C50).
-/
namespace Rudy.Eval
open Rudy Rudy.Expr Rudy.Data Rudy.Layout Rudy.Server

/-! ### Vocabulary -/

/-- An expression without calls of any kind. -/
def CallFree : Expr → Prop
  | .field b _ => CallFree b
  | .index b i => CallFree b ∧ CallFree i
  | .deref e => CallFree e
  | .addrOf _ e => CallFree e
  | .paren e => CallFree e
  | .method .. => False
  | .call .. => False
  | _ => True

/-- A call written in an expression. -/
inductive Site where
  | method (name : Str)
  | function (name : Str)

mutual
/-- The calls written in an expression, in the order in which they are to be executed: the object of a
method before its arguments, arguments from left to right, then the call. -/
def sites : Expr → List Site
  | .field b _ => sites b
  | .index b i => sites b ++ sites i
  | .deref e => sites e
  | .addrOf _ e => sites e
  | .paren e => sites e
  | .method b m as => sites b ++ (sitesAll as ++ [.method m])
  | .call f as => sitesAll as ++ [.function f]
  | _ => []
/-- The calls of a list of arguments. -/
def sitesAll : List Expr → List Site
  | [] => []
  | e :: es => sites e ++ sitesAll es
end

mutual
/-- An expression in which every argument of a call either contains no call, or is one that always has a
memory location (for instance because the calls in it return values in memory). -/
def Once {σ : Type} (W : World σ) : Expr → Prop
  | .field b _ => Once W b
  | .index b i => Once W b ∧ Once W i
  | .deref e => Once W e
  | .addrOf _ e => Once W e
  | .paren e => Once W e
  | .method b _ as => Once W b ∧ OnceArgs W as
  | .call _ as => OnceArgs W as
  | _ => True
/-- The condition on the arguments. -/
def OnceArgs {σ : Type} (W : World σ) : List Expr → Prop
  | [] => True
  | e :: es => (CallFree e ∨ (Once W e ∧ ∀ s, (toRef W e s).1 ≠ .err)) ∧ OnceArgs W es
end

/-- The expression inside all the parentheses around it. -/
def core : Expr → Expr
  | .paren e => core e
  | e => e

/-- `ev` is the execution of what the debug information has for the call `s`. -/
def Executes {σ : Type} (W : World σ) (ev : Event) (s : Site) : Prop :=
  match s, ev with
  | .function f, .executeFunction addr _ _ =>
    ∃ fs c, W.functions f = .ok fs ∧ fs.head? = some c ∧ c.address = addr
  | .method m, .executeMethod addr base _ _ =>
    ∃ p ms c, W.methods p = .ok ms ∧ c ∈ ms ∧ c.name = m ∧ c.address = addr ∧ p.1 = base
  | _, _ => False

variable {σ α β : Type}

/-- The evaluation leaves the process alone: nothing is executed, nothing changes. -/
def Quiet (x : Ev σ α) : Prop := ∀ s, (x s).2.calls = s.calls ∧ (x s).2.proc = s.proc

/-- The evaluation executes the calls `ss`, each once and in order, or stops before the end of them
without a result. -/
def Runs (W : World σ) (x : Ev σ α) (ss : List Site) : Prop :=
  ∀ s, ∃ evs, (x s).2.calls = s.calls ++ evs ∧
    (∃ pre, pre <+: ss ∧ List.Forall₂ (Executes W) evs pre) ∧
    (∀ a, (x s).1 = .ok a → List.Forall₂ (Executes W) evs ss)

/-- The program counter, once asked for, is kept. -/
def KeepsPc (x : Ev σ α) : Prop := ∀ s pc, s.pc = some pc → (x s).2.pc = some pc

/-! ### Quiet evaluations -/

theorem quiet_lift (r : Res α) : Quiet (Ev.lift r : Ev σ α) := fun _ => ⟨rfl, rfl⟩
theorem quiet_reading (f : σ → Res α) : Quiet (Ev.reading f) := fun _ => ⟨rfl, rfl⟩

theorem quiet_bind {x : Ev σ α} {f : α → Ev σ β} (hx : Quiet x) (hf : ∀ a, Quiet (f a)) : Quiet (x.bind f) := by
  intro s
  have h := hx s
  unfold Ev.bind
  cases hxs : x s with
  | mk r s' =>
    rw [hxs] at h
    cases r with
    | ok a => exact ⟨((hf a) s').1.trans h.1, ((hf a) s').2.trans h.2⟩
    | err => exact h
    | panic => exact h

theorem quiet_orElse {x : Ev σ α} {f : α → Ev σ β} {g : Ev σ β} (hx : Quiet x) (hf : ∀ a, Quiet (f a)) (hg : Quiet g) :
    Quiet (x.orElse f g) := by
  intro s
  have h := hx s
  unfold Ev.orElse
  cases hxs : x s with
  | mk r s' =>
    rw [hxs] at h
    cases r with
    | ok a => exact ⟨((hf a) s').1.trans h.1, ((hf a) s').2.trans h.2⟩
    | err => exact ⟨(hg s').1.trans h.1, (hg s').2.trans h.2⟩
    | panic => exact h

theorem quiet_getPc (W : World σ) : Quiet (getPc W) := by
  intro s
  unfold getPc
  split
  · exact ⟨rfl, rfl⟩
  · split <;> exact ⟨rfl, rfl⟩

theorem quiet_variableRef (W : World σ) (n : Str) : Quiet (variableRef W n) :=
  quiet_bind (quiet_getPc W) fun _ => quiet_bind (quiet_reading _) fun _ => quiet_lift _

theorem quiet_indexRef (W : World σ) (p : Ptr) {k : Ev σ Str} {i : Ev σ Nat} (hk : Quiet k) (hi : Quiet i) :
    Quiet (indexRef W p k i) := by
  unfold indexRef
  split
  · exact quiet_bind hk fun _ => quiet_reading _
  · exact quiet_bind hi fun _ => quiet_reading _

theorem quiet_callFree (W : World σ) (e : Expr) (h : CallFree e) :
    Quiet (toRef W e) ∧ Quiet (toInt W e) ∧ Quiet (toStr W e) ∧ Quiet (evaluate W e) := by
  match e with
  | .var n =>
    exact ⟨quiet_variableRef W n, quiet_bind (quiet_variableRef W n) fun _ => quiet_reading _,
      quiet_bind (quiet_variableRef W n) fun _ => quiet_reading _,
      quiet_bind (quiet_variableRef W n) fun _ => quiet_reading _⟩
  | .path _ => exact ⟨quiet_lift _, quiet_lift _, quiet_lift _, quiet_lift _⟩
  | .generic _ _ => exact ⟨quiet_lift _, quiet_lift _, quiet_lift _, quiet_lift _⟩
  | .field b f =>
    have hb := (quiet_callFree W b h).1
    exact ⟨quiet_bind hb fun _ => quiet_lift _,
      quiet_bind hb fun _ => quiet_bind (quiet_lift _) fun _ => quiet_reading _,
      quiet_bind hb fun _ => quiet_bind (quiet_lift _) fun _ => quiet_reading _,
      quiet_bind hb fun _ => quiet_bind (quiet_lift _) fun _ => quiet_reading _⟩
  | .index b i =>
    have hb := (quiet_callFree W b h.1).1
    have hi := quiet_callFree W i h.2
    have hr := fun p => quiet_indexRef W p hi.2.2.1 hi.2.1
    exact ⟨quiet_bind hb fun _ => hr _,
      quiet_bind hb fun _ => quiet_bind (hr _) fun _ => quiet_reading _,
      quiet_bind hb fun _ => quiet_bind (hr _) fun _ => quiet_reading _,
      quiet_bind hb fun _ => quiet_bind (hr _) fun _ => quiet_reading _⟩
  | .deref _ => exact ⟨quiet_lift _, quiet_lift _, quiet_lift _, quiet_lift _⟩
  | .addrOf _ _ => exact ⟨quiet_lift _, quiet_lift _, quiet_lift _, quiet_lift _⟩
  | .num _ => exact ⟨quiet_lift _, quiet_lift _, quiet_lift _, quiet_lift _⟩
  | .str _ => exact ⟨quiet_lift _, quiet_lift _, quiet_lift _, quiet_lift _⟩
  | .paren e =>
    have he := quiet_callFree W e h
    exact ⟨quiet_lift _, he.2.1, he.2.2.1, he.2.2.2⟩
  | .method .. => exact h.elim
  | .call .. => exact h.elim
termination_by sizeOf e

/-! ### Evaluations that execute calls -/

theorem runs_quiet {W : World σ} {x : Ev σ α} (h : ∀ s, (x s).2.calls = s.calls) : Runs W x [] := fun s =>
  ⟨[], by simp [h s], ⟨[], by simp, .nil⟩, fun _ _ => .nil⟩

theorem runs_lift {W : World σ} (r : Res α) : Runs W (Ev.lift r) [] := runs_quiet fun _ => rfl
theorem runs_reading {W : World σ} (f : σ → Res α) : Runs W (Ev.reading f) [] := runs_quiet fun _ => rfl

/-- An error without executing anything is allowed everywhere. -/
theorem runs_err {W : World σ} (ss : List Site) : Runs W (Ev.lift .err : Ev σ α) ss := fun s =>
  ⟨[], by simp [Ev.lift], ⟨[], by simp, .nil⟩, fun a h => by simp [Ev.lift] at h⟩

theorem runs_bind {W : World σ} {x : Ev σ α} {f : α → Ev σ β} {A B : List Site} (hx : Runs W x A)
    (hf : ∀ a, Runs W (f a) B) : Runs W (x.bind f) (A ++ B) := by
  intro s
  obtain ⟨evs, h1, ⟨pre, h2, h3⟩, h4⟩ := hx s
  unfold Ev.bind
  cases hxs : x s with
  | mk r s' =>
    rw [hxs] at h1 h4
    cases r with
    | ok a =>
      obtain ⟨evs', k1, ⟨pre', k2, k3⟩, k4⟩ := hf a s'
      have hA := h4 a rfl
      refine ⟨evs ++ evs', ?_, ⟨A ++ pre', ?_, ?_⟩, ?_⟩
      · simp only at h1 ⊢
        rw [k1, h1, List.append_assoc]
      · exact (List.prefix_append_right_inj A).2 k2
      · exact List.rel_append hA k3
      · intro b hb
        exact List.rel_append hA (k4 b hb)
    | err =>
      exact ⟨evs, h1, ⟨pre, h2.trans (List.prefix_append A B), h3⟩, fun b hb => by simp at hb⟩
    | panic =>
      exact ⟨evs, h1, ⟨pre, h2.trans (List.prefix_append A B), h3⟩, fun b hb => by simp at hb⟩

theorem runs_bind_right {W : World σ} {x : Ev σ α} {f : α → Ev σ β} {A : List Site} (hx : Runs W x A)
    (hf : ∀ a, Runs W (f a) []) : Runs W (x.bind f) A := by
  simpa using runs_bind hx hf

theorem runs_bind_left {W : World σ} {x : Ev σ α} {f : α → Ev σ β} {A : List Site} (hx : Runs W x [])
    (hf : ∀ a, Runs W (f a) A) : Runs W (x.bind f) A := by
  simpa using runs_bind hx hf

/-- As `runs_bind_left`, using what the first part has found. -/
theorem runs_lift_bind {W : World σ} {r : Res α} {f : α → Ev σ β} {A : List Site}
    (hf : ∀ a, r = .ok a → Runs W (f a) A) : Runs W ((Ev.lift r).bind f) A := by
  intro s
  cases r with
  | ok a => exact hf a rfl s
  | err => exact runs_err (W := W) A s
  | panic => exact ⟨[], by simp [Ev.lift, Ev.bind], ⟨[], by simp, .nil⟩, fun a h => by simp [Ev.lift, Ev.bind] at h⟩

theorem runs_execute {W : World σ} {ev : Event} {st : Site} (h : Executes W ev st) : Runs W (execute W ev) [st] := by
  intro s
  unfold execute
  split
  · exact ⟨[ev], rfl, ⟨[st], by simp, .cons h .nil⟩, fun _ _ => .cons h .nil⟩
  · exact ⟨[ev], rfl, ⟨[st], by simp, .cons h .nil⟩, fun _ _ => .cons h .nil⟩

theorem calls_createArg (W : World σ) (text : Str) (t : Option TypeDef) (s : St σ) :
    (stringArg W text t s).2.calls = s.calls := by
  unfold stringArg
  split
  · rfl
  · split <;> rfl

/-- Converting an argument without calls executes nothing. -/
theorem calls_convertArg (W : World σ) (e : Expr) (h : CallFree e) (t : Option TypeDef) (s : St σ) :
    (convertArg W e t (toRef W e) (evaluate W e) s).2.calls = s.calls := by
  obtain ⟨h1, _, _, h2⟩ := quiet_callFree W e h
  have hq : Quiet ((toRef W e).orElse (fun p => Ev.lift (refArg p))
      ((evaluate W e).bind fun r => .lift (fallbackArg W r))) :=
    quiet_orElse h1 (fun _ => quiet_lift _) (quiet_bind h2 fun _ => quiet_lift _)
  unfold convertArg
  split
  · rfl
  · exact calls_createArg W _ _ _
  · exact (hq s).1
  · exact (hq s).1
  · exact (hq s).1
  · exact h.elim
  · exact h.elim
  · rfl

theorem sites_callFree (e : Expr) (h : CallFree e) : sites e = [] := by
  match e with
  | .var _ | .path _ | .generic _ _ | .num _ | .str _ => rfl
  | .field b _ => exact sites_callFree b h
  | .index b i => simp [sites, sites_callFree b h.1, sites_callFree i h.2]
  | .deref e => exact sites_callFree e h
  | .addrOf _ e => exact sites_callFree e h
  | .paren e => exact sites_callFree e h
  | .method .. => exact h.elim
  | .call .. => exact h.elim
termination_by sizeOf e

theorem runs_orElse {W : World σ} {x : Ev σ α} {f : α → Ev σ β} {g : Ev σ β} {A : List Site} (hx : Runs W x A)
    (hf : ∀ a, Runs W (f a) []) (hne : ∀ s, (x s).1 ≠ .err) : Runs W (x.orElse f g) A := by
  have h : x.orElse f g = x.bind f := by
    funext s
    have := hne s
    unfold Ev.orElse Ev.bind
    cases hxs : x s with
    | mk r s' =>
      rw [hxs] at this
      cases r with
      | ok a => rfl
      | err => exact (this rfl).elim
      | panic => rfl
  rw [h]
  exact runs_bind_right hx hf

theorem runs_convertArg (W : World σ) (e : Expr) (t : Option TypeDef)
    (hc : CallFree e ∨ (Runs W (toRef W e) (sites e) ∧ ∀ s, (toRef W e s).1 ≠ .err)) :
    Runs W (convertArg W e t (toRef W e) (evaluate W e)) (sites e) := by
  by_cases hcf : CallFree e
  · rw [sites_callFree e hcf]
    exact runs_quiet (calls_convertArg W e hcf _)
  · rcases hc with hc | ⟨hr, hne⟩
    · exact (hcf hc).elim
    · have ho := runs_orElse (f := fun p => Ev.lift (refArg p))
        (g := (evaluate W e).bind fun r => .lift (fallbackArg W r)) hr (fun _ => runs_lift _) hne
      unfold convertArg
      split
      · exact (hcf trivial).elim
      · exact (hcf trivial).elim
      · exact ho
      · exact ho
      · exact ho
      · exact ho
      · exact ho
      · exact runs_err _

theorem runs_executeMethod (W : World σ) (p : Ptr) (m : Str) {args : List TypeDef → Ev σ (List Arg)}
    {A : List Site} (ha : ∀ ts, Runs W (args ts) A) : Runs W (executeMethod W p m args) (A ++ [.method m]) := by
  refine runs_lift_bind fun ms hms => runs_lift_bind fun c hc => ?_
  have hc : ms.find? (fun c => c.name == m) = some c := by
    cases h : ms.find? (fun c => c.name == m) with
    | none => rw [h] at hc; simp [Res.ofOption] at hc
    | some c' => rw [h] at hc; simp [Res.ofOption] at hc; rw [hc]
  have hmem := List.mem_of_find?_eq_some hc
  have hname := List.find?_some hc
  split
  · exact runs_err _
  · exact runs_bind (ha _) fun as => runs_lift_bind fun sz _ =>
      runs_bind_right (runs_execute ⟨p, ms, c, hms, hmem, by simpa using hname, rfl, rfl⟩) fun r => runs_lift _

theorem runs_executeFunction (W : World σ) (f : Str) (n : Nat) {args : List TypeDef → Ev σ (List Arg)}
    {A : List Site} (ha : ∀ ts, Runs W (args ts) A) : Runs W (executeFunction W f n args) (A ++ [.function f]) := by
  refine runs_lift_bind fun fs hfs => runs_lift_bind fun c hc => ?_
  have hc : fs.head? = some c := by
    cases h : fs.head? with
    | none => rw [h] at hc; simp [Res.ofOption] at hc
    | some c' => rw [h] at hc; simp [Res.ofOption] at hc; rw [hc]
  split
  · exact runs_err _
  · split
    · exact runs_err _
    · exact runs_bind (ha _) fun as => runs_lift_bind fun sz _ =>
        runs_bind_right (runs_execute ⟨fs, c, hfs, hc, rfl⟩) fun r => runs_lift _

theorem runs_variableRef (W : World σ) (n : Str) : Runs W (variableRef W n) [] :=
  runs_quiet fun s => (quiet_variableRef W n s).1

theorem runs_indexRef (W : World σ) (p : Ptr) {k : Ev σ Str} {i : Ev σ Nat} {A : List Site} (hk : Runs W k A)
    (hi : Runs W i A) : Runs W (indexRef W p k i) A := by
  unfold indexRef
  split
  · exact runs_bind_right hk fun _ => runs_reading _
  · exact runs_bind_right hi fun _ => runs_reading _

theorem runs_callShown (W : World σ) (r : CallResult × Option TypeDef) : Runs W (callShown W r) [] := by
  unfold callShown
  split
  · exact runs_lift _
  · exact runs_reading _
  · exact runs_lift _

mutual
theorem runs_once (W : World σ) (e : Expr) (h : Once W e) :
    Runs W (toRef W e) (sites e) ∧ Runs W (toInt W e) (sites e) ∧ Runs W (toStr W e) (sites e) := by
  match e with
  | .var n =>
    have hv := runs_variableRef W n
    exact ⟨hv, runs_bind_right hv fun _ => runs_reading _, runs_bind_right hv fun _ => runs_reading _⟩
  | .path _ => exact ⟨runs_lift _, runs_lift _, runs_lift _⟩
  | .generic _ _ => exact ⟨runs_lift _, runs_lift _, runs_lift _⟩
  | .field b f =>
    have hb := (runs_once W b h).1
    exact ⟨runs_bind_right hb fun _ => runs_lift _,
      runs_bind_right hb fun _ => runs_bind_right (runs_lift _) fun _ => runs_reading _,
      runs_bind_right hb fun _ => runs_bind_right (runs_lift _) fun _ => runs_reading _⟩
  | .index b i =>
    have hb := (runs_once W b h.1).1
    have hi := runs_once W i h.2
    have hr := fun p => runs_indexRef W p hi.2.2 hi.2.1
    exact ⟨runs_bind hb fun _ => hr _,
      runs_bind hb fun _ => runs_bind_right (hr _) fun _ => runs_reading _,
      runs_bind hb fun _ => runs_bind_right (hr _) fun _ => runs_reading _⟩
  | .deref _ => exact ⟨runs_err _, runs_err _, runs_err _⟩
  | .addrOf _ _ => exact ⟨runs_err _, runs_err _, runs_err _⟩
  | .num _ => exact ⟨runs_lift _, runs_lift _, runs_lift _⟩
  | .str _ => exact ⟨runs_lift _, runs_lift _, runs_lift _⟩
  | .paren e =>
    have he := runs_once W e h
    exact ⟨runs_err _, he.2.1, he.2.2⟩
  | .method b m as =>
    have hb := (runs_once W b h.1).1
    refine ⟨runs_bind hb fun p => ?_, runs_err _, runs_err _⟩
    unfold methodRef
    split
    · exact runs_err _
    · exact runs_bind_right (runs_executeMethod W p m (runs_onceArgs W as h.2)) fun _ => runs_lift _
  | .call f as =>
    exact ⟨runs_bind_right (runs_executeFunction W f _ (runs_onceArgs W as h)) fun _ => runs_lift _, runs_err _,
      runs_err _⟩
termination_by sizeOf e
theorem runs_onceArgs (W : World σ) (es : List Expr) (h : OnceArgs W es) (ts : List TypeDef) :
    Runs W (convertArgs W es ts) (sitesAll es) := by
  match es with
  | [] => exact runs_lift _
  | e :: es =>
    refine runs_bind (runs_convertArg W e _ ?_) fun a => runs_bind_right (runs_onceArgs W es h.2 _) fun _ => runs_lift _
    rcases h.1 with h1 | h1
    · exact .inl h1
    · exact .inr ⟨(runs_once W e h1.1).1, h1.2⟩
termination_by sizeOf es
end

/-- `evaluate` on an expression that is not the call of a method at its top. -/
theorem runs_evaluate (W : World σ) (e : Expr) (h : Once W e) (hm : ∀ b m as, e ≠ .method b m as)
    (hp : ∀ e', e ≠ .paren e') : Runs W (evaluate W e) (sites e) := by
  match e with
  | .var n => exact runs_bind_right (runs_variableRef W n) fun _ => runs_reading _
  | .path _ => exact runs_err _
  | .generic _ _ => exact runs_err _
  | .field b f =>
    exact runs_bind_right (runs_once W b h).1 fun _ => runs_bind_right (runs_lift _) fun _ => runs_reading _
  | .index b i =>
    have hi := runs_once W i h.2
    exact runs_bind (runs_once W b h.1).1 fun _ =>
      runs_bind_right (runs_indexRef W _ hi.2.2 hi.2.1) fun _ => runs_reading _
  | .deref _ => exact runs_err _
  | .addrOf _ _ => exact runs_err _
  | .num _ => exact runs_lift _
  | .str _ => exact runs_lift _
  | .paren e' => exact (hp e' rfl).elim
  | .method b m as => exact (hm b m as rfl).elim
  | .call f as =>
    exact runs_bind_right (runs_executeFunction W f _ (runs_onceArgs W as h)) fun _ => runs_callShown W _

theorem evaluate_core (W : World σ) (e : Expr) : evaluate W e = evaluate W (core e) := by
  match e with
  | .paren e => exact evaluate_core W e
  | .var _ | .path _ | .generic _ _ | .field _ _ | .index _ _ | .deref _ | .addrOf _ _ | .num _ | .str _
  | .method .. | .call .. => rfl
termination_by sizeOf e

theorem sites_core (e : Expr) : sites e = sites (core e) := by
  match e with
  | .paren e => exact sites_core e
  | .var _ | .path _ | .generic _ _ | .field _ _ | .index _ _ | .deref _ | .addrOf _ _ | .num _ | .str _
  | .method .. | .call .. => rfl
termination_by sizeOf e

theorem once_core (W : World σ) (e : Expr) (h : Once W e) : Once W (core e) := by
  match e with
  | .paren e => exact once_core W e h
  | .var _ | .path _ | .generic _ _ | .field _ _ | .index _ _ | .deref _ | .addrOf _ _ | .num _ | .str _
  | .method .. | .call .. => exact h
termination_by sizeOf e

theorem core_ne_paren (e e' : Expr) : core e ≠ .paren e' := by
  match e with
  | .paren e => exact core_ne_paren e e'
  | .var _ | .path _ | .generic _ _ | .field _ _ | .index _ _ | .deref _ | .addrOf _ _ | .num _ | .str _
  | .method .. | .call .. => simp [core]
termination_by sizeOf e

end Rudy.Eval
