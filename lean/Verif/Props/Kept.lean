import Verif.Proof.Covers
import Verif.Proof.Places
import Verif.Props.Eval
/-
C105: what is shown once is shown again as long as the memory that was read is as it was.
-/
set_option linter.unusedSimpArgs false
set_option linter.unusedVariables false
namespace Rudy.Shown
open Rudy Rudy.Layout Rudy.Data Rudy.Eval
open Rudy.Expr (Expr)
open Rudy.Server (CallResult)

variable {σ σ' α β : Type}

/-- Specification: the process `p'` seen through `W'` is stopped where `p` seen through `W` is, has the same variables at the same places, and all of its memory, with the same bytes, and perhaps more memory. -/
structure Sees (W : World σ) (p : σ) (W' : World σ') (p' : σ') : Prop where
  frame : W'.frame p' = W.frame p
  variableAt : W'.variableAt p' = W.variableAt p
  covers : Covers (W'.target p') (W.target p)
  stack : W.stack ≤ W'.stack

/-! ### Evaluations only add to the calls -/

/-- No call is forgotten. -/
def Grows (x : Ev σ α) : Prop := ∀ s, s.calls <+: (x s).2.calls

theorem grows_lift (r : Res α) : Grows (Ev.lift r : Ev σ α) := fun s => List.prefix_rfl
theorem grows_reading (f : σ → Res α) : Grows (Ev.reading f) := fun s => List.prefix_rfl

theorem grows_bind {x : Ev σ α} {f : α → Ev σ β} (hx : Grows x) (hf : ∀ a, Grows (f a)) : Grows (x.bind f) := by
  intro s
  have := hx s
  unfold Ev.bind
  cases h : x s with
  | mk r s' =>
    rw [h] at this
    cases r with
    | ok a => exact this.trans (hf a s')
    | err => exact this
    | panic => exact this

theorem grows_orElse {x : Ev σ α} {f : α → Ev σ β} {g : Ev σ β} (hx : Grows x) (hf : ∀ a, Grows (f a)) (hg : Grows g) : Grows (x.orElse f g) := by
  intro s
  have := hx s
  unfold Ev.orElse
  cases h : x s with
  | mk r s' =>
    rw [h] at this
    cases r with
    | ok a => exact this.trans (hf a s')
    | err => exact this.trans (hg s')
    | panic => exact this

theorem grows_getPc (W : World σ) : Grows (getPc W) := by
  intro s
  unfold getPc
  split
  · exact List.prefix_rfl
  · split <;> exact List.prefix_rfl

theorem grows_variableRef (W : World σ) (n : Str) : Grows (variableRef W n) :=
  grows_bind (grows_getPc W) fun _ => grows_bind (grows_reading _) fun _ => grows_lift _

theorem grows_execute (W : World σ) (e : Server.Event) : Grows (Eval.execute W e) := by
  intro s
  unfold Eval.execute
  split <;> exact List.prefix_append _ _

theorem grows_indexRef (W : World σ) (p : Ptr) {key : Ev σ Str} {index : Ev σ Nat} (hk : Grows key) (hi : Grows index) : Grows (indexRef W p key index) := by
  unfold indexRef
  split
  · exact grows_bind hk fun _ => grows_reading _
  · exact grows_bind hi fun _ => grows_reading _

theorem grows_callShown (W : World σ) (r : CallResult × Option TypeDef) : Grows (callShown W r) := by
  unfold callShown
  split
  · exact grows_lift _
  · exact grows_reading _
  · exact grows_lift _

theorem grows_method (W : World σ) (p : Ptr) (m : Str) {args : List TypeDef → Ev σ (List Server.Arg)} (h : ∀ ts, Grows (args ts)) : Grows (executeMethod W p m args) := by
  unfold executeMethod
  refine grows_bind (grows_lift _) fun _ => grows_bind (grows_lift _) fun _ => ?_
  split
  · exact grows_lift _
  · exact grows_bind (h _) fun _ => grows_bind (grows_lift _) fun _ => grows_bind (grows_execute W _) fun _ => grows_lift _

theorem grows_function (W : World σ) (f : Str) (n : Nat) {args : List TypeDef → Ev σ (List Server.Arg)} (h : ∀ ts, Grows (args ts)) : Grows (executeFunction W f n args) := by
  unfold executeFunction
  refine grows_bind (grows_lift _) fun _ => grows_bind (grows_lift _) fun _ => ?_
  split
  · exact grows_lift _
  · split
    · exact grows_lift _
    · exact grows_bind (h _) fun _ => grows_bind (grows_lift _) fun _ => grows_bind (grows_execute W _) fun _ => grows_lift _

theorem grows_convertArg (W : World σ) (e : Expr) (t : Option TypeDef) {ref : Ev σ Ptr} {val : Ev σ Shown} (h1 : Grows ref) (h2 : Grows val) : Grows (convertArg W e t ref val) := by
  have h := grows_orElse h1 (fun p => grows_lift (σ := σ) (refArg p)) (grows_bind h2 fun r => grows_lift (fallbackArg W r))
  unfold convertArg
  split
  · exact grows_lift _
  · intro s; rw [calls_createArg]; exact List.prefix_rfl
  · exact h
  · exact h
  · exact h
  · exact h
  · exact h
  · exact grows_lift _

mutual
theorem grows_eval (W : World σ) (e : Expr) : Grows (toRef W e) ∧ Grows (toInt W e) ∧ Grows (toStr W e) ∧ Grows (evaluate W e) := by
  match e with
  | .var n =>
    have h := grows_variableRef W n
    exact ⟨h, grows_bind h fun _ => grows_reading _, grows_bind h fun _ => grows_reading _, grows_bind h fun _ => grows_reading _⟩
  | .field b f =>
    obtain ⟨h, -⟩ := grows_eval W b
    exact ⟨grows_bind h fun _ => grows_lift _, grows_bind h fun _ => grows_bind (grows_lift _) fun _ => grows_reading _,
      grows_bind h fun _ => grows_bind (grows_lift _) fun _ => grows_reading _, grows_bind h fun _ => grows_bind (grows_lift _) fun _ => grows_reading _⟩
  | .index b i =>
    obtain ⟨h, -⟩ := grows_eval W b
    obtain ⟨-, h2, h3, -⟩ := grows_eval W i
    have hi := fun p => grows_indexRef W p h3 h2
    exact ⟨grows_bind h hi, grows_bind h fun p => grows_bind (hi p) fun _ => grows_reading _,
      grows_bind h fun p => grows_bind (hi p) fun _ => grows_reading _, grows_bind h fun p => grows_bind (hi p) fun _ => grows_reading _⟩
  | .method b m as =>
    obtain ⟨h, -⟩ := grows_eval W b
    have ha := grows_args W as
    refine ⟨grows_bind h fun p => ?_, grows_lift _, grows_lift _, grows_bind h fun p => ?_⟩
    · unfold methodRef
      split
      · exact grows_lift _
      · exact grows_bind (grows_method W p m ha) fun _ => grows_lift _
    · unfold methodShown
      split
      · split
        · exact grows_lift _
        · exact grows_reading _
      · exact grows_bind (grows_method W p m ha) fun _ => grows_callShown W _
  | .call f as =>
    have ha := grows_args W as
    exact ⟨grows_bind (grows_function W f _ ha) fun _ => grows_lift _, grows_lift _, grows_lift _, grows_bind (grows_function W f _ ha) fun _ => grows_callShown W _⟩
  | .paren e =>
    obtain ⟨-, h2, h3, h4⟩ := grows_eval W e
    exact ⟨grows_lift _, h2, h3, h4⟩
  | .num _ => exact ⟨grows_lift _, grows_lift _, grows_lift _, grows_lift _⟩
  | .str _ => exact ⟨grows_lift _, grows_lift _, grows_lift _, grows_lift _⟩
  | .path _ => exact ⟨grows_lift _, grows_lift _, grows_lift _, grows_lift _⟩
  | .generic _ _ => exact ⟨grows_lift _, grows_lift _, grows_lift _, grows_lift _⟩
  | .deref _ => exact ⟨grows_lift _, grows_lift _, grows_lift _, grows_lift _⟩
  | .addrOf _ _ => exact ⟨grows_lift _, grows_lift _, grows_lift _, grows_lift _⟩
termination_by sizeOf e
theorem grows_args (W : World σ) (es : List Expr) : ∀ ts, Grows (convertArgs W es ts) := by
  match es with
  | [] => intro ts; exact grows_lift _
  | e :: es =>
    intro ts
    obtain ⟨h1, -, -, h4⟩ := grows_eval W e
    exact grows_bind (grows_convertArg W e _ h1 h4) fun _ => grows_bind (grows_args W es _) fun _ => grows_lift _
termination_by sizeOf es
end

/-! ### Evaluations without calls -/

/-- `y` does for `p'` what `x` does for `p`, if `x` succeeds without a call. -/
structure Same (p : σ) (p' : σ') (x : Ev σ α) (y : Ev σ' α) : Prop where
  grows : Grows x
  same : ∀ pc cs cs' r s1, x ⟨pc, cs, p⟩ = (.ok r, s1) → s1.calls = cs → s1.proc = p ∧ y ⟨pc, cs', p'⟩ = (.ok r, ⟨s1.pc, cs', p'⟩)

section
variable {p : σ} {p' : σ'}

theorem same_lift {r r' : Res α} (h : Below r r') : Same p p' (.lift r) (.lift r') :=
  ⟨grows_lift _, fun pc cs cs' v s1 h1 h2 => by
    simp only [Ev.lift, Prod.mk.injEq] at h1 ⊢
    obtain ⟨h1, rfl⟩ := h1
    exact ⟨rfl, h _ h1, rfl⟩⟩

theorem same_reading {f : σ → Res α} {g : σ' → Res α} (h : Below (f p) (g p')) : Same p p' (.reading f) (.reading g) :=
  ⟨grows_reading _, fun pc cs cs' v s1 h1 h2 => by
    simp only [Ev.reading, Prod.mk.injEq] at h1 ⊢
    obtain ⟨h1, rfl⟩ := h1
    exact ⟨rfl, h _ h1, rfl⟩⟩

theorem same_bind {x : Ev σ α} {y : Ev σ' α} {f : α → Ev σ β} {g : α → Ev σ' β} (h : Same p p' x y) (hf : ∀ a, Same p p' (f a) (g a)) : Same p p' (x.bind f) (y.bind g) := by
  refine ⟨grows_bind h.grows fun a => (hf a).grows, fun pc cs cs' v s1 h1 h2 => ?_⟩
  have hg := h.grows ⟨pc, cs, p⟩
  simp only [Ev.bind] at h1 ⊢
  cases hx : x ⟨pc, cs, p⟩ with
  | mk r s2 =>
    rw [hx] at h1 hg
    cases r with
    | err => cases h1
    | panic => cases h1
    | ok a =>
      simp only at h1 hg
      have hg2 := (hf a).grows s2
      rw [h1] at hg2
      have hcs : s2.calls = cs := (hg.eq_of_length (Nat.le_antisymm hg.length_le (by rw [← h2]; exact hg2.length_le))).symm
      obtain ⟨k1, k2⟩ := h.same pc cs cs' a s2 hx hcs
      rw [k2]
      obtain ⟨pc2, cs2, p2⟩ := s2
      simp only at k1 hcs
      subst k1 hcs
      exact (hf a).same pc2 cs2 cs' v s1 h1 h2

/-- What makes a call is not without calls. -/
theorem same_calls {x : Ev σ α} (h : Grows x) (hc : ∀ s r s1, x s = (.ok r, s1) → s1.calls ≠ s.calls) (y : Ev σ' α) : Same p p' x y :=
  ⟨h, fun pc cs cs' v s1 h1 h2 => absurd h2 (hc _ _ _ h1)⟩

variable {W : World σ} {W' : World σ'}

theorem same_variableRef (hS : Sees W p W' p') (n : Str) : Same p p' (variableRef W n) (variableRef W' n) := by
  refine same_bind (y := getPc W') ⟨grows_getPc W, fun pc cs cs' v s1 h1 h2 => ?_⟩ fun pc => same_bind (y := Ev.reading fun s => W'.variableAt s pc n) (same_reading ?_) fun _ => same_lift (Below.refl _)
  · cases pc with
    | some pc => simp only [getPc, Prod.mk.injEq] at h1 ⊢; obtain ⟨h1, rfl⟩ := h1; exact ⟨rfl, h1, rfl⟩
    | none =>
      simp only [getPc, hS.frame] at h1 ⊢
      cases hf : W.frame p with
      | none => rw [hf] at h1; cases h1
      | some pc => rw [hf] at h1; cases h1; exact ⟨rfl, rfl⟩
  · rw [hS.variableAt]; exact Below.refl _

theorem same_indexRef (hS : Sees W p W' p') (q : Ptr) {key : Ev σ Str} {key' : Ev σ' Str} {index : Ev σ Nat} {index' : Ev σ' Nat} (hk : Same p p' key key') (hi : Same p p' index index') :
    Same p p' (indexRef W q key index) (indexRef W' q key' index') := by
  unfold indexRef
  split
  · exact same_bind hk fun _ => same_reading (hS.covers.indexMap hS.stack _ _ _)
  · exact same_bind hi fun _ => same_reading (hS.covers.indexSeq hS.stack _ _ _)

theorem same_shown (hS : Sees W p W' p') (q : Ptr) : Same p p' (pointerToResult W q) (pointerToResult W' q) :=
  same_reading (Below.bind (hS.covers.readMem hS.stack _ _) fun _ => Below.bind (hS.covers.expand hS.stack _ _) fun _ => Below.refl _)

theorem executed_calls {W : World σ} {e : Server.Event} {f : CallResult → Res α} {s s1 : St σ} {r : α} (h : ((Eval.execute W e).bind fun x => .lift (f x)) s = (.ok r, s1)) :
    s1.calls = s.calls ++ [e] := by
  unfold Ev.bind Eval.execute at h
  cases hx : W.execute e s.proc with
  | mk o q =>
    rw [hx] at h
    cases o with
    | none => cases h
    | some x => simp only [Ev.lift, Prod.mk.injEq] at h; rw [← h.2]

theorem bind_last {x : Ev σ α} {f : α → Ev σ β} {s s1 : St σ} {r : β} (h : x.bind f s = (.ok r, s1)) : ∃ a s2, x s = (.ok a, s2) ∧ f a s2 = (.ok r, s1) := by
  unfold Ev.bind at h
  cases hx : x s with
  | mk q s2 =>
    rw [hx] at h
    cases q with
    | ok a => exact ⟨a, s2, rfl, h⟩
    | err => cases h
    | panic => cases h

/-- A successful call of a method is recorded. -/
theorem method_calls {q : Ptr} {m : Str} {args : List TypeDef → Ev σ (List Server.Arg)} (ha : ∀ ts, Grows (args ts)) {s s1 : St σ} {r : CallResult × Option TypeDef}
    (h : executeMethod W q m args s = (.ok r, s1)) : s.calls.length < s1.calls.length := by
  unfold executeMethod at h
  obtain ⟨ms, s2, h1, h⟩ := bind_last h
  simp only [Ev.lift, Prod.mk.injEq] at h1
  obtain ⟨-, rfl⟩ := h1
  obtain ⟨c, s3, h1, h⟩ := bind_last h
  simp only [Ev.lift, Prod.mk.injEq] at h1
  obtain ⟨-, rfl⟩ := h1
  split at h
  · cases h
  · obtain ⟨as, s4, h2, h⟩ := bind_last h
    have hg := ha c.params s
    rw [h2] at hg
    obtain ⟨sz, s5, h3, h⟩ := bind_last h
    simp only [Ev.lift, Prod.mk.injEq] at h3
    obtain ⟨-, rfl⟩ := h3
    have := hg.length_le
    rw [executed_calls (f := fun x => .ok (x, c.ret)) h]
    simp only [List.length_append, List.length_cons, List.length_nil] at this ⊢
    omega

/-- A successful call of a function is recorded. -/
theorem function_calls {f : Str} {n : Nat} {args : List TypeDef → Ev σ (List Server.Arg)} (ha : ∀ ts, Grows (args ts)) {s s1 : St σ} {r : CallResult × Option TypeDef}
    (h : executeFunction W f n args s = (.ok r, s1)) : s.calls.length < s1.calls.length := by
  unfold executeFunction at h
  obtain ⟨ms, s2, h1, h⟩ := bind_last h
  simp only [Ev.lift, Prod.mk.injEq] at h1
  obtain ⟨-, rfl⟩ := h1
  obtain ⟨c, s3, h1, h⟩ := bind_last h
  simp only [Ev.lift, Prod.mk.injEq] at h1
  obtain ⟨-, rfl⟩ := h1
  split at h
  · cases h
  split at h
  · cases h
  · obtain ⟨as, s4, h2, h⟩ := bind_last h
    have hg := ha c.params s
    rw [h2] at hg
    obtain ⟨sz, s5, h3, h⟩ := bind_last h
    simp only [Ev.lift, Prod.mk.injEq] at h3
    obtain ⟨-, rfl⟩ := h3
    have := hg.length_le
    rw [executed_calls (f := fun x => .ok (x, c.ret)) h]
    simp only [List.length_append, List.length_cons, List.length_nil] at this ⊢
    omega

theorem calls_ne {x : Ev σ α} {f : α → Ev σ β} (hx : ∀ s r s1, x s = (.ok r, s1) → s.calls.length < s1.calls.length) (hf : ∀ a, Grows (f a)) :
    ∀ s r s1, x.bind f s = (.ok r, s1) → s1.calls ≠ s.calls := by
  intro s r s1 h he
  obtain ⟨a, s2, h1, h2⟩ := bind_last h
  have h3 := hx _ _ _ h1
  have h4 := (hf a s2).length_le
  rw [h2] at h4
  simp only at h4
  rw [he] at h4
  omega

theorem same_eval (hS : Sees W p W' p') (e : Expr) :
    Same p p' (toRef W e) (toRef W' e) ∧ Same p p' (toInt W e) (toInt W' e) ∧ Same p p' (toStr W e) (toStr W' e) ∧ Same p p' (evaluate W e) (evaluate W' e) := by
  have hl : ∀ {α : Type} (r : Res α), Same p p' (Ev.lift r) (Ev.lift r) := fun r => same_lift (Below.refl _)
  have hint : ∀ q, Same p p' (Ev.reading fun s => readInt (W.target s) W.stack W.stack q) (Ev.reading fun s => readInt (W'.target s) W'.stack W'.stack q) :=
    fun q => same_reading (hS.covers.readInt hS.stack hS.stack q)
  have hstr : ∀ q, Same p p' (Ev.reading fun s => readString (W.target s) W.stack W.stack q) (Ev.reading fun s => readString (W'.target s) W'.stack W'.stack q) :=
    fun q => same_reading (hS.covers.readString hS.stack hS.stack q)
  have hsh := same_shown hS
  match e with
  | .var n =>
    have h := same_variableRef hS n
    exact ⟨h, same_bind h hint, same_bind h hstr, same_bind h hsh⟩
  | .field b f =>
    obtain ⟨h, -⟩ := same_eval hS b
    exact ⟨same_bind h fun _ => hl _, same_bind h fun _ => same_bind (hl _) hint, same_bind h fun _ => same_bind (hl _) hstr, same_bind h fun _ => same_bind (hl _) hsh⟩
  | .index b i =>
    obtain ⟨h, -⟩ := same_eval hS b
    obtain ⟨-, h2, h3, -⟩ := same_eval hS i
    have hi := fun q => same_indexRef hS q h3 h2
    exact ⟨same_bind h hi, same_bind h fun q => same_bind (hi q) hint, same_bind h fun q => same_bind (hi q) hstr, same_bind h fun q => same_bind (hi q) hsh⟩
  | .method b m as =>
    obtain ⟨h, -⟩ := same_eval hS b
    have ha := grows_args W as
    refine ⟨same_bind h fun q => ?_, hl _, hl _, same_bind h fun q => ?_⟩
    · unfold methodRef
      split
      · exact hl _
      · exact same_calls (grows_bind (grows_method W q m ha) fun _ => grows_lift _) (calls_ne (fun _ _ _ => method_calls ha) fun _ => grows_lift _) _
    · unfold methodShown
      split
      · split
        · exact hl _
        · exact same_reading (Below.bind (hS.covers.evalSynthetic _ _ _) fun _ => Below.refl _)
      · exact same_calls (grows_bind (grows_method W q m ha) fun _ => grows_callShown W _) (calls_ne (fun _ _ _ => method_calls ha) fun _ => grows_callShown W _) _
  | .call f as =>
    have ha := grows_args W as
    exact ⟨same_calls (grows_bind (grows_function W f _ ha) fun _ => grows_lift _) (calls_ne (fun _ _ _ => function_calls ha) fun _ => grows_lift _) _, hl _, hl _,
      same_calls (grows_bind (grows_function W f _ ha) fun _ => grows_callShown W _) (calls_ne (fun _ _ _ => function_calls ha) fun _ => grows_callShown W _) _⟩
  | .paren e =>
    obtain ⟨-, h2, h3, h4⟩ := same_eval hS e
    exact ⟨hl _, h2, h3, h4⟩
  | .num _ => exact ⟨hl _, hl _, hl _, hl _⟩
  | .str _ => exact ⟨hl _, hl _, hl _, hl _⟩
  | .path _ => exact ⟨hl _, hl _, hl _, hl _⟩
  | .generic _ _ => exact ⟨hl _, hl _, hl _, hl _⟩
  | .deref _ => exact ⟨hl _, hl _, hl _, hl _⟩
  | .addrOf _ _ => exact ⟨hl _, hl _, hl _, hl _⟩
termination_by sizeOf e

end

/-! ### The property -/

/-- C105: if an expression is shown, and no function of the program was called for it, then it is shown in the same way in every process that has at least the same memory, stopped at the same place. -/
theorem C105_shown {W : World σ} {p : σ} {W' : World σ'} {p' : σ'} (hS : Sees W p W' p') {e : Expr} {r : Shown} (h : (evaluate W e (St.new p)).1 = .ok r)
    (hc : (evaluate W e (St.new p)).2.calls = []) :
    (evaluate W' e (St.new p')).1 = .ok r ∧ (evaluate W' e (St.new p')).2.calls = [] ∧ (evaluate W' e (St.new p')).2.proc = p' := by
  have h' : evaluate W e ⟨none, [], p⟩ = (.ok r, (evaluate W e (St.new p)).2) := by rw [← h]; rfl
  have := ((same_eval hS e).2.2.2.same none [] [] r _ h' hc).2
  have h2 : evaluate W' e (St.new p') = (.ok r, ⟨(evaluate W e (St.new p)).2.pc, [], p'⟩) := this
  rw [h2]
  exact ⟨rfl, rfl, rfl⟩

/-- C105: so where less memory can be read, the same is shown, or an error (or a panic) comes up, but never something else. -/
theorem C105_less {W : World σ} {p : σ} {W' : World σ'} {p' : σ'} (hS : Sees W p W' p') {e : Expr} {r r' : Shown} (h : (evaluate W e (St.new p)).1 = .ok r)
    (hc : (evaluate W e (St.new p)).2.calls = []) (h' : (evaluate W' e (St.new p')).1 = .ok r') : r = r' := by
  rw [(C105_shown hS h hc).1] at h'
  cases h'
  rfl

/-! ### Places in a part of memory -/

theorem slice_more {m0 m : Mem} (hm : ∀ z b, m0 z = some b → m z = some b) {a n : Nat} {bs : List UInt8} (h : m0.slice a n = some bs) : m.slice a n = some bs := by
  rw [Mem.slice_eq_some] at h ⊢
  exact ⟨h.1, fun i hi => hm _ _ (h.2 i hi)⟩

open Rudy.TypeRes Rudy.Dwarf Rudy.Parse in
/-- A place in the part `m0` of memory is found in every process that has at least this part. -/
theorem place_found_part {typedef : Nat → Option Layout} {db : Db} {m0 : Mem} {lossy : List UInt8 → Str} {floatStr : Nat → Nat → Str} (hw : TypeRes.WellFormed db) (hdec : TypeRes.Decodes db) {v : Str} {a0 e0 a e : Nat} {ex : Expr}
    (h : Place typedef db m0 lossy floatStr v a0 e0 ex a e) :
    ∃ N, ∀ (σ : Type) (W : World σ) (p : σ) (pc depth : Nat) (pc0 : Option Nat) (cs : List Server.Event) (m : Mem), pc0 = none ∨ pc0 = some pc → N ≤ depth → N ≤ W.stack → RootAt W p pc typedef db depth v a0 e0 →
      (∀ z b, m0 z = some b → m z = some b) → Strict (W.target p) (target typedef db m lossy floatStr depth) →
      ∃ td, ((resolveType typedef db depth e = .ok td ∧ ex = .var v) ∨ shallow typedef db depth e = .ok td) ∧ toRef W ex ⟨pc0, cs, p⟩ = (.ok (a, td), ⟨some pc, cs, p⟩) := by
  obtain ⟨N, hN⟩ := place_found_from hw hdec h
  refine ⟨N, fun σ W p pc depth pc0 cs m hpc hd hst hr hm hT => ?_⟩
  -- the process with this part of the memory only
  let T : Target := { target typedef db m0 lossy floatStr depth with read := fun a n => if n = 0 then (W.target p).read a 0 else (target typedef db m0 lossy floatStr depth).read a n }
  let W1 : World σ := { W with target := fun _ => T }
  obtain ⟨td, htd, href⟩ := hN σ W1 p pc depth pc0 cs hpc hd hst hr ⟨fun a n hn => if_neg hn, rfl, rfl, rfl⟩
  have hS : Sees W1 p W p := by
    refine ⟨rfl, rfl, ⟨?_, hT.resolve, hT.lossy, hT.floatStr⟩, Nat.le_refl _⟩
    intro a n bs h
    have h : (if n = 0 then (W.target p).read a 0 else (target typedef db m0 lossy floatStr depth).read a n) = some bs := h
    split at h
    · rename_i hn; subst hn; exact h
    · rename_i hn
      rw [hT.read a n hn, target_reads typedef db m lossy floatStr depth a n]
      rw [target_reads typedef db m0 lossy floatStr depth a n] at h
      exact slice_more hm h
  exact ⟨td, htd, ((same_eval hS ex).1.same pc0 cs cs _ _ href rfl).2⟩

end Rudy.Shown
