import Verif.Proof.Eval
import Verif.Props.Memory
/-
C34, C37, C48-C52: evaluating expressions.
-/
set_option linter.unusedSimpArgs false
namespace Rudy.Eval
open Rudy Rudy.Expr Rudy.Data Rudy.Layout Rudy.Server

/-! ### C34: pointer expansion -/

mutual
/-- Every pointer inside the value satisfies `P`. -/
def Pointers (P : Nat → TypeDef → Prop) : Value → Prop
  | .scalar .. => True
  | .array _ xs => PointersL P xs
  | .struct _ fs => PointersF P fs
  | .tuple _ xs => PointersL P xs
  | .map _ es => PointersE P es
  | .pointer a t => P a t
/-- For the items of an array or tuple. -/
def PointersL (P : Nat → TypeDef → Prop) : List Value → Prop
  | [] => True
  | v :: vs => Pointers P v ∧ PointersL P vs
/-- For the fields of a struct. -/
def PointersF (P : Nat → TypeDef → Prop) : List (Str × Value) → Prop
  | [] => True
  | (_, v) :: vs => Pointers P v ∧ PointersF P vs
/-- For the entries of a map. -/
def PointersE (P : Nat → TypeDef → Prop) : List (Value × Value) → Prop
  | [] => True
  | (k, v) :: vs => Pointers P k ∧ Pointers P v ∧ PointersE P vs
end

/-- The value contains no pointer. -/
abbrev NoPointer (v : Value) : Prop := Pointers (fun _ _ => False) v

theorem expandList_plain {f : Value → Res Value} {P : Nat → TypeDef → Prop} (hf : ∀ v, Pointers P v → f v = .ok v)
    (vs : List Value) (h : PointersL P vs) : expandList f vs = .ok vs := by
  induction vs with
  | nil => rfl
  | cons v vs ih => simp [expandList, hf v h.1, ih h.2]

theorem expandFields_plain {f : Value → Res Value} {P : Nat → TypeDef → Prop} (hf : ∀ v, Pointers P v → f v = .ok v)
    (vs : List (Str × Value)) (h : PointersF P vs) : expandFields f vs = .ok vs := by
  induction vs with
  | nil => rfl
  | cons v vs ih => simp [expandFields, hf v.2 h.1, ih h.2]

theorem expandEntries_plain {f : Value → Res Value} {P : Nat → TypeDef → Prop} (hf : ∀ v, Pointers P v → f v = .ok v)
    (vs : List (Value × Value)) (h : PointersE P vs) : expandEntries f vs = .ok vs := by
  induction vs with
  | nil => rfl
  | cons v vs ih => simp [expandEntries, hf v.1 h.1, hf v.2 h.2.1, ih h.2.2]

theorem expand_plain (T : Target) (stack d : Nat) (v : Value) (h : NoPointer v) : expand T stack d v = .ok v := by
  induction d generalizing v with
  | zero => rfl
  | succ d ih =>
    cases v with
    | scalar => rfl
    | array _ xs => simp [expand, expandList_plain ih xs h]
    | struct _ xs => simp [expand, expandFields_plain ih xs h]
    | tuple _ xs => simp [expand, expandList_plain ih xs h]
    | map _ xs => simp [expand, expandEntries_plain ih xs h]
    | pointer => exact h.elim

/-- C34, last part: a value without pointers is shown as it is, to any depth. -/
theorem C34_plain_unchanged (T : Target) (stack d : Nat) (v : Value) (h : NoPointer v) :
    expand T stack d v = .ok v := expand_plain T stack d v h

example : NoPointer (.array (chars! "t") [.scalar (chars! "u8") (chars! "1"), .tuple [] []]) := by
  simp [Pointers, PointersL]

/-- A set of pointers that can all be read, and whose contents only point into the set. It may be
infinite and it may have cycles. -/
def Closed (T : Target) (stack : Nat) (P : Nat → TypeDef → Prop) : Prop :=
  ∀ a t, P a t → match readMem T stack a t with
    | .ok v => Pointers P v
    | .err => True
    | .panic => False

theorem noPanic_bind {α β : Type} {x : Res α} {f : α → Res β} (hx : x.NoPanic) (hf : ∀ a, x = .ok a → (f a).NoPanic) :
    (x.bind f).NoPanic := by
  cases x with
  | ok a => exact hf a rfl
  | err => trivial
  | panic => exact hx

theorem expandList_noPanic {f : Value → Res Value} {P : Nat → TypeDef → Prop} (hf : ∀ v, Pointers P v → (f v).NoPanic)
    (vs : List Value) (h : PointersL P vs) : (expandList f vs).NoPanic := by
  induction vs with
  | nil => trivial
  | cons v vs ih => exact noPanic_bind (hf v h.1) fun _ _ => noPanic_bind (ih h.2) fun _ _ => trivial

theorem expandFields_noPanic {f : Value → Res Value} {P : Nat → TypeDef → Prop} (hf : ∀ v, Pointers P v → (f v).NoPanic)
    (vs : List (Str × Value)) (h : PointersF P vs) : (expandFields f vs).NoPanic := by
  induction vs with
  | nil => trivial
  | cons v vs ih => exact noPanic_bind (hf v.2 h.1) fun _ _ => noPanic_bind (ih h.2) fun _ _ => trivial

theorem expandEntries_noPanic {f : Value → Res Value} {P : Nat → TypeDef → Prop} (hf : ∀ v, Pointers P v → (f v).NoPanic)
    (vs : List (Value × Value)) (h : PointersE P vs) : (expandEntries f vs).NoPanic := by
  induction vs with
  | nil => trivial
  | cons v vs ih =>
    exact noPanic_bind (hf v.1 h.1) fun _ _ => noPanic_bind (hf v.2 h.2.1) fun _ _ =>
      noPanic_bind (ih h.2.2) fun _ _ => trivial

theorem expand_noPanic {T : Target} {stack : Nat} {P : Nat → TypeDef → Prop} (hP : Closed T stack P) (d : Nat)
    (v : Value) (h : Pointers P v) : (expand T stack d v).NoPanic := by
  induction d generalizing v with
  | zero => trivial
  | succ d ih =>
    cases v with
    | scalar => trivial
    | array _ xs => exact noPanic_bind (expandList_noPanic ih xs h) fun _ _ => trivial
    | struct _ xs => exact noPanic_bind (expandFields_noPanic ih xs h) fun _ _ => trivial
    | tuple _ xs => exact noPanic_bind (expandList_noPanic ih xs h) fun _ _ => trivial
    | map _ xs => exact noPanic_bind (expandEntries_noPanic ih xs h) fun _ _ => trivial
    | pointer a t =>
      have := hP a t h
      refine noPanic_bind ?_ fun v hv => ih v ?_
      · cases hr : readMem T stack a t with
        | ok v => trivial
        | err => trivial
        | panic => rw [hr] at this; exact this
      · rw [hv] at this; exact this

/-- C34, first part: if the pointers of a value lead only to memory in which every single pointer can be
read within the stack (in whatever cyclic way they point at each other), showing the value ends, with a
result or an error. -/
theorem C34_terminates (T : Target) (stack : Nat) (P : Nat → TypeDef → Prop) (hP : Closed T stack P) (v : Value)
    (h : Pointers P v) : (expand T stack 8 v).NoPanic := expand_noPanic hP 8 v h

/-- The pointers that showing a value to depth `d` has to read: a step is entering a container or
following a pointer, and after `d` steps nothing is followed. -/
inductive Reads (T : Target) (stack : Nat) : Nat → Value → Nat → TypeDef → Prop where
  | here {d a t} : Reads T stack (d + 1) (.pointer a t) a t
  | through {d a t v b u} : readMem T stack a t = .ok v → Reads T stack d v b u → Reads T stack (d + 1) (.pointer a t) b u
  | array {d ty xs x b u} : x ∈ xs → Reads T stack d x b u → Reads T stack (d + 1) (.array ty xs) b u
  | tuple {d ty xs x b u} : x ∈ xs → Reads T stack d x b u → Reads T stack (d + 1) (.tuple ty xs) b u
  | struct {d ty xs k x b u} : (k, x) ∈ xs → Reads T stack d x b u → Reads T stack (d + 1) (.struct ty xs) b u
  | key {d ty xs k x b u} : (k, x) ∈ xs → Reads T stack d k b u → Reads T stack (d + 1) (.map ty xs) b u
  | value {d ty xs k x b u} : (k, x) ∈ xs → Reads T stack d x b u → Reads T stack (d + 1) (.map ty xs) b u

theorem expandList_congr {T T' : Target} {stack stack' d : Nat} (vs : List Value)
    (h : ∀ v ∈ vs, expand T' stack' d v = expand T stack d v) : expandList (expand T' stack' d) vs = expandList (expand T stack d) vs := by
  induction vs with
  | nil => simp [expandList]
  | cons v vs ih => rw [expandList, expandList, h v (by simp), ih fun x hx => h x (by simp [hx])]

theorem expandFields_congr {T T' : Target} {stack stack' d : Nat} (vs : List (Str × Value))
    (h : ∀ k v, (k, v) ∈ vs → expand T' stack' d v = expand T stack d v) :
    expandFields (expand T' stack' d) vs = expandFields (expand T stack d) vs := by
  induction vs with
  | nil => simp [expandFields]
  | cons v vs ih =>
    obtain ⟨k, v⟩ := v
    rw [expandFields, expandFields, h k v (by simp), ih fun k x hx => h k x (by simp [hx])]

theorem expandEntries_congr {T T' : Target} {stack stack' d : Nat} (vs : List (Value × Value))
    (h : ∀ k v, (k, v) ∈ vs → expand T' stack' d k = expand T stack d k ∧ expand T' stack' d v = expand T stack d v) :
    expandEntries (expand T' stack' d) vs = expandEntries (expand T stack d) vs := by
  induction vs with
  | nil => simp [expandEntries]
  | cons v vs ih =>
    obtain ⟨k, v⟩ := v
    rw [expandEntries, expandEntries, (h k v (by simp)).1, (h k v (by simp)).2, ih fun k x hx => h k x (by simp [hx])]

/-- C34, bounded depth: what is shown depends only on the memory within eight steps of the value; the
rest of the memory may be anything. -/
theorem C34_bounded_depth (T T' : Target) (stack stack' d : Nat) (v : Value)
    (h : ∀ a t, Reads T stack d v a t → readMem T' stack' a t = readMem T stack a t) :
    expand T' stack' d v = expand T stack d v := by
  induction d generalizing v with
  | zero => simp [expand]
  | succ d ih =>
    cases v with
    | scalar => simp [expand]
    | array ty xs =>
      rw [expand, expand, expandList_congr xs fun x hx => ih x fun a t hr => h a t (.array hx hr)]
    | tuple ty xs =>
      rw [expand, expand, expandList_congr xs fun x hx => ih x fun a t hr => h a t (.tuple hx hr)]
    | struct ty xs =>
      rw [expand, expand, expandFields_congr xs fun k x hx => ih x fun a t hr => h a t (.struct hx hr)]
    | map ty xs =>
      rw [expand, expand, expandEntries_congr xs fun k x hx =>
        ⟨ih k fun a t hr => h a t (.key hx hr), ih x fun a t hr => h a t (.value hx hr)⟩]
    | pointer a t =>
      rw [expand, expand, h a t .here]
      cases hr : readMem T stack a t with
      | ok v => exact ih v fun b u hb => h b u (.through hr hb)
      | err => rfl
      | panic => rfl

/-- `w` is `v` with every pointer replaced by what it points to, all within `d` steps. -/
inductive Unfolds (T : Target) (stack : Nat) : Nat → Value → Value → Prop where
  | scalar {d t s} : Unfolds T stack (d + 1) (.scalar t s) (.scalar t s)
  | pointer {d a t v w} : readMem T stack a t = .ok v → Unfolds T stack d v w → Unfolds T stack (d + 1) (.pointer a t) w
  | array {d ty xs ys} : xs.length = ys.length → (∀ p ∈ xs.zip ys, Unfolds T stack d p.1 p.2) →
      Unfolds T stack (d + 1) (.array ty xs) (.array ty ys)
  | tuple {d ty xs ys} : xs.length = ys.length → (∀ p ∈ xs.zip ys, Unfolds T stack d p.1 p.2) →
      Unfolds T stack (d + 1) (.tuple ty xs) (.tuple ty ys)
  | struct {d ty xs ys} : xs.map (·.1) = ys.map (·.1) → (∀ p ∈ xs.zip ys, Unfolds T stack d p.1.2 p.2.2) →
      Unfolds T stack (d + 1) (.struct ty xs) (.struct ty ys)
  | map {d ty xs ys} : xs.length = ys.length → (∀ p ∈ xs.zip ys, Unfolds T stack d p.1.1 p.2.1) →
      (∀ p ∈ xs.zip ys, Unfolds T stack d p.1.2 p.2.2) → Unfolds T stack (d + 1) (.map ty xs) (.map ty ys)

theorem expandList_of {T : Target} {stack d : Nat} (xs ys : List Value) (hl : xs.length = ys.length)
    (h : ∀ p ∈ xs.zip ys, expand T stack d p.1 = .ok p.2) : expandList (expand T stack d) xs = .ok ys := by
  induction xs generalizing ys with
  | nil => cases ys with
    | nil => simp [expandList]
    | cons => simp at hl
  | cons x xs ih => cases ys with
    | nil => simp at hl
    | cons y ys =>
      have h1 := h (x, y) (by simp)
      simp only at h1
      rw [expandList, h1, ih ys (by simpa using hl) fun p hp => h p (by simp [hp])]
      rfl

theorem expandFields_of {T : Target} {stack d : Nat} (xs ys : List (Str × Value)) (hl : xs.map (·.1) = ys.map (·.1))
    (h : ∀ p ∈ xs.zip ys, expand T stack d p.1.2 = .ok p.2.2) : expandFields (expand T stack d) xs = .ok ys := by
  induction xs generalizing ys with
  | nil => cases ys with
    | nil => simp [expandFields]
    | cons => simp at hl
  | cons x xs ih => cases ys with
    | nil => simp at hl
    | cons y ys =>
      obtain ⟨k, x⟩ := x
      obtain ⟨k', y⟩ := y
      simp only [List.map_cons, List.cons.injEq] at hl
      obtain ⟨rfl, hl⟩ := hl
      have h1 := h ((k, x), (k, y)) (by simp)
      simp only at h1
      rw [expandFields, h1, ih ys hl fun p hp => h p (by simp [hp])]
      rfl

theorem expandEntries_of {T : Target} {stack d : Nat} (xs ys : List (Value × Value)) (hl : xs.length = ys.length)
    (h : ∀ p ∈ xs.zip ys, expand T stack d p.1.1 = .ok p.2.1)
    (h' : ∀ p ∈ xs.zip ys, expand T stack d p.1.2 = .ok p.2.2) : expandEntries (expand T stack d) xs = .ok ys := by
  induction xs generalizing ys with
  | nil => cases ys with
    | nil => simp [expandEntries]
    | cons => simp at hl
  | cons x xs ih => cases ys with
    | nil => simp at hl
    | cons y ys =>
      obtain ⟨k, x⟩ := x
      obtain ⟨k', y⟩ := y
      have h1 := h ((k, x), (k', y)) (by simp)
      have h2 := h' ((k, x), (k', y)) (by simp)
      simp only at h1 h2
      rw [expandEntries, h1, h2, ih ys (by simpa using hl) (fun p hp => h p (by simp [hp])) fun p hp => h' p (by simp [hp])]
      rfl

/-- C34: a value whose structure is at most eight steps deep is shown completely. -/
theorem C34_shallow_complete (T : Target) (stack d n : Nat) (v w : Value) (h : Unfolds T stack n v w) (hd : n ≤ d) :
    expand T stack d v = .ok w := by
  induction h generalizing d with
  | scalar => cases d with
    | zero => omega
    | succ d => simp [expand]
  | pointer hr _ ih => cases d with
    | zero => omega
    | succ d => simp [expand, hr, ih d (by omega)]
  | array hl _ ih => cases d with
    | zero => omega
    | succ d => rw [expand, expandList_of _ _ hl fun p hp => ih p hp d (by omega)]; rfl
  | tuple hl _ ih => cases d with
    | zero => omega
    | succ d => rw [expand, expandList_of _ _ hl fun p hp => ih p hp d (by omega)]; rfl
  | struct hl _ ih => cases d with
    | zero => omega
    | succ d => rw [expand, expandFields_of _ _ hl fun p hp => ih p hp d (by omega)]; rfl
  | map hl _ _ ih ih' => cases d with
    | zero => omega
    | succ d =>
      rw [expand, expandEntries_of _ _ hl (fun p hp => ih p hp d (by omega)) fun p hp => ih' p hp d (by omega)]; rfl

/-- A cyclic memory: the eight bytes at address 16 hold 16. -/
def cyclicTarget : Target :=
  { demoTarget (demoMem 16 [16, 0, 0, 0, 0, 0, 0, 0]) with
    resolve := fun _ => .ok (.mk (some 1) (.struct (chars! "Node") 8 8
      (.cons (chars! "next") 0 (.mk none (.reference false (.mk (some 1) (.alias (chars! "Node"))))) .nil))) }

/-- The type `struct Node { next: &Node }` as the debug information gives it behind a reference. -/
def nodeType : TypeDef := .mk (some 1) (.alias (chars! "Node"))
def nodeRef : TypeDef := .mk none (.reference false nodeType)

theorem cyclic_node : readMem cyclicTarget 2 16 nodeType = .ok (.struct (chars! "Node") [(chars! "next", .pointer 16 nodeRef)]) := rfl
theorem cyclic_ref : readMem cyclicTarget 3 16 nodeRef = .ok (.struct (chars! "&Node") [(chars! "next", .pointer 16 nodeRef)]) := rfl

/-- The hypotheses are met by a node that points to itself. -/
example : (expand cyclicTarget 3 8 (.pointer 16 nodeRef)).NoPanic :=
  C34_terminates _ _ (fun a t => a = 16 ∧ t = nodeRef) (by
    rintro a t ⟨rfl, rfl⟩
    rw [cyclic_ref]; exact ⟨⟨rfl, rfl⟩, trivial⟩) _ ⟨rfl, rfl⟩

/-- What is shown for it: its address, after four rounds (following a pointer and entering the struct
are two steps). -/
example : expand cyclicTarget 3 8 (.pointer 16 nodeRef) =
    .ok (.struct (chars! "&Node") [(chars! "next", .struct (chars! "&Node") [(chars! "next",
      .struct (chars! "&Node") [(chars! "next", .struct (chars! "&Node") [(chars! "next",
      .pointer 16 nodeRef)])])])]) := by
  simp [expand, expandFields, cyclic_ref]

/-- Only the memory of the node itself matters. -/
example (a : Nat) (t : TypeDef) (h : Reads cyclicTarget 3 8 (.pointer 16 nodeRef) a t) : a = 16 ∧ t = nodeRef := by
  have key : ∀ d v a t, Reads cyclicTarget 3 d v a t →
      (v = .pointer 16 nodeRef ∨ v = .struct (chars! "&Node") [(chars! "next", .pointer 16 nodeRef)]) → a = 16 ∧ t = nodeRef := by
    clear h
    intro d v a t hr
    induction hr with
    | here => rintro (h | h) <;> simp at h; exact h
    | through h1 _ ih =>
      rintro (h | h) <;> simp at h
      obtain ⟨rfl, rfl⟩ := h
      rw [cyclic_ref] at h1
      exact ih (.inr (by simpa using h1.symm))
    | array => rintro (h | h) <;> simp at h
    | tuple => rintro (h | h) <;> simp at h
    | struct hm _ ih =>
      rintro (h | h) <;> simp at h
      obtain ⟨_, rfl⟩ := h
      simp at hm
      exact ih (.inl hm.2)
    | key => rintro (h | h) <;> simp at h
    | value => rintro (h | h) <;> simp at h
  exact key 8 _ a t h (.inl rfl)

/-! ### C37: calls are executed once -/

/-- C37 for expressions whose arguments contain no calls, or only calls that yield a memory location:
evaluating the expression executes the calls written in it, each at most once, in the order in which they
are written, and when it succeeds, each exactly once (apart from a method that rudy computes itself,
which needs no execution). Missing: arguments that are calls and return a plain value
(`C37_nested_calls_fail`) or fail. -/
theorem C37_once_partial {σ : Type} (W : World σ) (e : Expr) (h : Once W e) (s : St σ) :
    ∃ evs, (evaluate W e s).2.calls = s.calls ++ evs ∧
      (∃ pre, pre <+: sites e ∧ List.Forall₂ (Executes W) evs pre) ∧
      (∀ r, (evaluate W e s).1 = .ok r → List.Forall₂ (Executes W) evs (sites e) ∨
        ∃ b m, core e = .method b m [] ∧ List.Forall₂ (Executes W) evs (sites b) ∧
          ∃ l, m ∈ syntheticMethods l) := by
  rw [evaluate_core, sites_core]
  have hc := once_core W e h
  have hp := core_ne_paren e
  revert hc hp
  generalize core e = c
  intro hc hp
  by_cases hm : ∃ b m as, c = .method b m as
  · obtain ⟨b, m, as, rfl⟩ := hm
    obtain ⟨evs, h1, ⟨pre, h2, h3⟩, h4⟩ := (runs_once W b hc.1).1 s
    have heq : evaluate W (.method b m as) s =
      ((toRef W b).bind fun p => methodShown W p m as.length (convertArgs W as)) s := rfl
    rw [heq]
    unfold Ev.bind
    cases hb : toRef W b s with
    | mk r s' =>
      rw [hb] at h1 h4
      have hpre : ∃ pre, pre <+: sites (.method b m as) ∧ List.Forall₂ (Executes W) evs pre :=
        ⟨pre, h2.trans (List.prefix_append _ _), h3⟩
      cases r with
      | err => exact ⟨evs, h1, hpre, fun r hr => by simp at hr⟩
      | panic => exact ⟨evs, h1, hpre, fun r hr => by simp at hr⟩
      | ok p =>
        simp only at h1 ⊢
        unfold methodShown
        split
        · rename_i hs
          split
          · exact ⟨evs, h1, hpre, fun r hr => by simp [Ev.lift] at hr⟩
          · rename_i hn
            have has : as = [] := by
              cases as with
              | nil => rfl
              | cons => simp at hn
            subst has
            refine ⟨evs, h1, hpre, fun r hr => .inr ⟨b, m, rfl, h4 p rfl, p.2.layout, ?_⟩⟩
            simpa using hs
        · obtain ⟨evs', k1, ⟨pre', k2, k3⟩, k4⟩ :=
            runs_bind_right (runs_executeMethod W p m (runs_onceArgs W as hc.2)) (runs_callShown W) s'
          refine ⟨evs ++ evs', ?_, ⟨sites b ++ pre', ?_, ?_⟩, ?_⟩
          · rw [k1, h1, List.append_assoc]
          · exact (List.prefix_append_right_inj _).2 k2
          · exact List.rel_append (h4 p rfl) k3
          · intro r hr
            exact .inl (List.rel_append (h4 p rfl) (k4 r hr))
  · obtain ⟨evs, h1, h2, h3⟩ := runs_evaluate W c hc (fun b m as he => hm ⟨b, m, as, he⟩) hp s
    exact ⟨evs, h1, h2, fun r hr => .inl (h3 r hr)⟩

/-- A world for the examples: one function `f` that takes a number and one method `m` that takes a
number; functions return the number 7, methods return a number in memory; there is a variable `x`. -/
def demoWorld : World Unit where
  target _ := demoTarget (demoMem 16 [5, 0, 0, 0, 0, 0, 0, 0])
  frame _ := some 64
  variableAt _ _ n := .ok (if n = chars! "x" then some (some (16, .mk none (.uint 8))) else none)
  methods _ := .ok [⟨chars! "m", 512, [.mk none (.uint 8)], some (.mk none (.uint 8))⟩]
  functions _ := .ok [⟨chars! "f", 4096, [.mk none (.uint 8)], none⟩]
  execute e s := match e with
    | .executeMethod .. => (some (.complex 16 8 (chars! "u64")), s)
    | _ => (some (.simple 7 (chars! "u64")), s)
  remote := ⟨fun _ s => (none, s), fun _ _ s => (none, s), fun _ _ _ => none, fun _ => []⟩
  isFloat _ := true
  stack := 4

/-- The hypotheses are met by `x.m(x.m(1)).m(x)`, and three calls are executed. -/
def demoChain : Expr :=
  .method (.method (.var (chars! "x")) (chars! "m") [.method (.var (chars! "x")) (chars! "m") [.num 1]])
    (chars! "m") [.var (chars! "x")]

theorem demo_variable (s : St Unit) : ∃ s', variableRef demoWorld (chars! "x") s = (.ok (16, .mk none (.uint 8)), s') := by
  unfold variableRef getPc
  cases h : s.pc with
  | some pc => exact ⟨s, by simp [Ev.bind, h, Ev.reading, Ev.lift, demoWorld]⟩
  | none => exact ⟨{ s with pc := some 64 }, by simp [Ev.bind, h, Ev.reading, Ev.lift, demoWorld]⟩

example : Once demoWorld demoChain := by
  refine ⟨⟨trivial, .inr ⟨⟨trivial, .inl trivial, trivial⟩, ?_⟩, trivial⟩, .inl trivial, trivial⟩
  intro s
  obtain ⟨s', h⟩ := demo_variable s
  have hx : toRef demoWorld (.var (chars! "x")) = variableRef demoWorld (chars! "x") := rfl
  show (((toRef demoWorld (.var (chars! "x"))).bind fun p =>
    methodRef demoWorld p (chars! "m") (convertArgs demoWorld [.num 1])) s).1 ≠ _
  rw [hx]
  unfold Ev.bind
  rw [h]
  simp [methodRef, syntheticMethods, TypeDef.layout, executeMethod, Ev.bind, Ev.lift, demoWorld, Res.ofOption,
    convertArgs, convertArg, sizeOpt, TypeDef.size, Layout.size, execute, callRef]

example : (evaluate demoWorld demoChain (.new ())).2.calls.length = 3 := by
  rfl

/-- The call `f(f(...f(1)))`, `n` deep. -/
def nest (f : Str) : Nat → Expr
  | 0 => .num 1
  | n + 1 => .call f [nest f n]

/-- C37 is false of the code: an argument that is itself a call of a function returning a plain number is
executed again after its first execution has succeeded, so that `n` nested calls are executed `2^n - 1`
times in all. -/
theorem C37_nested_calls_fail {σ : Type} (W : World σ) (f : Str) (c : Callee) (fs : List Callee) (v : Nat) (ty : Str)
    (hf : W.functions f = .ok (c :: fs)) (ha : c.address ≠ 0) (hp : c.params.length = 1)
    (hr : ∃ sz, sizeOpt c.ret = .ok sz)
    (hx : ∀ addr as sz s, (W.execute (.executeFunction addr as sz) s).1 = some (.simple v ty)) (hv : ∃ a, fallbackArg W (natStr v, ty) = .ok a)
    (n : Nat) (s : St σ) :
    (evaluate W (nest f (n + 1)) s).1 = .ok (natStr v, ty) ∧
      (evaluate W (nest f (n + 1)) s).2.calls.length + 1 = s.calls.length + 2 ^ (n + 1) := by
  obtain ⟨sz, hr⟩ := hr
  obtain ⟨ar, hv⟩ := hv
  -- one call whose argument is converted with `k` executions
  have step : ∀ (args : List TypeDef → Ev σ (List Arg)) (k : Nat),
      (∀ s, ∃ as s', args c.params s = (.ok as, s') ∧ s'.calls.length = s.calls.length + k) →
      ∀ s, ∃ s', executeFunction W f 1 args s = (.ok (.simple v ty, c.ret), s') ∧
        s'.calls.length = s.calls.length + k + 1 := by
    intro args k hargs s
    obtain ⟨as, s', h1, h2⟩ := hargs s
    have hxx := hx c.address as sz s'.proc
    cases hw : W.execute (.executeFunction c.address as sz) s'.proc with
    | mk r p =>
      rw [hw] at hxx
      simp only at hxx
      subst hxx
      refine ⟨{ s' with calls := s'.calls ++ [.executeFunction c.address as sz], proc := p }, ?_, ?_⟩
      · simp [executeFunction, Ev.bind, Ev.lift, hf, Res.ofOption, ha, hp, h1, hr, execute, hw]
      · simp [h2]
  have main : ∀ n, ∀ s, (∃ as s', convertArgs W [nest f n] c.params s = (.ok as, s') ∧
      s'.calls.length + 2 = s.calls.length + 2 ^ (n + 1)) := by
    intro n
    induction n with
    | zero =>
      intro s
      exact ⟨[⟨natStr 1, .integer, none⟩], s, by simp [nest, convertArgs, convertArg, Ev.bind, Ev.lift], by simp⟩
    | succ n ih =>
      have hargs : ∀ s, ∃ as s', convertArgs W [nest f n] c.params s = (.ok as, s') ∧
          s'.calls.length = s.calls.length + (2 ^ (n + 1) - 2) := by
        intro s
        obtain ⟨as, s', h1, h2⟩ := ih s
        have : 2 ≤ 2 ^ (n + 1) := by
          have := Nat.one_le_two_pow (n := n)
          rw [Nat.pow_succ]; omega
        exact ⟨as, s', h1, by omega⟩
      intro s
      obtain ⟨s1, h1, h2⟩ := step _ _ hargs s
      obtain ⟨s2, h3, h4⟩ := step _ _ hargs s1
      refine ⟨[ar], s2, ?_, ?_⟩
      · have e1 : toRef W (nest f (n + 1)) = (executeFunction W f 1 (convertArgs W [nest f n])).bind
            fun r => .lift (callRef r) := rfl
        have e2 : evaluate W (nest f (n + 1)) = (executeFunction W f 1 (convertArgs W [nest f n])).bind
            (callShown W) := rfl
        have e3 : convertArgs W [nest f (n + 1)] c.params = (((toRef W (nest f (n + 1))).orElse
            (fun p => Ev.lift (refArg p)) ((evaluate W (nest f (n + 1))).bind fun r => .lift (fallbackArg W r))).bind
            fun a => (Ev.lift (.ok [])).bind fun as => .lift (.ok (a :: as))) := rfl
        rw [e3, e1, e2]
        generalize convertArgs W [nest f n] = args at h1 h3
        simp only [Ev.bind, Ev.orElse, h1, callRef, Ev.lift, h3, callShown, hv]
      · have : 2 ≤ 2 ^ (n + 1) := by
          have := Nat.one_le_two_pow (n := n)
          rw [Nat.pow_succ]; omega
        rw [Nat.pow_succ 2 (n + 1)]
        omega
  have hargs : ∀ s, ∃ as s', convertArgs W [nest f n] c.params s = (.ok as, s') ∧
      s'.calls.length = s.calls.length + (2 ^ (n + 1) - 2) := by
    intro s
    obtain ⟨as, s', h1, h2⟩ := main n s
    have : 2 ≤ 2 ^ (n + 1) := by
      have := Nat.one_le_two_pow (n := n)
      rw [Nat.pow_succ]; omega
    exact ⟨as, s', h1, by omega⟩
  obtain ⟨s1, h1, h2⟩ := step _ _ hargs s
  have e2 : evaluate W (nest f (n + 1)) = (executeFunction W f 1 (convertArgs W [nest f n])).bind (callShown W) := rfl
  rw [e2]
  unfold Ev.bind
  rw [h1]
  have : 2 ≤ 2 ^ (n + 1) := by
    have := Nat.one_le_two_pow (n := n)
    rw [Nat.pow_succ]; omega
  simp only [callShown, Ev.lift]
  exact ⟨trivial, by omega⟩

/-- The hypotheses are met: three nested calls are executed seven times. -/
example : (evaluate demoWorld (nest (chars! "f") 3) (.new ())).2.calls.length + 1 = 0 + 2 ^ 3 :=
  (C37_nested_calls_fail demoWorld (chars! "f") _ [] 7 (chars! "u64") rfl (by simp) rfl ⟨none, rfl⟩
    (fun _ _ _ _ => rfl)
    ⟨_, rfl⟩ 2 (.new ())).2

/-! ### C48: parentheses -/

/-- C48 for the whole of an expression, and for an index or a key: parentheses change nothing. Missing:
`C48_inner_fails`. -/
theorem C48_outer_partial {σ : Type} (W : World σ) (e b : Expr) :
    evaluate W (.paren e) = evaluate W e ∧ evaluate W (.index b (.paren e)) = evaluate W (.index b e) :=
  ⟨rfl, rfl⟩

/-- C48 is false of the code everywhere else: an expression in parentheses has no fields, no elements and
no methods, and is no argument, whatever it is; nothing is even looked at. -/
theorem C48_inner_fails {σ : Type} (W : World σ) (e i : Expr) (f : Str) (as : List Expr) (s : St σ)
    (t : Option TypeDef) :
    evaluate W (.field (.paren e) f) s = (.err, s) ∧ evaluate W (.index (.paren e) i) s = (.err, s) ∧
      evaluate W (.method (.paren e) f as) s = (.err, s) ∧
      convertArg W (.paren e) t (toRef W (.paren e)) (evaluate W (.paren e)) s = (.err, s) :=
  ⟨rfl, rfl, rfl, rfl⟩

/-- For instance `x.m(1)` has a value and `(x).m(1)` has not. -/
example : (∃ r, (evaluate demoWorld (.method (.var (chars! "x")) (chars! "m") [.num 1]) (.new ())).1 = .ok r) ∧
    (evaluate demoWorld (.method (.paren (.var (chars! "x"))) (chars! "m") [.num 1]) (.new ())).1 = .err :=
  ⟨⟨_, rfl⟩, rfl⟩

/-! ### C49: no side effects without calls -/

/-- C49: evaluating an expression without calls executes nothing in the debugged process and leaves it as
it is, whatever the result. -/
theorem C49_no_side_effects {σ : Type} (W : World σ) (e : Expr) (h : CallFree e) (s : St σ) :
    (evaluate W e s).2.calls = s.calls ∧ (evaluate W e s).2.proc = s.proc :=
  (quiet_callFree W e h).2.2.2 s

example : CallFree (.index (.field (.var (chars! "a")) (chars! "b")) (.paren (.var (chars! "i")))) := by
  simp [CallFree]

/-! ### C50: indexes and keys -/

/-- Reading a value from memory follows the pointers and references at its top. -/
theorem readMem_not_pointer (T : Target) (fuel a : Nat) (t : TypeDef) (b : Nat) (u : TypeDef) :
    readMem T fuel a t ≠ .ok (.pointer b u) := by
  have hmap : ∀ (f : Str → Str) (v : Value), v.mapType f = .pointer b u → v = .pointer b u := by
    intro f v h
    cases v <;> simp_all [Value.mapType]
  have hwrap : ∀ (p : Str) (x : Res Value), x ≠ .ok (.pointer b u) →
      (x.bind fun v => .ok (v.wrapType p)) ≠ .ok (.pointer b u) := by
    intro p x hx h
    cases x with
    | ok v => exact hx (by simp only [Res.bind_ok, Res.ok.injEq] at h; rw [hmap _ _ h])
    | err => simp at h
    | panic => simp at h
  have hpre : ∀ (p : Str) (x : Res Value), x ≠ .ok (.pointer b u) →
      (x.bind fun v => .ok (v.prefixType p)) ≠ .ok (.pointer b u) := by
    intro p x hx h
    cases x with
    | ok v => exact hx (by simp only [Res.bind_ok, Res.ok.injEq] at h; rw [hmap _ _ h])
    | err => simp at h
    | panic => simp at h
  have hb : ∀ {γ : Type} (x : Res γ) (f : γ → Res Value), (∀ g, f g ≠ .ok (.pointer b u)) →
      x.bind f ≠ .ok (.pointer b u) := by
    intro γ x f hf h
    cases x with
    | ok v => exact hf _ h
    | err => simp at h
    | panic => simp at h
  induction fuel generalizing a t with
  | zero => simp [readMem]
  | succ n ih =>
    obtain ⟨loc, l⟩ := t
    rw [readMem]
    cases l with
    | bool =>
      refine hb _ _ fun bs => ?_
      cases bs <;> simp
    | char =>
      refine hb _ _ fun bs => ?_
      split <;> simp
    | float s =>
      refine hb _ _ fun bs => ?_
      split
      · split <;> simp
      · simp
    | int s =>
      refine hb _ _ fun bs => ?_
      split
      · split <;> simp
      · simp
    | uint s =>
      refine hb _ _ fun bs => ?_
      split
      · split <;> simp
      · simp
    | function => simp [readLayout]
    | never => simp [readLayout]
    | str => simp [readLayout]
    | tuple => simp [readLayout]
    | unit => simp [readLayout]
    | result => simp [readLayout]
    | array => exact hb _ _ fun _ => hb _ _ fun _ => hb _ _ fun _ => hb _ _ fun _ => by simp
    | pointer => exact hb _ _ fun _ => hpre _ _ (ih _ _)
    | reference => exact hb _ _ fun _ => hpre _ _ (ih _ _)
    | slice =>
      exact hb _ _ fun _ => hb _ _ fun _ => hb _ _ fun _ => hb _ _ fun _ => hb _ _ fun _ => hb _ _ fun _ =>
        hb _ _ fun _ => hb _ _ fun _ => by simp
    | strSlice =>
      exact hb _ _ fun _ => hb _ _ fun _ => hb _ _ fun _ => hb _ _ fun _ => hb _ _ fun _ => by simp
    | option =>
      refine hb _ _ fun _ => hb _ _ fun bs => ?_
      split
      · simp
      · split
        · simp [Value.wrapType, Value.mapType]
        · exact hb _ _ fun _ => hwrap _ _ (ih _ _)
    | vec => exact hb _ _ fun _ => hb _ _ fun _ => hb _ _ fun _ => hb _ _ fun _ => hb _ _ fun _ => by simp
    | string =>
      exact hb _ _ fun _ => hb _ _ fun _ => hb _ _ fun _ => hb _ _ fun _ => hb _ _ fun _ => by simp
    | map => exact hb _ _ fun _ => by simp
    | smartPtr v =>
      cases v
      all_goals first
        | exact hb _ _ fun _ => hwrap _ _ (ih _ _)
        | exact hb _ _ fun _ => hb _ _ fun _ => hb _ _ fun _ => hwrap _ _ (ih _ _)
        | simp [readLayout]
    | struct => exact hb _ _ fun _ => by simp
    | enum name =>
      refine hb _ _ fun _ => hb _ _ fun _ => hb _ _ fun v => ?_
      intro h
      cases hr : readMem T n a v.2 with
      | err => rw [hr] at h; simp at h
      | panic => rw [hr] at h; simp at h
      | ok w =>
        rw [hr] at h
        simp only [Res.bind_ok, Res.ok.injEq] at h
        cases w with
        | struct t fs =>
          simp only [reformatVariant] at h
          split at h
          · simp at h
          · split at h <;> simp at h
        | pointer c w =>
          simp only [reformatVariant] at h
          exact ih a v.2 (by rw [hr, h])
        | _ => simp [reformatVariant] at h
    | cenum => exact hb _ _ fun _ => hb _ _ fun _ => by simp
    | «alias» => exact hb _ _ fun _ => ih _ _

/-- The number a scalar is read as, when an expression is used as an index. -/
theorem readInt_eq (T : Target) (stack n : Nat) (p : Ptr) :
    readInt T stack (n + 1) p = (readMem T stack p.1 p.2).bind numericValue := by
  unfold readInt
  cases h : readMem T stack p.1 p.2 with
  | err => rfl
  | panic => rfl
  | ok v =>
    cases v with
    | pointer a t => exact (readMem_not_pointer _ _ _ _ _ _ h).elim
    | _ => rfl

theorem readString_eq (T : Target) (stack n : Nat) (p : Ptr) :
    readString T stack (n + 1) p = (readMem T stack p.1 p.2).bind fun v =>
      match v with
      | .scalar _ x => .ok (trimQuotes x)
      | _ => .err := by
  unfold readString
  cases h : readMem T stack p.1 p.2 with
  | err => rfl
  | panic => rfl
  | ok v =>
    cases v with
    | pointer a t => exact (readMem_not_pointer _ _ _ _ _ _ h).elim
    | _ => rfl

/-- C50, termination: reading an index or a key takes one read of the memory, however the reference to it
is made (the endless recursion of `read_string_from_memory` on a pointer is never reached). -/
theorem C50_terminates (T : Target) (stack n : Nat) (p : Ptr) (h : (readMem T stack p.1 p.2).NoPanic) :
    (readInt T stack (n + 1) p).NoPanic ∧ (readString T stack (n + 1) p).NoPanic := by
  rw [readInt_eq, readString_eq]
  constructor
  · refine noPanic_bind h fun v _ => ?_
    cases v with
    | scalar t x =>
      simp only [numericValue]
      split
      · trivial
      · split
        · cases parseU64 16 _ <;> trivial
        · trivial
    | _ => trivial
  · refine noPanic_bind h fun v _ => ?_
    cases v <;> trivial

/-- C50 for keys: indexing a map by a variable that holds a string is indexing it by that string. -/
theorem C50_variable_key {σ : Type} (W : World σ) (hst : W.stack ≠ 0) (b : Expr) (x : Str) (s s1 s2 : St σ) (p q : Ptr)
    (hb : toRef W b s = (.ok p, s1)) (hp : isMap p.2 = true) (hx : variableRef W x s1 = (.ok q, s2))
    (ty text : Str) (hq : readMem (W.target s1.proc) W.stack q.1 q.2 = .ok (.scalar ty (quoted text)))
    (hends : trimQuotes (quoted text) = text) :
    (evaluate W (.index b (.var x)) s).1 = (evaluate W (.index b (.str text)) s).1 := by
  obtain ⟨n, hn⟩ := Nat.exists_eq_succ_of_ne_zero hst
  have hproc : s2.proc = s1.proc := by
    have := (quiet_variableRef W x s1).2
    rw [hx] at this
    exact this
  have e1 : evaluate W (.index b (.var x)) = (toRef W b).bind fun p => (indexRef W p
    ((variableRef W x).bind fun p => .reading fun s => readString (W.target s) W.stack W.stack p) (toInt W (.var x))).bind
      (pointerToResult W) := rfl
  have e2 : evaluate W (.index b (.str text)) = (toRef W b).bind fun p => (indexRef W p
    (.lift (.ok text)) (toInt W (.str text))).bind (pointerToResult W) := rfl
  have hk : readString (W.target s1.proc) W.stack W.stack q = .ok text := by
    conv => lhs; arg 3; rw [hn]
    rw [readString_eq, hq]
    simp [hends]
  rw [e1, e2]
  unfold Ev.bind
  rw [hb]
  simp only [indexRef, hp, if_true, Ev.bind, hx, Ev.reading, hk, Ev.lift, hproc]
  cases indexMap (W.target s1.proc) W.stack p.1 p.2 (.scalar (chars! "String") text) with
  | ok r => simp [pointerToResult, Ev.reading, hproc]
  | err => rfl
  | panic => rfl

/-- C50 for positions: indexing a sequence by a variable that holds a number is indexing it by that
number. -/
theorem C50_variable_index {σ : Type} (W : World σ) (hst : W.stack ≠ 0) (b : Expr) (x : Str) (s s1 s2 : St σ) (p q : Ptr)
    (hb : toRef W b s = (.ok p, s1)) (hp : isMap p.2 = false) (hx : variableRef W x s1 = (.ok q, s2))
    (ty text : Str) (i : Nat) (hq : readMem (W.target s1.proc) W.stack q.1 q.2 = .ok (.scalar ty text))
    (hi : parseU64 10 text = some i) :
    (evaluate W (.index b (.var x)) s).1 = (evaluate W (.index b (.num i)) s).1 := by
  obtain ⟨n, hn⟩ := Nat.exists_eq_succ_of_ne_zero hst
  have hproc : s2.proc = s1.proc := by
    have := (quiet_variableRef W x s1).2
    rw [hx] at this
    exact this
  have e1 : evaluate W (.index b (.var x)) = (toRef W b).bind fun p => (indexRef W p (toStr W (.var x))
    ((variableRef W x).bind fun p => .reading fun s => readInt (W.target s) W.stack W.stack p)).bind
      (pointerToResult W) := rfl
  have e2 : evaluate W (.index b (.num i)) = (toRef W b).bind fun p => (indexRef W p (toStr W (.num i))
    (.lift (.ok i))).bind (pointerToResult W) := rfl
  have hk : readInt (W.target s1.proc) W.stack W.stack q = .ok i := by
    conv => lhs; arg 3; rw [hn]
    rw [readInt_eq, hq]
    simp [numericValue, hi]
  rw [e1, e2]
  unfold Ev.bind
  rw [hb]
  simp only [indexRef, hp, Bool.false_eq_true, if_false, Ev.bind, hx, Ev.reading, hk, Ev.lift, hproc]
  cases indexSeq (W.target s1.proc) W.stack p.1 p.2 i with
  | ok r => simp [pointerToResult, Ev.reading, hproc]
  | err => rfl
  | panic => rfl

/-- An array of two numbers and a position, at addresses 16, 24 and 32. -/
def arrayWorld : World Unit :=
  { demoWorld with
    target := fun _ => demoTarget (demoMem 16 ([5, 0, 0, 0, 0, 0, 0, 0] ++ [9, 0, 0, 0, 0, 0, 0, 0] ++ [1, 0, 0, 0, 0, 0, 0, 0])),
    variableAt := fun _ _ n => .ok (if n = chars! "i" then some (some (32, .mk none (.uint 8)))
      else some (some (16, .mk none (.array (.mk none (.uint 8)) 2)))) }

example : (evaluate arrayWorld (.index (.var (chars! "a")) (.var (chars! "i"))) (.new ())).1 =
    (evaluate arrayWorld (.index (.var (chars! "a")) (.num 1)) (.new ())).1 :=
  C50_variable_index arrayWorld (by simp [arrayWorld, demoWorld]) (.var (chars! "a")) (chars! "i") _ _ _ _ _ rfl rfl rfl
    (chars! "u64") (chars! "1") 1 rfl rfl

example : (evaluate arrayWorld (.index (.var (chars! "a")) (.num 1)) (.new ())).1 = .ok (chars! "9", chars! "u64") := by
  rfl

/-- A map, and a string "k" at address 16 (its length, the address 32 of its text, its text). -/
def mapWorld : World Unit :=
  { demoWorld with
    target := fun _ => demoTarget (demoMem 16 ([1, 0, 0, 0, 0, 0, 0, 0] ++ [32, 0, 0, 0, 0, 0, 0, 0] ++ [107])),
    variableAt := fun _ _ n => .ok (if n = chars! "x" then some (some (16, .mk none (.string 0 8 16 (.mk none (.uint 1)))))
      else some (some (64, .mk none (.map (.hashMap 0 8 16 16 0 8) (.mk none (.uint 8)) (.mk none (.uint 8)))))) }

example : (evaluate mapWorld (.index (.var (chars! "m")) (.var (chars! "x"))) (.new ())).1 =
    (evaluate mapWorld (.index (.var (chars! "m")) (.str (chars! "k"))) (.new ())).1 :=
  C50_variable_key mapWorld (by simp [mapWorld, demoWorld]) (.var (chars! "m")) (chars! "x") _ _ _ _ _ rfl rfl rfl
    (chars! "String") (chars! "k") rfl rfl

/-- C50 is false of the code for number literals: a map is never indexed by a number, even when its keys
are numbers (a variable holding the number does work). -/
theorem C50_numeric_key_fails {σ : Type} (W : World σ) (b : Expr) (n : Nat) (s s1 : St σ) (p : Ptr)
    (hb : toRef W b s = (.ok p, s1)) (hp : isMap p.2 = true) : evaluate W (.index b (.num n)) s = (.err, s1) := by
  have e2 : evaluate W (.index b (.num n)) = (toRef W b).bind fun p => (indexRef W p (.lift .err)
    (.lift (.ok n))).bind (pointerToResult W) := rfl
  rw [e2]
  unfold Ev.bind
  rw [hb]
  simp [indexRef, hp, Ev.bind, Ev.lift]

/-! ### C51: one frame per expression -/

theorem pc_lift {σ α : Type} (r : Res α) : KeepsPc (Ev.lift r : Ev σ α) := fun _ _ h => h
theorem pc_reading {σ α : Type} (f : σ → Res α) : KeepsPc (Ev.reading f) := fun _ _ h => h

theorem pc_bind {σ α β : Type} {x : Ev σ α} {f : α → Ev σ β} (hx : KeepsPc x) (hf : ∀ a, KeepsPc (f a)) :
    KeepsPc (x.bind f) := by
  intro s pc hs
  have h := hx s pc hs
  unfold Ev.bind
  cases hxs : x s with
  | mk r s' =>
    rw [hxs] at h
    cases r with
    | ok a => exact hf a s' pc h
    | err => exact h
    | panic => exact h

theorem pc_orElse {σ α β : Type} {x : Ev σ α} {f : α → Ev σ β} {g : Ev σ β} (hx : KeepsPc x) (hf : ∀ a, KeepsPc (f a))
    (hg : KeepsPc g) : KeepsPc (x.orElse f g) := by
  intro s pc hs
  have h := hx s pc hs
  unfold Ev.orElse
  cases hxs : x s with
  | mk r s' =>
    rw [hxs] at h
    cases r with
    | ok a => exact hf a s' pc h
    | err => exact hg s' pc h
    | panic => exact h

theorem pc_variableRef {σ : Type} (W : World σ) (n : Str) : KeepsPc (variableRef W n) := by
  refine pc_bind ?_ fun _ => pc_bind (pc_reading _) fun _ => pc_lift _
  intro s pc h
  simp [getPc, h]

theorem pc_indexRef {σ : Type} (W : World σ) (p : Ptr) {k : Ev σ Str} {i : Ev σ Nat} (hk : KeepsPc k) (hi : KeepsPc i) :
    KeepsPc (indexRef W p k i) := by
  unfold indexRef
  split
  · exact pc_bind hk fun _ => pc_reading _
  · exact pc_bind hi fun _ => pc_reading _

theorem pc_execute {σ : Type} (W : World σ) (e : Event) : KeepsPc (execute W e) := by
  intro s pc h
  unfold execute
  split <;> exact h

theorem pc_executeMethod {σ : Type} (W : World σ) (p : Ptr) (m : Str) {args : List TypeDef → Ev σ (List Arg)}
    (ha : ∀ ts, KeepsPc (args ts)) : KeepsPc (executeMethod W p m args) := by
  refine pc_bind (pc_lift _) fun ms => pc_bind (pc_lift _) fun c => ?_
  split
  · exact pc_lift _
  · exact pc_bind (ha _) fun _ => pc_bind (pc_lift _) fun _ => pc_bind (pc_execute W _) fun _ => pc_lift _

theorem pc_executeFunction {σ : Type} (W : World σ) (f : Str) (n : Nat) {args : List TypeDef → Ev σ (List Arg)}
    (ha : ∀ ts, KeepsPc (args ts)) : KeepsPc (executeFunction W f n args) := by
  refine pc_bind (pc_lift _) fun ms => pc_bind (pc_lift _) fun c => ?_
  split
  · exact pc_lift _
  · split
    · exact pc_lift _
    · exact pc_bind (ha _) fun _ => pc_bind (pc_lift _) fun _ => pc_bind (pc_execute W _) fun _ => pc_lift _

theorem pc_callShown {σ : Type} (W : World σ) (r : CallResult × Option TypeDef) : KeepsPc (callShown W r) := by
  unfold callShown
  split
  · exact pc_lift _
  · exact pc_reading _
  · exact pc_lift _

theorem pc_convertArg {σ : Type} (W : World σ) (e : Expr) (t : Option TypeDef) {ref : Ev σ Ptr} {val : Ev σ Shown}
    (hr : KeepsPc ref) (hv : KeepsPc val) : KeepsPc (convertArg W e t ref val) := by
  have ho : KeepsPc (ref.orElse (fun p => Ev.lift (refArg p)) (val.bind fun r => .lift (fallbackArg W r))) :=
    pc_orElse hr (fun _ => pc_lift _) (pc_bind hv fun _ => pc_lift _)
  unfold convertArg
  split
  · exact pc_lift _
  · intro s pc h
    unfold stringArg
    split
    · exact h
    · split <;> exact h
  · exact ho
  · exact ho
  · exact ho
  · exact ho
  · exact ho
  · exact pc_lift _

mutual
theorem pc_all {σ : Type} (W : World σ) (e : Expr) :
    KeepsPc (toRef W e) ∧ KeepsPc (toInt W e) ∧ KeepsPc (toStr W e) ∧ KeepsPc (evaluate W e) := by
  match e with
  | .var n =>
    have hv := pc_variableRef W n
    exact ⟨hv, pc_bind hv fun _ => pc_reading _, pc_bind hv fun _ => pc_reading _, pc_bind hv fun _ => pc_reading _⟩
  | .path _ => exact ⟨pc_lift _, pc_lift _, pc_lift _, pc_lift _⟩
  | .generic _ _ => exact ⟨pc_lift _, pc_lift _, pc_lift _, pc_lift _⟩
  | .field b f =>
    have hb := (pc_all W b).1
    exact ⟨pc_bind hb fun _ => pc_lift _,
      pc_bind hb fun _ => pc_bind (pc_lift _) fun _ => pc_reading _,
      pc_bind hb fun _ => pc_bind (pc_lift _) fun _ => pc_reading _,
      pc_bind hb fun _ => pc_bind (pc_lift _) fun _ => pc_reading _⟩
  | .index b i =>
    have hb := (pc_all W b).1
    have hi := pc_all W i
    have hr := fun p => pc_indexRef W p hi.2.2.1 hi.2.1
    exact ⟨pc_bind hb fun _ => hr _,
      pc_bind hb fun _ => pc_bind (hr _) fun _ => pc_reading _,
      pc_bind hb fun _ => pc_bind (hr _) fun _ => pc_reading _,
      pc_bind hb fun _ => pc_bind (hr _) fun _ => pc_reading _⟩
  | .deref _ => exact ⟨pc_lift _, pc_lift _, pc_lift _, pc_lift _⟩
  | .addrOf _ _ => exact ⟨pc_lift _, pc_lift _, pc_lift _, pc_lift _⟩
  | .num _ => exact ⟨pc_lift _, pc_lift _, pc_lift _, pc_lift _⟩
  | .str _ => exact ⟨pc_lift _, pc_lift _, pc_lift _, pc_lift _⟩
  | .paren e =>
    have he := pc_all W e
    exact ⟨pc_lift _, he.2.1, he.2.2.1, he.2.2.2⟩
  | .method b m as =>
    have hb := (pc_all W b).1
    have ha := pc_args W as
    refine ⟨pc_bind hb fun p => ?_, pc_lift _, pc_lift _, pc_bind hb fun p => ?_⟩
    · unfold methodRef
      split
      · exact pc_lift _
      · exact pc_bind (pc_executeMethod W p m ha) fun _ => pc_lift _
    · unfold methodShown
      split
      · split
        · exact pc_lift _
        · exact pc_reading _
      · exact pc_bind (pc_executeMethod W p m ha) fun _ => pc_callShown W _
  | .call f as =>
    have ha := pc_args W as
    exact ⟨pc_bind (pc_executeFunction W f _ ha) fun _ => pc_lift _, pc_lift _, pc_lift _,
      pc_bind (pc_executeFunction W f _ ha) fun _ => pc_callShown W _⟩
termination_by sizeOf e
theorem pc_args {σ : Type} (W : World σ) (es : List Expr) (ts : List TypeDef) : KeepsPc (convertArgs W es ts) := by
  match es with
  | [] => exact pc_lift _
  | e :: es =>
    have he := pc_all W e
    exact pc_bind (pc_convertArg W e _ he.1 he.2.2.2) fun _ => pc_bind (pc_args W es _) fun _ => pc_lift _
termination_by sizeOf es
end

/-- C51: once the program counter is known it stays the same for the rest of the command, whatever is
evaluated and executed, and every variable is looked up at it; the debugger's idea of the current frame is
not asked for again. -/
theorem C51_one_frame {σ : Type} (W : World σ) (e : Expr) (s : St σ) (pc : Nat) (hs : s.pc = some pc) (x : Str) :
    (evaluate W e s).2.pc = some pc ∧
      (variableRef W x (evaluate W e s).2).1 =
        ((W.variableAt (evaluate W e s).2.proc pc x).bind fun v =>
          match v with
          | some (some p) => .ok p
          | _ => .err) := by
  have h := (pc_all W e).2.2.2 s pc hs
  refine ⟨h, ?_⟩
  simp only [variableRef, getPc, Ev.bind, h, Ev.reading, Ev.lift]
  cases W.variableAt (evaluate W e s).2.proc pc x <;> rfl

/-- C51: the first variable of an expression fixes it, to the frame the debugger reports at that moment. -/
theorem C51_first_variable {σ : Type} (W : World σ) (x : Str) (s : St σ) (pc : Nat) (hs : s.pc = none)
    (hf : W.frame s.proc = some pc) : (variableRef W x s).2.pc = some pc := by
  simp only [variableRef, getPc, Ev.bind, hs, hf, Ev.reading, Ev.lift]
  cases W.variableAt s.proc pc x <;> rfl

example : (evaluate demoWorld (.var (chars! "x")) (.new ())).2.pc = some 64 := rfl

/-! ### C52: unreadable parts -/

theorem expandFields_err {T : Target} {stack d : Nat} (fs : List (Str × Value))
    (hp : ∀ k v, (k, v) ∈ fs → (expand T stack d v).NoPanic) (h : ∃ k v, (k, v) ∈ fs ∧ expand T stack d v = .err) :
    expandFields (expand T stack d) fs = .err := by
  induction fs with
  | nil => obtain ⟨k, v, h, _⟩ := h; simp at h
  | cons f fs ih =>
    obtain ⟨k, v⟩ := f
    rw [expandFields]
    have h1 := hp k v (by simp)
    cases hv : expand T stack d v with
    | panic => rw [hv] at h1; exact h1.elim
    | err => rfl
    | ok w =>
      obtain ⟨k', v', hm, he⟩ := h
      have : (k', v') ∈ fs := by
        rcases List.mem_cons.1 hm with hm | hm
        · simp only [Prod.mk.injEq] at hm
          rw [hm.2, hv] at he
          simp at he
        · exact hm
      rw [ih (fun k v hkv => hp k v (by simp [hkv])) ⟨k', v', this, he⟩]
      rfl

/-- C52 is false of the code: one field that cannot be read hides the whole struct, however many others
can be read. -/
theorem C52_one_bad_field_fails {σ : Type} (W : World σ) (x : Str) (s s1 : St σ) (p : Ptr) (ty : Str)
    (fs : List (Str × Value)) (hx : variableRef W x s = (.ok p, s1))
    (hr : readMem (W.target s1.proc) W.stack p.1 p.2 = .ok (.struct ty fs))
    (hp : ∀ k v, (k, v) ∈ fs → (expand (W.target s1.proc) W.stack 7 v).NoPanic)
    (hbad : ∃ k a t, (k, Value.pointer a t) ∈ fs ∧ readMem (W.target s1.proc) W.stack a t = .err) :
    evaluate W (.var x) s = (.err, s1) := by
  obtain ⟨k, a, t, hm, he⟩ := hbad
  have e1 : evaluate W (.var x) = (variableRef W x).bind (pointerToResult W) := rfl
  have h2 : expandFields (expand (W.target s1.proc) W.stack 7) fs = .err :=
    expandFields_err fs hp ⟨k, _, hm, by simp [expand, he]⟩
  rw [e1]
  unfold Ev.bind
  rw [hx]
  simp only [pointerToResult, Ev.reading, hr, Res.bind_ok]
  rw [expand]
  simp [h2]

/-- A struct of two numbers of which only the first is in readable memory. -/
def torn : World Unit :=
  { demoWorld with
    variableAt := fun _ _ _ => .ok (some (some (16, .mk none (.struct (chars! "S") 16 8
      (.cons (chars! "a") 0 (.mk none (.uint 8)) (.cons (chars! "b") 8 (.mk none (.uint 8)) .nil)))))) }

example : (evaluate torn (.field (.var (chars! "s")) (chars! "a")) (.new ())).1 = .ok (chars! "5", chars! "u64") ∧
    (evaluate torn (.var (chars! "s")) (.new ())).1 = .err := by
  refine ⟨rfl, ?_⟩
  have hr : readMem (torn.target ()) torn.stack 16 (.mk none (.struct (chars! "S") 16 8
      (.cons (chars! "a") 0 (.mk none (.uint 8)) (.cons (chars! "b") 8 (.mk none (.uint 8)) .nil)))) =
    .ok (.struct (chars! "S") [(chars! "a", .pointer 16 (.mk none (.uint 8))), (chars! "b", .pointer 24 (.mk none (.uint 8)))]) := rfl
  rw [C52_one_bad_field_fails torn (chars! "s") (.new ()) _ _ (chars! "S") _ rfl hr
    (by
      intro k v h
      simp only [List.mem_cons, Prod.mk.injEq, List.not_mem_nil, or_false] at h
      rcases h with ⟨rfl, rfl⟩ | ⟨rfl, rfl⟩
      · exact trivial
      · exact trivial) ⟨chars! "b", 24, .mk none (.uint 8), by simp, rfl⟩]

end Rudy.Eval
