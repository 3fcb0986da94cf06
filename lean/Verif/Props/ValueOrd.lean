import Verif.Model.Value
/-
Property theorems C19: the order of displayed values.
-/
namespace Rudy.Data
open Rudy Rudy.Layout

set_option linter.unusedSimpArgs false
set_option linter.unusedVariables false

/-- How three comparisons `x = cmp a b`, `y = cmp b c`, `z = cmp a c` fit together in a total
preorder. -/
def Tri (x y z : Ordering) : Prop :=
  (x = .lt → y ≠ .gt → z = .lt) ∧ (x = .eq → z = y) ∧ (x = .gt → y ≠ .lt → z = .gt)

theorem Tri.then {x y z x' y' z' : Ordering} (h : Tri x y z) (h' : Tri x' y' z') :
    Tri (x.then x') (y.then y') (z.then z') := by
  revert h h'
  unfold Tri
  cases x <;> cases y <;> cases z <;> cases x' <;> cases y' <;> cases z' <;>
    simp [Ordering.then]

theorem Tri.compare {α : Type} [Ord α] [Std.TransOrd α] (a b c : α) :
    Tri (compare a b) (compare b c) (compare a c) := by
  refine ⟨?_, ?_, ?_⟩
  · intro h1 h2
    exact Std.TransCmp.lt_of_lt_of_isLE h1 (by cases h : Ord.compare b c <;> simp_all)
  · intro h1; exact Std.TransCmp.congr_left h1
  · intro h1 h2
    have e1 : Ord.compare b a = .lt := by rw [Std.OrientedCmp.eq_swap (cmp := Ord.compare), h1]; rfl
    have e2 : (Ord.compare c b).isLE := by
      rw [Std.OrientedCmp.eq_swap (cmp := Ord.compare)]
      cases h : Ord.compare b c <;> simp_all
    have e3 : Ord.compare c a = .lt := Std.TransCmp.lt_of_isLE_of_lt e2 e1
    rw [Std.OrientedCmp.eq_swap (cmp := Ord.compare), e3]; rfl

mutual
theorem Value.cmp_tri : ∀ a b c : Value, Tri (a.cmp b) (b.cmp c) (a.cmp c)
  | .scalar t v, b, c => by
    cases b <;> cases c <;> simp only [Value.cmp]
    all_goals first
      | exact (Tri.compare _ _ _).then (Tri.compare _ _ _)
      | simp [Tri]
  | .array t xs, b, c => by
    cases b <;> cases c <;> simp only [Value.cmp]
    all_goals first
      | exact (Tri.compare _ _ _).then (cmpList_tri xs _ _)
      | simp [Tri]
  | .struct t xs, b, c => by
    cases b <;> cases c <;> simp only [Value.cmp]
    all_goals first
      | exact (Tri.compare _ _ _).then (cmpFields_tri xs _ _)
      | simp [Tri]
  | .tuple t xs, b, c => by
    cases b <;> cases c <;> simp only [Value.cmp]
    all_goals first
      | exact (Tri.compare _ _ _).then (cmpList_tri xs _ _)
      | simp [Tri]
  | .map t xs, b, c => by
    cases b <;> cases c <;> simp only [Value.cmp]
    all_goals first
      | exact (Tri.compare _ _ _).then (cmpEntries_tri xs _ _)
      | simp [Tri]
  | .pointer a td, b, c => by
    cases b <;> cases c <;> simp only [Value.cmp]
    all_goals first
      | exact Tri.compare _ _ _
      | simp [Tri]
theorem cmpList_tri : ∀ a b c : List Value, Tri (cmpList a b) (cmpList b c) (cmpList a c)
  | [], b, c => by cases b <;> cases c <;> simp [cmpList, Tri]
  | x :: xs, [], c => by cases c <;> simp [cmpList, Tri]
  | x :: xs, y :: ys, [] => by simp [cmpList, Tri]
  | x :: xs, y :: ys, z :: zs => by
    simp only [cmpList]; exact (x.cmp_tri y z).then (cmpList_tri xs ys zs)
theorem cmpFields_tri : ∀ a b c : List (Str × Value),
    Tri (cmpFields a b) (cmpFields b c) (cmpFields a c)
  | [], b, c => by cases b <;> cases c <;> simp [cmpFields, Tri]
  | (_, x) :: xs, [], c => by cases c <;> simp [cmpFields, Tri]
  | (_, x) :: xs, _ :: ys, [] => by simp [cmpFields, Tri]
  | (k, x) :: xs, (l, y) :: ys, (m, z) :: zs => by
    simp only [cmpFields]
    exact ((Tri.compare _ _ _).then (x.cmp_tri y z)).then (cmpFields_tri xs ys zs)
theorem cmpEntries_tri : ∀ a b c : List (Value × Value),
    Tri (cmpEntries a b) (cmpEntries b c) (cmpEntries a c)
  | [], b, c => by cases b <;> cases c <;> simp [cmpEntries, Tri]
  | (_, x) :: xs, [], c => by cases c <;> simp [cmpEntries, Tri]
  | (_, x) :: xs, _ :: ys, [] => by simp [cmpEntries, Tri]
  | (k, x) :: xs, (l, y) :: ys, (m, z) :: zs => by
    simp only [cmpEntries]
    exact ((k.cmp_tri l m).then (x.cmp_tri y z)).then (cmpEntries_tri xs ys zs)
end

theorem cswap {α : Type} [Ord α] [Std.OrientedOrd α] (a b : α) :
    (compare a b).swap = compare b a := (Std.OrientedCmp.eq_swap (cmp := compare)).symm

mutual
theorem Value.cmp_swap : ∀ a b : Value, (a.cmp b).swap = b.cmp a
  | .scalar t v, b => by
    cases b <;> simp [Value.cmp, Ordering.swap_then, cswap]
  | .array t xs, b => by
    cases b <;> simp [Value.cmp, Ordering.swap_then, cswap, cmpList_swap xs]
  | .struct t xs, b => by
    cases b <;> simp [Value.cmp, Ordering.swap_then, cswap, cmpFields_swap xs]
  | .tuple t xs, b => by
    cases b <;> simp [Value.cmp, Ordering.swap_then, cswap, cmpList_swap xs]
  | .map t xs, b => by
    cases b <;> simp [Value.cmp, Ordering.swap_then, cswap, cmpEntries_swap xs]
  | .pointer a td, b => by
    cases b <;> simp [Value.cmp, cswap]
theorem cmpList_swap : ∀ a b : List Value, (cmpList a b).swap = cmpList b a
  | [], b => by cases b <;> simp [cmpList]
  | x :: xs, [] => by simp [cmpList]
  | x :: xs, y :: ys => by simp [cmpList, Ordering.swap_then, x.cmp_swap, cmpList_swap xs]
theorem cmpFields_swap : ∀ a b : List (Str × Value), (cmpFields a b).swap = cmpFields b a
  | [], b => by cases b <;> simp [cmpFields]
  | (_, x) :: xs, [] => by simp [cmpFields]
  | (k, x) :: xs, (l, y) :: ys => by
    simp [cmpFields, Ordering.swap_then, cswap, x.cmp_swap, cmpFields_swap xs]
theorem cmpEntries_swap : ∀ a b : List (Value × Value), (cmpEntries a b).swap = cmpEntries b a
  | [], b => by cases b <;> simp [cmpEntries]
  | (_, x) :: xs, [] => by simp [cmpEntries]
  | (k, x) :: xs, (l, y) :: ys => by
    simp [cmpEntries, Ordering.swap_then, k.cmp_swap, x.cmp_swap, cmpEntries_swap xs]
end

mutual
/-- Specification: a value with the types of unread pointers forgotten. -/
def Value.eraseTypes : Value → Value
  | .scalar t v => .scalar t v
  | .array t xs => .array t (eraseList xs)
  | .struct t xs => .struct t (eraseFields xs)
  | .tuple t xs => .tuple t (eraseList xs)
  | .map t xs => .map t (eraseEntries xs)
  | .pointer a _ => .pointer a (.mk none .unit)
def eraseList : List Value → List Value
  | [] => []
  | x :: xs => x.eraseTypes :: eraseList xs
def eraseFields : List (Str × Value) → List (Str × Value)
  | [] => []
  | (k, x) :: xs => (k, x.eraseTypes) :: eraseFields xs
def eraseEntries : List (Value × Value) → List (Value × Value)
  | [] => []
  | (k, x) :: xs => (k.eraseTypes, x.eraseTypes) :: eraseEntries xs
end

theorem ceq {α : Type} [Ord α] [Std.LawfulEqOrd α] (a b : α) : compare a b = .eq ↔ a = b :=
  Std.LawfulEqCmp.compare_eq_iff_eq (cmp := compare)

mutual
theorem Value.cmp_eq : ∀ a b : Value, a.cmp b = .eq ↔ a.eraseTypes = b.eraseTypes
  | .scalar t v, b => by
    cases b <;> simp [Value.cmp, Value.eraseTypes, Ordering.then_eq_eq, ceq]
  | .array t xs, b => by
    cases b <;> simp [Value.cmp, Value.eraseTypes, Ordering.then_eq_eq, ceq, cmpList_eq xs]
  | .struct t xs, b => by
    cases b <;> simp [Value.cmp, Value.eraseTypes, Ordering.then_eq_eq, ceq, cmpFields_eq xs]
  | .tuple t xs, b => by
    cases b <;> simp [Value.cmp, Value.eraseTypes, Ordering.then_eq_eq, ceq, cmpList_eq xs]
  | .map t xs, b => by
    cases b <;> simp [Value.cmp, Value.eraseTypes, Ordering.then_eq_eq, ceq, cmpEntries_eq xs]
  | .pointer a td, b => by
    cases b <;> simp [Value.cmp, Value.eraseTypes, ceq]
theorem cmpList_eq : ∀ a b : List Value, cmpList a b = .eq ↔ eraseList a = eraseList b
  | [], b => by cases b <;> simp [cmpList, eraseList]
  | x :: xs, [] => by simp [cmpList, eraseList]
  | x :: xs, y :: ys => by
    simp [cmpList, eraseList, Ordering.then_eq_eq, x.cmp_eq, cmpList_eq xs]
theorem cmpFields_eq : ∀ a b : List (Str × Value),
    cmpFields a b = .eq ↔ eraseFields a = eraseFields b
  | [], b => by cases b <;> simp [cmpFields, eraseFields]
  | (_, x) :: xs, [] => by simp [cmpFields, eraseFields]
  | (k, x) :: xs, (l, y) :: ys => by
    simp [cmpFields, eraseFields, Ordering.then_eq_eq, ceq, x.cmp_eq, cmpFields_eq xs]
theorem cmpEntries_eq : ∀ a b : List (Value × Value),
    cmpEntries a b = .eq ↔ eraseEntries a = eraseEntries b
  | [], b => by cases b <;> simp [cmpEntries, eraseEntries]
  | (_, x) :: xs, [] => by simp [cmpEntries, eraseEntries]
  | (k, x) :: xs, (l, y) :: ys => by
    simp [cmpEntries, eraseEntries, Ordering.then_eq_eq, k.cmp_eq, x.cmp_eq, cmpEntries_eq xs]
end

mutual
/-- The value contains no unread pointer. -/
def Value.noPointer : Value → Prop
  | .scalar _ _ => True
  | .array _ xs => noPointerList xs
  | .struct _ xs => noPointerFields xs
  | .tuple _ xs => noPointerList xs
  | .map _ xs => noPointerEntries xs
  | .pointer _ _ => False
def noPointerList : List Value → Prop
  | [] => True
  | x :: xs => x.noPointer ∧ noPointerList xs
def noPointerFields : List (Str × Value) → Prop
  | [] => True
  | (_, x) :: xs => x.noPointer ∧ noPointerFields xs
def noPointerEntries : List (Value × Value) → Prop
  | [] => True
  | (k, x) :: xs => k.noPointer ∧ x.noPointer ∧ noPointerEntries xs
end

mutual
theorem Value.erase_noPointer : ∀ a : Value, a.noPointer → a.eraseTypes = a
  | .scalar _ _, _ => by simp [Value.eraseTypes]
  | .array _ xs, h => by simp only [Value.noPointer] at h; simp [Value.eraseTypes, eraseList_noPointer xs h]
  | .struct _ xs, h => by simp only [Value.noPointer] at h; simp [Value.eraseTypes, eraseFields_noPointer xs h]
  | .tuple _ xs, h => by simp only [Value.noPointer] at h; simp [Value.eraseTypes, eraseList_noPointer xs h]
  | .map _ xs, h => by simp only [Value.noPointer] at h; simp [Value.eraseTypes, eraseEntries_noPointer xs h]
  | .pointer _ _, h => by simp [Value.noPointer] at h
theorem eraseList_noPointer : ∀ a : List Value, noPointerList a → eraseList a = a
  | [], _ => by simp [eraseList]
  | x :: xs, h => by
    simp only [noPointerList] at h
    simp [eraseList, x.erase_noPointer h.1, eraseList_noPointer xs h.2]
theorem eraseFields_noPointer : ∀ a : List (Str × Value), noPointerFields a → eraseFields a = a
  | [], _ => by simp [eraseFields]
  | (_, x) :: xs, h => by
    simp only [noPointerFields] at h
    simp [eraseFields, x.erase_noPointer h.1, eraseFields_noPointer xs h.2]
theorem eraseEntries_noPointer : ∀ a : List (Value × Value), noPointerEntries a → eraseEntries a = a
  | [], _ => by simp [eraseEntries]
  | (k, x) :: xs, h => by
    simp only [noPointerEntries] at h
    simp [eraseEntries, k.erase_noPointer h.1, x.erase_noPointer h.2.1, eraseEntries_noPointer xs h.2.2]
end

/-! ### C19 -/

/-- C19: every value compares equal to itself. -/
theorem C19_reflexive (a : Value) : a.cmp a = .eq := (a.cmp_eq a).2 rfl

/-- C19: comparing in the other direction gives the opposite answer (so the order is total and
`a < b` excludes `b < a`). -/
theorem C19_antisymmetric (a b : Value) : b.cmp a = (a.cmp b).swap := (a.cmp_swap b).symm

/-- C19: `≤` is transitive. -/
theorem C19_transitive (a b c : Value) (h1 : a.cmp b ≠ .gt) (h2 : b.cmp c ≠ .gt) :
    a.cmp c ≠ .gt := by
  obtain ⟨t1, t2, t3⟩ := a.cmp_tri b c
  cases h : a.cmp b with
  | lt => rw [t1 h h2]; simp
  | eq => rw [t2 h]; exact h2
  | gt => exact absurd h h1

/-- C19: `<` is transitive. -/
theorem C19_lt_transitive (a b c : Value) (h1 : a.cmp b = .lt) (h2 : b.cmp c = .lt) :
    a.cmp c = .lt := (a.cmp_tri b c).1 h1 (by simp [h2])

/-- C19 (partial): values compare equal exactly when they are equal apart from the types of unread
pointers; fully read values compare equal exactly when they are equal. Missing: two pointers to the
same address with different types compare equal, see `C19_equal_pointers_fails`. -/
theorem C19_eq_iff_partial (a b : Value) :
    (a.cmp b = .eq ↔ a.eraseTypes = b.eraseTypes) ∧
    (a.noPointer → b.noPointer → (a.cmp b = .eq ↔ a = b)) := by
  refine ⟨a.cmp_eq b, fun ha hb => ?_⟩
  rw [a.cmp_eq b, a.erase_noPointer ha, b.erase_noPointer hb]

/-- C19, negative: a `&u8` and a `&bool` at the same address compare equal but are different. -/
theorem C19_equal_pointers_fails :
    ∃ a b : Value, a.cmp b = .eq ∧ a ≠ b :=
  ⟨.pointer 16 (.mk none (.uint 1)), .pointer 16 (.mk none .bool), by simp [Value.cmp], by simp⟩

/-- C19: the kinds are ordered scalars, arrays, structs, tuples, maps, pointers. -/
theorem C19_kind_order (s1 s2 : Str) (xs ys : List Value) (fs : List (Str × Value))
    (es : List (Value × Value)) (a : Nat) (t : TypeDef) :
    (Value.scalar s1 s2).cmp (.array s1 xs) = .lt ∧ (Value.array s1 xs).cmp (.struct s1 fs) = .lt ∧
    (Value.struct s1 fs).cmp (.tuple s1 ys) = .lt ∧ (Value.tuple s1 ys).cmp (.map s1 es) = .lt ∧
    (Value.map s1 es).cmp (.pointer a t) = .lt := by
  simp [Value.cmp]

/- Concrete non-trivial cases. -/
example : (Value.array (chars! "V") [.scalar (chars! "u8") (chars! "1")]).cmp
    (.array (chars! "V") [.scalar (chars! "u8") (chars! "1"), .pointer 1 (.mk none .unit)]) = .lt := by
  have h := C19_reflexive (.scalar (chars! "u8") (chars! "1"))
  simp [Value.cmp, cmpList, Ordering.then] at *
example : (Value.tuple [] [.scalar [] [], .map [] [(.scalar [] [], .scalar [] [])]]).noPointer := by
  simp [Value.noPointer, noPointerList, noPointerEntries]

end Rudy.Data
