import Verif.Proof.Layout
/-
Property theorems C20 (sizes) and C21 (type matching).
-/
namespace Rudy.Layout
open Rudy

/-! ### C20: sizes -/

/-- Specification: `ArrayCore l core k m`: `core` is the element type under all array brackets of
`l`, `k` the product of the lengths, and `m` the product of the lengths with 0 counted as 1 (the
largest intermediate product). -/
inductive ArrayCore : Layout → Layout → Nat → Nat → Prop
  | base (l : Layout) : (∀ e n, l ≠ .array e n) → ArrayCore l l 1 1
  | step (loc : Option Nat) (l core : Layout) (n k m : Nat) :
      ArrayCore l core k m → ArrayCore (.array (.mk loc l) n) core (k * n) (m * max n 1)

theorem ArrayCore.le {l core k m} (h : ArrayCore l core k m) : k ≤ m ∧ 0 < m := by
  induction h with
  | base l hb => simp
  | step loc l core n k m _ ih =>
    exact ⟨Nat.mul_le_mul ih.1 (by omega), Nat.mul_pos ih.2 (by omega)⟩

theorem ArrayCore.exists (l : Layout) : ∃ core k m, ArrayCore l core k m := by
  have : ∀ (n : Nat) (l : Layout), sizeOf l ≤ n → ∃ core k m, ArrayCore l core k m := by
    intro n
    induction n with
    | zero => intro l h; cases l <;> simp at h <;> omega
    | succ n ih =>
      intro l h
      by_cases ha : ∃ e n, l = .array e n
      · obtain ⟨⟨loc, l'⟩, len, rfl⟩ := ha
        obtain ⟨c, k, m, hc⟩ := ih l' (by simp at h; omega)
        exact ⟨c, _, _, .step loc l' c len k m hc⟩
      · exact ⟨l, 1, 1, .base l (fun e n he => ha ⟨e, n, he⟩)⟩
  exact this _ l (Nat.le_refl _)

/-- C20: the size of an array is length times element size, whatever the element type. -/
theorem C20_array_size (loc : Option Nat) (l : Layout) (n s : Nat) (h : l.size = .ok (some s))
    (hfit : s * n < u64Max1) : (Layout.array (.mk loc l) n).size = .ok (some (s * n)) := by
  simp [Layout.size, TypeDef.size, h, mulU, hfit]

/-- C20: an array of elements of unknown size has unknown size. -/
theorem C20_array_unknown (loc : Option Nat) (l : Layout) (n : Nat) (h : l.size = .ok none) :
    (Layout.array (.mk loc l) n).size = .ok none := by
  simp [Layout.size, TypeDef.size, h]

/-- C20: nested arrays multiply out: `[[T; a]; b]` has size `size T * a * b`. -/
theorem C20_nested_array_size (l core : Layout) (k m s : Nat) (h : ArrayCore l core k m)
    (hs : core.size = .ok (some s)) (hfit : s * m < u64Max1) :
    l.size = .ok (some (s * k)) := by
  induction h with
  | base l hb => simpa using hs
  | step loc l core n k m hc ih =>
    have hle := hc.le
    have h1 : s * m < u64Max1 := by
      refine Nat.lt_of_le_of_lt ?_ hfit
      rw [← Nat.mul_assoc]
      exact Nat.le_mul_of_pos_right _ (by omega)
    have h2 : s * k * n < u64Max1 := by
      refine Nat.lt_of_le_of_lt ?_ hfit
      rw [Nat.mul_assoc]
      exact Nat.mul_le_mul_left _ (Nat.mul_le_mul hle.1 (by omega))
    rw [C20_array_size loc l n (s * k) (ih hs h1) h2, Nat.mul_assoc]

/-- Specification: the size in bytes that the 64-bit Rust ABI gives a type: fixed for the primitive
types, pointers and containers, recorded in the debug info for numbers, tuples, structs and enums,
length times element size for arrays. (Cells, locks and maps hold their contents or a hasher inline and
have no size of their own: not listed.) -/
inductive AbiSize : Layout → Nat → Prop
  | unit : AbiSize .unit 0
  | never : AbiSize .never 0
  | bool : AbiSize .bool 1
  | char : AbiSize .char 4
  | int (s) : AbiSize (.int s) s
  | uint (s) : AbiSize (.uint s) s
  | float (s) : AbiSize (.float s) s
  | function (r as) : AbiSize (.function r as) 8
  | pointer (mt t) : AbiSize (.pointer mt t) 8
  | reference (mt t) : AbiSize (.reference mt t) 8
  | box (t i d) : AbiSize (.smartPtr .box t i d) 8
  | rc (t i d) : AbiSize (.smartPtr .rc t i d) 8
  | arc (t i d) : AbiSize (.smartPtr .arc t i d) 8
  | slice (t d l) : AbiSize (.slice t d l) 16
  | strSlice (d l) : AbiSize (.strSlice d l) 16
  | string (l d c t) : AbiSize (.string l d c t) 24
  | vec (l d c t) : AbiSize (.vec l d c t) 24
  | btreeMap (a b c d n k v) : AbiSize (.map (.btreeMap a b c d n) k v) 24
  | tuple (es s) : AbiSize (.tuple es s) s
  | option (n d o t s) : AbiSize (.option n d o t s) s
  | result (n d t o e p s) : AbiSize (.result n d t o e p s) s
  | struct (n s a fs) : AbiSize (.struct n s a fs) s
  | enum (n d vs s) : AbiSize (.enum n d vs s) s
  | cenum (n d vs s) : AbiSize (.cenum n d vs s) s
  | array (loc l n s) : AbiSize l s → s * n < u64Max1 → AbiSize (.array (.mk loc l) n) (s * n)

/-- C20: every type to which the ABI gives a size has exactly that size. -/
theorem C20_abi_size (l : Layout) (s : Nat) (h : AbiSize l s) : l.size = .ok (some s) := by
  induction h with
  | array loc l n s _ hfit ih => exact C20_array_size loc l n s ih hfit
  | _ => simp [Layout.size]

/-- For instance `[[&str; 3]; 2]` has 96 bytes. -/
example : AbiSize (.array (.mk none (.array (.mk none (.strSlice 0 8)) 3)) 2) (16 * 3 * 2) :=
  .array _ _ _ _ (.array _ _ _ _ (.strSlice _ _) (by decide)) (by decide)

/-- Layouts whose size the code cannot compute: bare `str` and `IndexMap`. -/
def Unsizable : Layout → Prop
  | .str => True
  | .map .indexMap _ _ => True
  | _ => False

/-- C20 (partial): asking for the size of any type other than bare `str` or an `IndexMap`, or an
array of these, gives an answer: no panic, as long as the array sizes fit in 64 bits. Missing: those
two, see `C20_size_total_fails`. -/
theorem C20_size_no_panic_partial (l core : Layout) (k m : Nat) (h : ArrayCore l core k m)
    (hc : ¬ Unsizable core) (hfit : ∀ s, core.size = .ok (some s) → s * m < u64Max1) :
    ∃ o, l.size = .ok o := by
  have hb : ∃ o, core.size = .ok o := by
    have hcore : ∀ {l core k m}, ArrayCore l core k m → ∀ e n, core ≠ .array e n := by
      intro l core k m h
      induction h with
      | base l hb => exact hb
      | step _ _ _ _ _ _ _ ih => exact ih
    have hna := hcore h
    cases core <;> simp_all [Layout.size, Unsizable]
    rename_i v _ _; cases v <;> simp_all
  obtain ⟨o, ho⟩ := hb
  cases o with
  | some s => exact ⟨_, C20_nested_array_size l core k m s h ho (hfit s ho)⟩
  | none =>
    refine ⟨none, ?_⟩
    clear hfit hc
    induction h with
    | base l hb => exact ho
    | step loc l core n k m _ ih => exact C20_array_unknown loc l n (ih ho)

/-- C20, negative: the size of `str` and of any `IndexMap` panics, and so does the size of any array
of them, even an empty one. -/
theorem C20_size_total_fails (loc : Option Nat) (n : Nat) (k v : TypeDef) :
    Layout.size .str = .panic ∧ (Layout.map .indexMap k v).size = .panic ∧
    (Layout.array (.mk loc .str) n).size = .panic := by
  simp [Layout.size, TypeDef.size]

/-- C20, negative: the size of a cell or lock does not depend on what it holds: `Cell<u64>` has
computed size 0 and `RefCell<T>`, `Mutex<T>` have 8 for every `T`. -/
theorem C20_cell_size_ignores_contents (t : TypeDef) (a b : Nat) :
    (Layout.smartPtr .cell t a b).size = .ok (some 0) ∧
    (Layout.smartPtr .refCell t a b).size = .ok (some 8) ∧
    (Layout.smartPtr .mutex t a b).size = .ok (some 8) := by
  simp [Layout.size]

/- `[[u16; 3]; 5]` is 30 bytes. -/
example : (Layout.array (.mk none (.array (.mk none (.uint 2)) 3)) 5).size = .ok (some 30) := by decide
example : ArrayCore (Layout.array (.mk none (.array (.mk none (.uint 2)) 3)) 5) (.uint 2) 15 15 :=
  .step _ _ _ 5 3 3 (.step _ _ _ 3 1 1 (.base _ (by simp)))

/-! ### C21: type matching -/

/-- C21: every type matches itself. -/
theorem C21_reflexive (a : TypeDef) : a.matching a = true := a.matching_refl

/-- C21: matching does not depend on the order of its arguments. -/
theorem C21_symmetric (a b : TypeDef) : a.matching b = b.matching a := a.matching_comm b

/-- C21: two types found at the same debug-info entry always match. -/
theorem C21_same_location (d : Nat) (a b : Layout) :
    (TypeDef.mk (some d) a).matching (.mk (some d) b) = true := by
  simp [TypeDef.matching, locMatches]

/-- C21: a type known only by name matches exactly the types printed with that name. -/
theorem C21_alias_matches_by_name (n : Str) (x : Layout) :
    (Layout.alias n).matching x = true ↔ n = x.displayName := by
  cases x <;> simp [Layout.matching, Layout.displayName]

/-- C21 (partial): on types without aliases and locations, matching is exactly equality up to array
lengths, mutability, offsets, sizes and the contents of named types. Missing: with aliases matching is
not transitive (`C21_not_transitive_fails`). -/
theorem C21_match_iff_same_shape_partial (a b : TypeDef) (ha : a.plain = true) (hb : b.plain = true) :
    a.matching b = true ↔ a.shape = b.shape := a.matching_iff_shape b ha hb

/-- C21 (partial): transitivity on types without aliases and locations. -/
theorem C21_transitive_partial (a b c : TypeDef) (ha : a.plain = true) (hb : b.plain = true)
    (hc : c.plain = true) (h1 : a.matching b = true) (h2 : b.matching c = true) :
    a.matching c = true := by
  rw [a.matching_iff_shape b ha hb] at h1
  rw [b.matching_iff_shape c hb hc] at h2
  rw [a.matching_iff_shape c ha hc, h1, h2]

/-- C21 (partial): on such types different kinds, different widths, different names and different
smart pointers never match: the shapes record them. -/
theorem C21_distinguishes (a b : Nat) (n m : Str) (x y : TypeDef) (u v : SmartPtr) :
    ((Layout.int a).matching (.int b) = true ↔ a = b) ∧
    ((Layout.uint a).matching (.uint b) = true ↔ a = b) ∧
    (Layout.int a).matching (.uint b) = false ∧
    ((Layout.struct n a b .nil).matching (.struct m a b .nil) = true ↔ n = m) ∧
    ((Layout.smartPtr u x 0 0).matching (.smartPtr v y 0 0) = true ↔ u = v ∧ x.matching y = true) ∧
    ((Layout.vec 0 8 16 x).matching (.vec 0 8 16 y) = true ↔ x.matching y = true) ∧
    (Layout.vec 0 8 16 x).matching (.option n ⟨.implicit, 0⟩ 0 y 8) = false := by
  simp [Layout.matching]

/-- C21, negative: matching is not transitive. A user struct named `u8` matches the alias `u8`, which
matches the integer `u8`, but the struct does not match the integer. -/
theorem C21_not_transitive_fails :
    ∃ a b c : Layout, a.matching b = true ∧ b.matching c = true ∧ a.matching c = false :=
  ⟨.struct (chars! "u8") 1 1 .nil, .alias (chars! "u8"), .uint 1, by simp [Layout.matching, Layout.displayName],
    by simp [Layout.matching, Layout.displayName]; decide, by simp [Layout.matching]⟩

/-- C21, negative: different types are identified: arrays of different lengths, shared and mutable
references. -/
theorem C21_identifies_different_types_fails (t : TypeDef) (n m : Nat) :
    (Layout.array t n).matching (.array t m) = true ∧
    (Layout.reference false t).matching (.reference true t) = true := by
  simp [Layout.matching, t.matching_refl]

/- The hypotheses of the partial theorems are met by a nested type. -/
example : (TypeDef.mk none (.vec 16 8 0 (.mk none (.reference true (.mk none (.tuple
    (.cons [] 0 (.mk none (.uint 1)) (.cons [] 4 (.mk none (.struct (chars! "S") 4 4 .nil)) .nil)) 8)))))).plain
    = true := by decide

/-- C21: `dereferenced` strips every reference and pointer: the result is neither. -/
theorem C21_dereferenced_is_not_reference (l : Layout) :
    (∀ m t, l.dereferenced ≠ .reference m t) ∧ (∀ m t, l.dereferenced ≠ .pointer m t) := by
  have : ∀ (n : Nat) (l : Layout), sizeOf l ≤ n →
      (∀ m t, l.dereferenced ≠ .reference m t) ∧ (∀ m t, l.dereferenced ≠ .pointer m t) := by
    intro n
    induction n with
    | zero => intro l h; cases l <;> simp at h <;> omega
    | succ n ih =>
      intro l h
      cases l with
      | pointer m t =>
        obtain ⟨loc, l⟩ := t
        simp only [Layout.dereferenced, TypeDef.dereferenced]
        apply ih; simp at h; omega
      | reference m t =>
        obtain ⟨loc, l⟩ := t
        simp only [Layout.dereferenced, TypeDef.dereferenced]
        apply ih; simp at h; omega
      | _ => simp [Layout.dereferenced]
  exact this _ l (Nat.le_refl _)

end Rudy.Layout
