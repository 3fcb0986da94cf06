/-
Shared base of the models: strings as character lists, outcomes, and ordered maps.
-/
namespace Rudy

/-- Rust `String`/`&str` contents as the list of `char`s (the iterator `s.chars()`).
Rust compares strings by UTF-8 bytes, which is the same order as the lexicographic order of code
points used by `compare` on `List Char`. -/
abbrev Str := List Char

/-- Outcome of a fallible Rust function: `Ok`, `Err` (message dropped), or a panic
(`unwrap`, index out of bounds, `unimplemented!`, arithmetic overflow in a debug build). -/
inductive Res (α : Type u) where
  | ok (a : α)
  | err
  | panic
deriving DecidableEq, Repr

namespace Res
/-- Models the `?` operator / sequencing: errors and panics propagate. -/
@[simp] def bind {α : Type u} {β : Type v} : Res α → (α → Res β) → Res β
  | ok a, f => f a
  | err, _ => err
  | panic, _ => panic

instance : Monad Res where
  pure := ok
  bind := bind

/-- The outcome is not a panic. -/
def NoPanic {α : Type u} : Res α → Prop
  | panic => False
  | _ => True

@[simp] theorem noPanic_ok {α : Type u} (a : α) : (ok a).NoPanic := trivial
@[simp] theorem noPanic_err {α : Type u} : (err : Res α).NoPanic := trivial
@[simp] theorem not_noPanic_panic {α : Type u} : ¬ (panic : Res α).NoPanic := id
@[simp] theorem pure_eq {α : Type u} (a : α) : (pure a : Res α) = ok a := rfl
@[simp] theorem bind_eq {α β : Type u} (x : Res α) (f : α → Res β) : (x >>= f) = x.bind f := rfl
@[simp] theorem bind_ok {α : Type u} {β : Type v} (a : α) (f : α → Res β) :
    (ok a).bind f = f a := rfl
@[simp] theorem bind_err {α : Type u} {β : Type v} (f : α → Res β) :
    (err : Res α).bind f = err := rfl
@[simp] theorem bind_panic {α : Type u} {β : Type v} (f : α → Res β) :
    (panic : Res α).bind f = panic := rfl

theorem bind_eq_ok {α : Type u} {β : Type v} (x : Res α) (f : α → Res β) (b : β) :
    x.bind f = ok b ↔ ∃ a, x = ok a ∧ f a = ok b := by
  cases x <;> simp

/-- `Option` to `Result` (`ok_or`, `.context(..)` on an option). -/
def ofOption {α : Type u} : Option α → Res α
  | some a => ok a
  | none => err
end Res

/-- Rust `std::collections::BTreeMap<K, V>` as an association list kept in key order.
Simplification: the B-tree itself (standard library) is not modelled, only its contract: unique
keys (up to `cmp = eq`) in ascending order. -/
structure OMap (κ : Type u) (ν : Type v) where
  entries : List (κ × ν) := []
deriving Repr

namespace OMap
variable {κ : Type u} {ν : Type v}

/-- Models `BTreeMap::insert` on the sorted entry list: an existing equal key keeps its key object
and gets the new value. -/
def insertL (cmp : κ → κ → Ordering) (k : κ) (v : ν) : List (κ × ν) → List (κ × ν)
  | [] => [(k, v)]
  | (k', v') :: rest =>
    match cmp k k' with
    | .lt => (k, v) :: (k', v') :: rest
    | .eq => (k', v) :: rest
    | .gt => (k', v') :: insertL cmp k v rest

/-- Models `BTreeMap::get`. -/
def getL (cmp : κ → κ → Ordering) (k : κ) : List (κ × ν) → Option ν
  | [] => none
  | (k', v') :: rest => if cmp k k' = .eq then some v' else getL cmp k rest

/-- Models `BTreeMap::insert`. -/
def insert (cmp : κ → κ → Ordering) (m : OMap κ ν) (k : κ) (v : ν) : OMap κ ν :=
  ⟨insertL cmp k v m.entries⟩

/-- Models `BTreeMap::get`. -/
def get (cmp : κ → κ → Ordering) (m : OMap κ ν) (k : κ) : Option ν := getL cmp k m.entries

/-- Models `map.entry(k).or_default()` followed by an update of the value in place. -/
def upsert (cmp : κ → κ → Ordering) (m : OMap κ ν) (k : κ) (dflt : ν) (f : ν → ν) : OMap κ ν :=
  m.insert cmp k (f ((m.get cmp k).getD dflt))

/-- The invariant kept by `insert`: strictly ascending keys. -/
def Sorted (cmp : κ → κ → Ordering) (m : OMap κ ν) : Prop :=
  m.entries.Pairwise (fun a b => cmp a.1 b.1 = .lt)

theorem getL_insertL (cmp : κ → κ → Ordering) [Std.TransCmp cmp] (k k' : κ) (v : ν)
    (l : List (κ × ν)) :
    getL cmp k' (insertL cmp k v l) = if cmp k' k = .eq then some v else getL cmp k' l := by
  induction l with
  | nil => simp [insertL, getL]
  | cons p rest ih =>
    obtain ⟨a, b⟩ := p
    simp only [insertL]
    split
    · simp [getL]
    · rename_i h
      have hc : cmp k' k = cmp k' a := Std.TransCmp.congr_right h
      simp only [getL, hc]
      by_cases h2 : cmp k' a = .eq <;> simp [h2]
    · rename_i h
      simp only [getL, ih]
      by_cases h1 : cmp k' a = .eq
      · by_cases h2 : cmp k' k = .eq
        · exfalso
          have h3 : cmp k a = .eq :=
            Std.TransCmp.eq_trans (Std.OrientedCmp.eq_symm h2) h1
          rw [h3] at h; cases h
        · simp [h1, h2]
      · simp [h1]

theorem get_insert (cmp : κ → κ → Ordering) [Std.TransCmp cmp] (m : OMap κ ν) (k k' : κ) (v : ν) :
    (m.insert cmp k v).get cmp k' = if cmp k' k = .eq then some v else m.get cmp k' :=
  getL_insertL cmp k k' v m.entries

theorem get_upsert (cmp : κ → κ → Ordering) [Std.TransCmp cmp] (m : OMap κ ν) (k k' : κ) (d : ν)
    (f : ν → ν) :
    (m.upsert cmp k d f).get cmp k' =
      if cmp k' k = .eq then some (f ((m.get cmp k).getD d)) else m.get cmp k' :=
  get_insert cmp m k k' _

theorem mem_insertL (cmp : κ → κ → Ordering) (k : κ) (v : ν) (l : List (κ × ν)) (p : κ × ν)
    (h : p ∈ insertL cmp k v l) : p ∈ l ∨ p.2 = v ∧ cmp k p.1 = .eq ∨ p = (k, v) := by
  induction l with
  | nil => simp [insertL] at h; exact Or.inr (Or.inr h)
  | cons q rest ih =>
    obtain ⟨a, b⟩ := q
    simp only [insertL] at h
    split at h
    · rcases List.mem_cons.1 h with h | h
      · exact Or.inr (Or.inr h)
      · exact Or.inl h
    · rename_i he
      rcases List.mem_cons.1 h with h | h
      · subst h; exact Or.inr (Or.inl ⟨rfl, he⟩)
      · exact Or.inl (List.mem_cons_of_mem _ h)
    · rcases List.mem_cons.1 h with h | h
      · subst h; simp
      · rcases ih h with h | h
        · exact Or.inl (List.mem_cons_of_mem _ h)
        · exact Or.inr h

theorem sorted_insert (cmp : κ → κ → Ordering) [Std.TransCmp cmp] (m : OMap κ ν) (k : κ) (v : ν)
    (h : m.Sorted cmp) : (m.insert cmp k v).Sorted cmp := by
  obtain ⟨l⟩ := m
  simp only [Sorted, insert] at *
  induction l with
  | nil => simp [insertL]
  | cons p rest ih =>
    obtain ⟨a, b⟩ := p
    simp only [insertL]
    rw [List.pairwise_cons] at h
    split
    · rename_i hlt
      rw [List.pairwise_cons, List.pairwise_cons]
      refine ⟨?_, h⟩
      intro q hq
      rcases List.mem_cons.1 hq with hq | hq
      · subst hq; exact hlt
      · exact Std.TransCmp.lt_trans hlt (h.1 q hq)
    · rename_i he
      rw [List.pairwise_cons]
      exact ⟨h.1, h.2⟩
    · rename_i hgt
      have hlt : cmp a k = .lt := Std.OrientedCmp.lt_of_gt hgt
      rw [List.pairwise_cons]
      refine ⟨?_, ih h.2⟩
      intro q hq
      rcases mem_insertL cmp k v rest q hq with hq | ⟨_, hq⟩ | hq
      · exact h.1 q hq
      · exact Std.TransCmp.lt_of_lt_of_eq hlt hq
      · subst hq; exact hlt

theorem sorted_empty (cmp : κ → κ → Ordering) : (⟨[]⟩ : OMap κ ν).Sorted cmp := by
  simp [Sorted]

theorem get_of_mem (cmp : κ → κ → Ordering) [Std.TransCmp cmp] (m : OMap κ ν) (k : κ) (v : ν)
    (hs : m.Sorted cmp) (h : (k, v) ∈ m.entries) : m.get cmp k = some v := by
  obtain ⟨l⟩ := m
  simp only [Sorted, get] at *
  induction l with
  | nil => simp at h
  | cons p rest ih =>
    obtain ⟨a, b⟩ := p
    rw [List.pairwise_cons] at hs
    rcases List.mem_cons.1 h with h | h
    · cases h; simp [getL, Std.ReflCmp.compare_self]
    · have hlt := hs.1 (k, v) h
      have : cmp k a ≠ .eq := by
        intro he
        have := Std.OrientedCmp.eq_symm he
        rw [this] at hlt; cases hlt
      simp only [getL, this, if_false]
      exact ih hs.2 h

theorem mem_of_get (cmp : κ → κ → Ordering) (m : OMap κ ν) (k : κ) (v : ν)
    (h : m.get cmp k = some v) : ∃ k', cmp k k' = .eq ∧ (k', v) ∈ m.entries := by
  obtain ⟨l⟩ := m
  simp only [get] at *
  induction l with
  | nil => simp [getL] at h
  | cons p rest ih =>
    obtain ⟨a, b⟩ := p
    simp only [getL] at h
    split at h
    · rename_i he
      cases h
      exact ⟨a, he, by simp⟩
    · obtain ⟨k', h1, h2⟩ := ih h
      exact ⟨k', h1, List.mem_cons_of_mem _ h2⟩

end OMap
end Rudy

/-- Notation: the character list of a string literal (`chars! "ab"` is `['a', 'b']`). -/
macro "chars!" s:str : term => do
  let cs := s.getString.toList.map (fun c => Lean.Syntax.mkCharLit c)
  `(([$(cs.toArray),*] : List Char))

namespace Rudy

/-- One past the largest `u64`. -/
def u64Max1 : Nat := 18446744073709551616

/-- Rust `a + b` on `u64`/`usize` in a debug build: panics on overflow. -/
def addU (a b : Nat) : Res Nat := if a + b < u64Max1 then .ok (a + b) else .panic

/-- Rust `a - b` on `u64`/`usize` in a debug build: panics on underflow. -/
def subU (a b : Nat) : Res Nat := if b ≤ a then .ok (a - b) else .panic

/-- Rust `a * b` on `u64`/`usize` in a debug build: panics on overflow. -/
def mulU (a b : Nat) : Res Nat := if a * b < u64Max1 then .ok (a * b) else .panic

end Rudy
