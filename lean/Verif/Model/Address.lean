/-
Model of the function address index: crates/rudy-dwarf/src/address/mod.rs.
Addresses (u64 in the code) are natural numbers: the modelled functions only compare addresses,
they never do arithmetic on them, so no overflow behaviour is hidden.
-/
namespace Rudy.Address

/-- Models `FunctionAddressInfo`, crates/rudy-dwarf/src/address/mod.rs:9-22.
Simplified: `file` (a salsa id) is a number, `name` (a `SymbolName`) is a number standing for the
interned name; the tree never looks at either. -/
structure FnInfo where
  absStart : Nat
  absEnd : Nat
  relStart : Nat
  relEnd : Nat
  file : Nat := 0
  name : Nat := 0
deriving DecidableEq, Repr

/-- Models the `(start, end)` selection in `Node::new`, address/mod.rs:62-67. -/
def FnInfo.range (f : FnInfo) (absolute : Bool) : Nat × Nat :=
  if absolute then (f.absStart, f.absEnd) else (f.relStart, f.relEnd)

/-- Models `Option<Box<Node>>`, address/mod.rs:50-59: `nil` is `None`. -/
inductive Tree where
  | nil
  | node (info : FnInfo) (start stop maxEnd : Nat) (left right : Tree)
deriving Repr

/-- Models reading `child.max_end_in_subtree` under `if let Some(child)`, address/mod.rs:90-97:
`update_max_end` takes the maximum with a child only when the child exists. -/
def Tree.joinMax (m : Nat) : Tree → Nat
  | .nil => m
  | .node _ _ _ cm _ _ => max m cm

/-- Models `Node::new` followed by the assignments of `left`, `right` and `update_max_end`,
address/mod.rs:62-77 and 88-98, 121-130. -/
def Tree.mk (info : FnInfo) (absolute : Bool) (l r : Tree) : Tree :=
  let (s, e) := info.range absolute
  .node info s e (r.joinMax (l.joinMax e)) l r

/-- Models `build_recursive`, address/mod.rs:110-133: median element becomes the root, the part
before it the left subtree, the part after it the right subtree. -/
def build (absolute : Bool) (sorted : List FnInfo) : Tree :=
  match h : sorted[sorted.length / 2]? with
  | none => .nil
  | some median =>
    Tree.mk median absolute
      (build absolute (sorted.take (sorted.length / 2)))
      (build absolute (sorted.drop (sorted.length / 2 + 1)))
termination_by sorted.length
decreasing_by
  · have := (List.getElem?_eq_some_iff.1 h).1
    simp [List.length_take]; omega
  · have := (List.getElem?_eq_some_iff.1 h).1
    simp [List.length_drop]; omega

/-- Models `AddressTree`, address/mod.rs:101-105. -/
structure AddressTree where
  absRoot : Tree := .nil
  relRoot : Tree := .nil

/-- `sort_unstable_by_key` (address/mod.rs:139 and 143) may leave equal keys in any order: its
result is *some* permutation of its input with non-decreasing keys. -/
def SortedBy (key : FnInfo → Nat) (l : List FnInfo) : Prop :=
  l.Pairwise (fun a b => key a ≤ key b)

/-- Models `AddressTree::new`, address/mod.rs:108-149, as a relation because of the unstable sort:
`Built info t` holds iff `t` is a tree that `new(info)` may return. The second sort starts from
the output of the first one (line 143). -/
def Built (info : List FnInfo) (t : AddressTree) : Prop :=
  ∃ s₁ s₂ : List FnInfo,
    s₁.Perm info ∧ SortedBy (·.absStart) s₁ ∧
    s₂.Perm s₁ ∧ SortedBy (·.relStart) s₂ ∧
    t = { absRoot := build true s₁, relRoot := build false s₂ }

/-- One executable instance of `AddressTree::new` (address/mod.rs:108-149), with a stable merge sort
in place of `sort_unstable_by_key`. -/
def new (info : List FnInfo) : AddressTree :=
  let s₁ := info.mergeSort (fun a b => decide (a.absStart ≤ b.absStart))
  let s₂ := s₁.mergeSort (fun a b => decide (a.relStart ≤ b.relStart))
  { absRoot := build true s₁, relRoot := build false s₂ }

/-- The `max_end_in_subtree` pruning test on a child that is present:
`address <= child.max_end_in_subtree`, address/mod.rs:185, 200, 264, 277. -/
def Tree.reaches : Tree → Nat → Bool
  | .nil, _ => false
  | .node _ _ _ m _ _, a => decide (a ≤ m)

/-- Models `query_address_recursive`, address/mod.rs:169-230. The nested conditions of lines 200,
211 and 223 are kept as written. `result.push` appends at the end. -/
def queryRec (address : Nat) : Tree → List FnInfo → List FnInfo
  | .nil, result => result
  | .node info start stop _ left right, result =>
    -- 175: contains_address, 79-81
    let result := if address ≥ start ∧ address < stop then result ++ [info] else result
    -- 183-189
    let result := if left.reaches address then queryRec address left result else result
    -- 198-229
    if right.reaches address ∧ address ≥ start then
      if address ≥ start ∨ right.reaches address then
        if right.reaches address then queryRec address right result else result
      else result
    else result

/-- Models `AddressTree::query_address`, address/mod.rs:152-167. -/
def AddressTree.queryAddress (t : AddressTree) (address : Nat) (absolute : Bool) : List FnInfo :=
  if absolute then queryRec address t.absRoot [] else queryRec address t.relRoot []

/-- Models `query_interval_recursive`, address/mod.rs:251-283. -/
def queryIntervalRec (qs qe : Nat) : Tree → List FnInfo → List FnInfo
  | .nil, result => result
  | .node info start stop _ left right, result =>
    -- 258: overlaps, 83-86
    let result := if start < qe ∧ qs < stop then result ++ [info] else result
    -- 263-267
    let result := if left.reaches qs then queryIntervalRec qs qe left result else result
    -- 271-282
    if start ≤ qe ∧ right.reaches qs then queryIntervalRec qs qe right result else result

/-- Models `AddressTree::query_address_range`, address/mod.rs:234-249. -/
def AddressTree.queryAddressRange (t : AddressTree) (qs qe : Nat) (absolute : Bool) :
    List FnInfo :=
  if absolute then queryIntervalRec qs qe t.absRoot [] else queryIntervalRec qs qe t.relRoot []

end Rudy.Address
