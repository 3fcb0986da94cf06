import Verif.Model.Basic
/-
Model of the walk over a unit's debugging information entries (DIEs):
`crates/rudy-dwarf/src/visitor.rs`, on top of the `gimli::EntriesCursor` contract.

The bytes of a unit are modelled as the sequence of items the abbreviation decoder finds in them:
entries, the null entries that close a list of children, and undecodable input.
-/
namespace Rudy.Walker

/-- One item of a unit's entry sequence (`gimli::DebuggingInformationEntry::parse`): an entry with
its payload, its "has children" flag and its `DW_AT_sibling` attribute (the number of following
items it jumps over), a null entry, or bytes that do not decode.
Simplification: an entry whose attributes do not decode counts as `bad` at the place of the next
item, because `gimli` only notices when it steps over the attributes. -/
inductive Tok (α : Type) where
  | entry (d : α) (kids : Bool) (sib : Option Nat)
  | null
  | bad
deriving DecidableEq, Repr

/-- `gimli::EntriesCursor`: remaining input, the entry it stands on (`cached_current`, with its flag
and sibling attribute) and the depth change to the next entry. -/
structure Cursor (α : Type) where
  rest : List (Tok α)
  cur : Option (α × Bool × Option Nat) := none
  delta : Int := 0

/-- How `EntriesCursor::next_entry` ends: an entry or null was read, end of input, decode error. -/
inductive Got where
  | got | fin | fail
deriving DecidableEq, Repr

/-- `EntriesCursor::next_entry` (gimli): reads one item. -/
def Cursor.nextEntry {α : Type} (c : Cursor α) : Cursor α × Got :=
  match c.rest with
  | [] => ({ rest := [], cur := none, delta := 0 }, .fin)
  | .entry d k s :: ts => ({ rest := ts, cur := some (d, k, s), delta := if k then 1 else 0 }, .got)
  | .null :: ts => ({ rest := ts, cur := none, delta := -1 }, .got)
  | .bad :: _ => ({ rest := [], cur := none, delta := 0 }, .fail)

/-- The loop of `EntriesCursor::next_dfs` (gimli): skip nulls, adding up the depth changes. -/
def dfsLoop {α : Type} : List (Tok α) → Int → Cursor α × Option (Int × α)
  | [], _ => ({ rest := [], cur := none, delta := 0 }, none)
  | .entry d k s :: ts, δ =>
    ({ rest := ts, cur := some (d, k, s), delta := if k then 1 else 0 }, some (δ, d))
  | .null :: ts, δ => dfsLoop ts (δ - 1)
  | .bad :: _, _ => ({ rest := [], cur := none, delta := 0 }, none)

/-- `EntriesCursor::next_dfs` (gimli). A decode error and the end of input are both `none`: the only
caller logs the error and treats it as the end (visitor.rs:136-145, 177-181). -/
def Cursor.nextDfs {α : Type} (c : Cursor α) : Cursor α × Option (Int × α) :=
  dfsLoop c.rest c.delta

/-- The loop of `EntriesCursor::next_sibling` (gimli): an entry with children is jumped over with its
sibling attribute, or by counting the depth. The result says whether an entry was found.
The first argument bounds the iterations; each iteration reads an item, so the number of remaining
items plus one is enough (`Proof/Walker.lean`). -/
def siblingLoop {α : Type} : Nat → Cursor α → Nat → Cursor α × Bool
  | 0, c, _ => (c, false)
  | n + 1, c, depth =>
    let (c, depth) : Cursor α × Nat :=
      match c.cur with
      | some (_, true, some k) => ({ c with rest := c.rest.drop k, cur := none }, depth)
      | some (_, true, none) => (c, depth + 1)
      | _ => (c, depth)
    match c.nextEntry with
    | (c, .got) =>
      if depth = 0 then (c, c.cur.isSome)
      else siblingLoop n c (if c.cur.isNone then depth - 1 else depth)
    | (c, _) => (c, false)

/-- `EntriesCursor::next_sibling` (gimli). -/
def Cursor.nextSibling {α : Type} (c : Cursor α) : Cursor α × Bool :=
  if c.cur.isNone then (c, false) else siblingLoop (c.rest.length + 1) c 0

/-- visitor.rs:214-216: `while self.cursor.next_sibling().ok().flatten().is_some() {}`. -/
def drainLoop {α : Type} : Nat → Cursor α → Cursor α
  | 0, c => c
  | n + 1, c =>
    match c.nextSibling with
    | (c, true) => drainLoop n c
    | (c, false) => c

/-- visitor.rs:214-216, with a bound that the remaining input justifies. -/
def Cursor.drain {α : Type} (c : Cursor α) : Cursor α := drainLoop (c.rest.length + 1) c

/-- visitor.rs:12-32 `DieWalker` (the fields that steer the walk; `last_offset` is only written). -/
structure Walker (σ α : Type) where
  visitor : σ
  cursor : Cursor α
  currentDepth : Int := 0
  next : Option (Int × α) := none
  depth : Int := 0

/-- What a visitor's callback for an entry decides: return without visiting the children, call
`walk_children` (then the callback's own tail runs), return an error, panic. -/
inductive Act where
  | skip | walk | fail | panic
deriving DecidableEq, Repr

/-- How a walk ends. `unfinished` marks an exhausted recursion bound of the model (never happens:
`C42_walk_terminates`). -/
inductive End where
  | ok | err | panic | unfinished
deriving DecidableEq, Repr

/-- A `DieVisitor` (visitor.rs:294-440) seen from the walker: what it does with an entry before and
after the entry's children; the tail may look at the next entry (`peek_next_offset`).
Every visitor of the code base has this shape: `modules.rs:92-232`, `function/index.rs:96-206`,
`function/variables.rs:58-93`. -/
structure Visitor (σ α : Type) where
  enter : σ → α → σ × Act
  leave : σ → α → Option α → σ

variable {σ α : Type}

/-- visitor.rs:135-156 `peek`. -/
def peek (w : Walker σ α) : Walker σ α × Option (Int × α) :=
  match w.next with
  | some p => (w, some p)
  | none =>
    match w.cursor.nextDfs with
    | (c, some (δ, d)) =>
      ({ w with cursor := c, depth := w.depth + δ, next := some (w.depth + δ, d) },
        some (w.depth + δ, d))
    | (c, none) => ({ w with cursor := c }, none)

/-- visitor.rs:158-166 `has_children`. -/
def hasChildren (w : Walker σ α) : Walker σ α × Bool :=
  match peek w with
  | (w, some (d, _)) => (w, decide (d = w.currentDepth + 1))
  | (w, none) => (w, false)

/-- visitor.rs:168-195 `next`, including its `debug_assert_eq!` on the depth. -/
def next (w : Walker σ α) : Res (Walker σ α × Option α) :=
  match w.next with
  | some (d, a) =>
    if d = w.currentDepth then .ok ({ w with next := none }, some a) else .panic
  | none =>
    match w.cursor.nextDfs with
    | (c, some (δ, a)) => if δ = 0 then .ok ({ w with cursor := c }, some a) else .panic
    | (c, none) => .ok ({ w with cursor := c }, none)

/-- visitor.rs:197-230 `next_sibling`. The bound counts the self-calls, each of which consumes
input. -/
def nextSibling : Nat → Walker σ α → Walker σ α × Option α
  | 0, w => (w, none)
  | n + 1, w =>
    match peek w with
    | (w, some (d, a)) =>
      if d = w.currentDepth then ({ w with next := none }, some a)
      else if w.currentDepth < d then
        nextSibling n { w with next := none, cursor := w.cursor.drain }
      else (w, none)
    | (w, none) => (w, none)

/-- Number of items a walker has not consumed (bound for `next_sibling`). -/
def Walker.remaining (w : Walker σ α) : Nat := w.cursor.rest.length + (if w.next.isSome then 1 else 0)

/-- visitor.rs:257-282 `walk_children`, given the sibling loop of its body. -/
def walkChildrenWith (loop : Walker σ α → Walker σ α × End) (w : Walker σ α) : Walker σ α × End :=
  match hasChildren w with
  | (w, false) => (w, .ok)
  | (w, true) =>
    match loop { w with currentDepth := w.currentDepth + 1 } with
    | (w, .ok) => ({ w with currentDepth := w.currentDepth - 1 }, .ok)
    | r => r

/-- `V::visit_die` on an entry (visitor.rs:303-341 and the overriding visitors): the callback, the
children if it walks them, the tail of the callback with a peek at the next entry. -/
def visitDieWith (v : Visitor σ α) (loop : Walker σ α → Walker σ α × End) (w : Walker σ α) (d : α) :
    Walker σ α × End :=
  match v.enter w.visitor d with
  | (s, .skip) => ({ w with visitor := s }, .ok)
  | (s, .fail) => ({ w with visitor := s }, .err)
  | (s, .panic) => ({ w with visitor := s }, .panic)
  | (s, .walk) =>
    match walkChildrenWith loop { w with visitor := s } with
    | (w, .ok) =>
      let (w, p) := peek w
      ({ w with visitor := v.leave w.visitor d (p.map (·.2)) }, .ok)
    | r => r

/-- visitor.rs:271-279: the loop over the siblings at the current depth. -/
def siblings (v : Visitor σ α) : Nat → Walker σ α → Walker σ α × End
  | 0, w => (w, .unfinished)
  | n + 1, w =>
    match nextSibling (w.remaining + 1) w with
    | (w, none) => (w, .ok)
    | (w, some d) =>
      match visitDieWith v (siblings v n) w d with
      | (w, .ok) => siblings v n w
      | r => r

/-- The walker a file walk creates for a unit (visitor.rs:58-71), or for the entries starting at a
DIE (visitor.rs:90-102). -/
def start (s : σ) (toks : List (Tok α)) : Walker σ α := { visitor := s, cursor := { rest := toks } }

/-- visitor.rs:83-115 `walk_die`: visits the entry the cursor starts at. -/
def walkDie (v : Visitor σ α) (s : σ) (toks : List (Tok α)) : σ × End :=
  match next (start s toks) with
  | .ok (w, some d) =>
    let (w, e) := visitDieWith v (siblings v (toks.length + 1)) w d
    (w.visitor, e)
  | .ok (w, none) => (w.visitor, .ok)
  | _ => (s, .panic)

/-- visitor.rs:232-255 `walk_unit`, with `visit_cu` given as a visitor callback too: the root must be
a compilation unit. -/
def walkUnit (isCu : α → Bool) (cu v : Visitor σ α) (s : σ) (toks : List (Tok α)) : σ × End :=
  match next (start s toks) with
  | .ok (w, some d) =>
    if isCu d then
      let (w, e) := visitDieWith cu (siblings v (toks.length + 1)) w d
      (w.visitor, e)
    else (s, .err)
  | .ok (w, none) => (w.visitor, .ok)
  | _ => (s, .panic)

/-- visitor.rs:49-81 `walk_file`: the units in order; the first unit that fails ends the walk, and
the visitor keeps what it has collected. -/
def walkFile (isCu : α → Bool) (cu v : Visitor σ α) (s : σ) : List (List (Tok α)) → σ × End
  | [] => (s, .ok)
  | u :: us =>
    match walkUnit isCu cu v s u with
    | (s, .ok) => walkFile isCu cu v s us
    | r => r

end Rudy.Walker
