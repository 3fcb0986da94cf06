import Verif.Model.Modules
import Verif.Props.Walker
/-
Facts about the module index builder, and the vocabulary C39 is stated in.
-/
namespace Rudy.Entries
open Rudy.Walker Rudy.Dwarf

mutual
/-- A tree and all trees below it, in document order. -/
def subtrees : Tree Die → List (Tree Die)
  | .node d f s ks => .node d f s ks :: subtreesList ks
/-- The same for siblings. -/
def subtreesList : List (Tree Die) → List (Tree Die)
  | [] => []
  | t :: ts => subtrees t ++ subtreesList ts
end

mutual
theorem subtrees_die (t : Tree Die) : (subtrees t).map Tree.die = t.entries := by
  match t with
  | .node d f s ks => simp [subtrees, Tree.entries, Tree.die, subtreesList_die ks]
theorem subtreesList_die (ts : List (Tree Die)) : (subtreesList ts).map Tree.die = entriesList ts := by
  match ts with
  | [] => simp [subtreesList, entriesList]
  | t :: ts => simp [subtreesList, entriesList, subtrees_die t, subtreesList_die ts]
end

theorem subtrees_self (t : Tree Die) : t ∈ subtrees t := by cases t; simp [subtrees]

theorem subtrees_kids (t : Tree Die) : subtrees t = t :: subtreesList t.kids := by cases t; simp [subtrees, Tree.kids]

end Rudy.Entries

namespace Rudy.Modules
open Rudy.Walker Rudy.Dwarf Rudy.Entries

/-! ### Vocabulary -/

/-- The name of an entry (empty if it has none). -/
def nameOf (d : Die) : Str :=
  match d.attr .name with
  | some (.str s) => s
  | _ => []

mutual
/-- Every entry of a tree with the module it belongs to, given the enclosing module: a namespace
belongs to itself and gives its name to what it contains; anything else, with everything below it,
belongs to the enclosing module. -/
def modulesOf (pre : List Str) : Tree Die → List (Die × List Str)
  | .node d _ _ ks =>
    if d.tag = .namespace then (d, pre ++ [nameOf d]) :: modulesOfList (pre ++ [nameOf d]) ks
    else (d, pre) :: (entriesList ks).map fun e => (e, pre)
/-- The same for siblings. -/
def modulesOfList (pre : List Str) : List (Tree Die) → List (Die × List Str)
  | [] => []
  | t :: ts => modulesOf pre t ++ modulesOfList pre ts
end

mutual
/-- The namespaces of a tree that are modules, with their paths, in document order. -/
def namespacesOf (pre : List Str) : Tree Die → List (Die × List Str)
  | .node d _ _ ks =>
    if d.tag = .namespace then (d, pre ++ [nameOf d]) :: namespacesOfList (pre ++ [nameOf d]) ks
    else []
/-- The same for siblings. -/
def namespacesOfList (pre : List Str) : List (Tree Die) → List (Die × List Str)
  | [] => []
  | t :: ts => namespacesOf pre t ++ namespacesOfList pre ts
end

/-- Every entry of a unit with its module; the unit itself belongs to the root module. -/
def unitModules (t : Tree Die) : List (Die × List Str) := (t.die, []) :: modulesOfList [] t.kids

/-- A namespace has a readable name. -/
def Named (d : Die) : Prop := d.tag = .namespace → ∃ s, d.attr .name = some (.str s)

/-- A well-formed unit: rooted in a compile unit entry, offsets grow in document order and stay inside
the unit, namespaces are named. -/
structure WellFormed (t : Tree Die) : Prop where
  root : t.die.tag = .compileUnit
  order : t.entries.Pairwise fun a b => a.off < b.off
  inside : ∀ d ∈ t.entries, d.off < t.die.off + t.die.unitLength
  named : ∀ d ∈ t.entries, Named d

/-! ### Proofs -/

/-- What is listed for offset `x`: with the last listed entry starting at or before `x`. -/
def look {β : Type} (x : Nat) : List (Die × β) → β → β
  | [], p => p
  | e :: S, p => look x S (if e.1.off ≤ x then e.2 else p)

theorem look_append {β : Type} (x : Nat) (S T : List (Die × β)) (p : β) :
    look x (S ++ T) p = look x T (look x S p) := by
  induction S generalizing p with
  | nil => rfl
  | cons e S ih => simp only [List.cons_append, look]; exact ih _

theorem look_below {β : Type} (x : Nat) (S : List (Die × β)) (p : β) (h : ∀ e ∈ S, x < e.1.off) :
    look x S p = p := by
  induction S generalizing p with
  | nil => rfl
  | cons e S ih =>
    have h1 := h e (by simp)
    simp only [look]; rw [if_neg (by omega)]
    exact ih _ fun e he => h e (by simp [he])

theorem look_const {β : Type} (x : Nat) (ds : List Die) (p : β) :
    look x (ds.map fun e => (e, p)) p = p := by
  induction ds with
  | nil => rfl
  | cons e ds ih => simp only [List.map_cons, look]; split <;> exact ih

theorem look_default {β : Type} (x : Nat) (e : Die × β) (S : List (Die × β)) (p q : β)
    (h : e.1.off ≤ x) : look x (e :: S) p = look x (e :: S) q := by
  simp [look, h]

theorem look_map {β γ : Type} (g : β → γ) (x : Nat) (S : List (Die × β)) (p : β) :
    look x (S.map fun e => (e.1, g e.2)) (g p) = g (look x S p) := by
  induction S generalizing p with
  | nil => rfl
  | cons e S ih =>
    simp only [List.map_cons, look]
    rw [← ih]
    split <;> rfl

theorem look_mem {β : Type} (x : Nat) (S : List (Die × β)) (p : β)
    (hs : (S.map (·.1)).Pairwise fun a b => a.off < b.off) (e : Die × β) (he : e ∈ S)
    (hx : e.1.off ≤ x) (hlast : ∀ f ∈ S, f.1.off ≤ x → f.1.off ≤ e.1.off) : look x S p = e.2 := by
  induction S generalizing p with
  | nil => simp at he
  | cons f S ih =>
    simp only [List.map_cons, List.pairwise_cons, List.mem_map] at hs
    simp only [List.mem_cons] at he
    rcases he with rfl | he
    · simp only [look, hx, if_true]
      apply look_below
      intro g hg
      have h1 := hs.1 g.1 ⟨g, hg, rfl⟩
      rcases Nat.lt_or_ge x g.1.off with h | h
      · exact h
      · have := hlast g (by simp [hg]) h; omega
    · simp only [look]
      exact ih _ hs.2 he fun g hg => hlast g (by simp [hg])

mutual
theorem modulesOf_fst (pre : List Str) (t : Tree Die) : (modulesOf pre t).map (·.1) = t.entries := by
  match t with
  | .node d f s ks =>
    simp only [modulesOf, Tree.entries]
    split
    · simp [modulesOfList_fst _ ks]
    · simp [Function.comp_def]
theorem modulesOfList_fst (pre : List Str) (ts : List (Tree Die)) :
    (modulesOfList pre ts).map (·.1) = entriesList ts := by
  match ts with
  | [] => simp [modulesOfList, entriesList]
  | t :: ts => simp [modulesOfList, entriesList, modulesOf_fst pre t, modulesOfList_fst pre ts]
end

theorem mem_modulesOf (pre : List Str) (t : Tree Die) (e : Die × List Str) (h : e ∈ modulesOf pre t) :
    e.1 ∈ t.entries := by
  rw [← modulesOf_fst pre t]; exact List.mem_map_of_mem h

theorem mem_modulesOfList (pre : List Str) (ts : List (Tree Die)) (e : Die × List Str)
    (h : e ∈ modulesOfList pre ts) : e.1 ∈ entriesList ts := by
  rw [← modulesOfList_fst pre ts]; exact List.mem_map_of_mem h

mutual
/-- Every entry of a tree with its module and the entry of that module (the namespace, or the unit), given those around it. -/
def placesOf (p : List Str × Die) : Tree Die → List (Die × (List Str × Die))
  | .node d _ _ ks =>
    if d.tag = .namespace then (d, (p.1 ++ [nameOf d], d)) :: placesOfList (p.1 ++ [nameOf d], d) ks
    else (d, p) :: (entriesList ks).map fun e => (e, p)
/-- The same for siblings. -/
def placesOfList (p : List Str × Die) : List (Tree Die) → List (Die × (List Str × Die))
  | [] => []
  | t :: ts => placesOf p t ++ placesOfList p ts
end

/-- Every entry of a unit with its module and the entry of that module. -/
def unitPlaces (t : Tree Die) : List (Die × (List Str × Die)) := (t.die, ([], t.die)) :: placesOfList ([], t.die) t.kids

mutual
theorem placesOf_modules (p : List Str × Die) (t : Tree Die) :
    (placesOf p t).map (fun e => (e.1, e.2.1)) = modulesOf p.1 t := by
  match t with
  | .node d f s ks =>
    simp only [placesOf, modulesOf]
    split
    · simp [placesOfList_modules _ ks]
    · simp [Function.comp_def]
theorem placesOfList_modules (p : List Str × Die) (ts : List (Tree Die)) :
    (placesOfList p ts).map (fun e => (e.1, e.2.1)) = modulesOfList p.1 ts := by
  match ts with
  | [] => simp [placesOfList, modulesOfList]
  | t :: ts => simp [placesOfList, modulesOfList, placesOf_modules p t, placesOfList_modules p ts]
end

theorem placesOfList_fst (p : List Str × Die) (ts : List (Tree Die)) :
    (placesOfList p ts).map (·.1) = entriesList ts := by
  rw [← modulesOfList_fst p.1 ts, ← placesOfList_modules]; simp

theorem mem_placesOfList (p : List Str × Die) (ts : List (Tree Die)) (e : Die × (List Str × Die))
    (h : e ∈ placesOfList p ts) : e.1 ∈ entriesList ts := by
  rw [← placesOfList_fst p ts]; exact List.mem_map_of_mem h

/-- `R` covers `[a, b)` without gaps or overlaps, by non-empty ranges in order. -/
def Tiles : Nat → Nat → List ModuleRange → Prop
  | a, b, [] => a = b
  | a, b, r :: R => r.start = a ∧ a < r.stop ∧ Tiles r.stop b R

theorem tiles_append (a b c : Nat) (R S : List ModuleRange) (h : Tiles a b R) (h' : Tiles b c S) :
    Tiles a c (R ++ S) := by
  induction R generalizing a with
  | nil => simp only [Tiles] at h; subst h; exact h'
  | cons r R ih => exact ⟨h.1, h.2.1, ih _ h.2.2⟩

theorem tiles_le (a b : Nat) (R : List ModuleRange) (h : Tiles a b R) : a ≤ b := by
  induction R generalizing a with
  | nil => simp only [Tiles] at h; omega
  | cons r R ih => have := ih _ h.2.2; have := h.2.1; omega

theorem tiles_mem (a b : Nat) (R : List ModuleRange) (h : Tiles a b R) (r : ModuleRange) (hr : r ∈ R) :
    a ≤ r.start ∧ r.start < r.stop ∧ r.stop ≤ b := by
  induction R generalizing a with
  | nil => simp at hr
  | cons s R ih =>
    obtain ⟨h1, h2, h3⟩ := h
    simp only [List.mem_cons] at hr
    rcases hr with rfl | hr
    · have := tiles_le _ _ _ h3; omega
    · have := ih _ h3 hr; omega

theorem tiles_cover (a b : Nat) (R : List ModuleRange) (h : Tiles a b R) (x : Nat) (ha : a ≤ x)
    (hb : x < b) : ∃ r ∈ R, r.start ≤ x ∧ x < r.stop := by
  induction R generalizing a with
  | nil => simp only [Tiles] at h; omega
  | cons s R ih =>
    obtain ⟨h1, h2, h3⟩ := h
    rcases Nat.lt_or_ge x s.stop with hx | hx
    · exact ⟨s, by simp, by omega, hx⟩
    · obtain ⟨r, hr, h⟩ := ih _ h3 hx
      exact ⟨r, by simp [hr], h⟩

theorem tiles_sorted (a b : Nat) (R : List ModuleRange) (h : Tiles a b R) :
    R.Pairwise fun r s => r.stop ≤ s.start := by
  induction R generalizing a with
  | nil => simp
  | cons s R ih =>
    obtain ⟨h1, h2, h3⟩ := h
    rw [List.pairwise_cons]
    exact ⟨fun r hr => (tiles_mem _ _ _ h3 r hr).1, ih _ h3⟩

theorem pathOf_snoc (st : List (Str × Die × Nat)) (e : Str × Die × Nat) (h : st ≠ []) :
    pathOf (st ++ [e]) = pathOf st ++ [e.1] := by
  cases st with
  | nil => exact absurd rfl h
  | cons a st => simp [pathOf]

/-- The entry on top of the stack of open namespaces. -/
def Top (st : List (Str × Die × Nat)) (d : Die) : Prop := ∃ l, st.getLast? = some l ∧ l.2.1 = d

/-- What visiting entries `ds` (of the trees `sub`) with places `S` and namespaces `N`, inside the module `p`, does to the
builder. -/
def Good (p : List Str × Die) (ds : List Die) (sub : List (Tree Die)) (S : List (Die × (List Str × Die)))
    (N : List (Die × List Str)) (b : Builder) (after : Option Die) (r : Builder × End) : Prop :=
  ∃ R extra, r.2 = .ok ∧ r.1.ranges = b.ranges ++ R ∧ Tiles b.lastSeen r.1.lastSeen R ∧
    r.1.stack = b.stack ++ extra ∧ (after.isSome = true → extra = []) ∧
    (∀ e, after = some e → r.1.lastSeen ≤ e.off) ∧
    (∀ M, b.lastSeen < M → (∀ d ∈ ds, d.off < M) → (∀ e, after = some e → e.off < M) →
      r.1.lastSeen < M) ∧
    (∀ ρ ∈ R, ∀ x, ρ.start ≤ x → x < ρ.stop → (ρ.path, ρ.die) = look x S p) ∧
    (∀ x, r.1.lastSeen ≤ x → (∀ e, after = some e → x < e.off) →
      (look x S p).1 = pathOf r.1.stack ∧ Top r.1.stack (look x S p).2) ∧
    r.1.modules = N.foldl (fun m e => m.push e.2 e.1) b.modules ∧
    (∀ q ∈ extra, ∃ t ∈ sub, t.die = q.2.1 ∧ t.entries <:+ ds)

/-- The hypotheses of a visit. -/
structure Fits (p : List Str × Die) (ds : List Die) (b : Builder) (after : Option Die) : Prop where
  stack : b.stack ≠ []
  path : pathOf b.stack = p.1
  top : Top b.stack p.2
  named : ∀ d ∈ ds, Named d
  order : ds.Pairwise fun a b => a.off < b.off
  low : ∀ d ∈ ds, b.lastSeen ≤ d.off
  high : ∀ e, after = some e → b.lastSeen ≤ e.off ∧ ∀ d ∈ ds, d.off < e.off

theorem entries_die (t : Tree α) : t.entries = t.die :: entriesList t.kids := by
  cases t; simp [Tree.entries, Tree.die, Tree.kids]

mutual
theorem visitTree_good (t : Tree Die) (p : List Str × Die) (b : Builder) (after : Option Die)
    (h : Fits p t.entries b after) :
    Good p t.entries (subtrees t) (placesOf p t) (namespacesOf p.1 t) b after (visitTree visitor b after t) := by
  match t with
  | .node d f s ks =>
    simp only [Tree.entries] at h ⊢
    by_cases ht : d.tag = .namespace
    · obtain ⟨nm, hnm⟩ := h.named d (by simp) ht
      have hname : nameOf d = nm := by simp [nameOf, hnm]
      have hstr : d.stringAttrOpt .name = .ok (some nm) := by simp [Die.stringAttrOpt, hnm]
      have hlow := h.low d (by simp)
      have hord := h.order
      rw [List.pairwise_cons] at hord
      -- the state after entering
      obtain ⟨last, hlast, hown⟩ := h.top
      obtain ⟨R0, b1, he, hr0, ht0, hl0, hs0, hp0, hm0⟩ : ∃ R0 b1, visitor.enter b d = (b1, .walk) ∧
          b1.ranges = b.ranges ++ R0 ∧ Tiles b.lastSeen d.off R0 ∧ b1.lastSeen = d.off ∧
          b1.stack = b.stack ++ [(nm, d, d.off)] ∧ (∀ ρ ∈ R0, (ρ.path, ρ.die) = p) ∧
          b1.modules = b.modules.push (p.1 ++ [nm]) d := by
        rcases Nat.lt_or_ge b.lastSeen d.off with hlt | hge
        · refine ⟨[{ path := pathOf b.stack, die := last.2.1, start := b.lastSeen, stop := d.off }], _,
            by simp only [visitor, ht, if_true, hstr, hlast, hlt]; rfl, rfl, ⟨rfl, hlt, rfl⟩, rfl, rfl,
            by simp [h.path, hown], ?_⟩
          simp only; rw [pathOf_snoc _ _ h.stack, h.path]
        · refine ⟨[], _, by simp only [visitor, ht, if_true, hstr, hlast, if_neg (show ¬ b.lastSeen < d.off by omega)]; rfl,
            by simp, by simp only [Tiles]; omega, by simp only; omega, rfl, by simp, ?_⟩
          simp only; rw [pathOf_snoc _ _ h.stack, h.path]
      have hfit : Fits (p.1 ++ [nm], d) (entriesList ks) b1 after := by
        refine ⟨by rw [hs0]; simp, by rw [hs0, pathOf_snoc _ _ h.stack, h.path], ⟨(nm, d, d.off), by rw [hs0]; simp, rfl⟩, ?_, hord.2, ?_, ?_⟩
        · exact fun d' hd' => h.named d' (by simp [hd'])
        · intro d' hd'; rw [hl0]; exact Nat.le_of_lt (hord.1 d' hd')
        · intro e he'
          have := h.high e he'
          exact ⟨by rw [hl0]; exact Nat.le_of_lt (this.2 d (by simp)), fun d' hd' => this.2 d' (by simp [hd'])⟩
      obtain ⟨R1, extra, g1, g2, g3, g4, g5, g6, g7, g8, g9, g10, g11⟩ := visitForest_good ks (p.1 ++ [nm], d) b1 after hfit
      rcases hv : visitForest visitor b1 after ks with ⟨b2, e2⟩
      rw [hv] at g1 g2 g3 g4 g6 g7 g9 g10
      simp only at g1 g2 g3 g4 g6 g7 g9 g10
      subst g1
      have hvt : visitTree visitor b after (.node d f s ks) = (visitor.leave b2 d after, .ok) := by
        simp only [visitTree]; rw [he]; simp only; rw [hv]
      rw [hvt]
      have hS : placesOf p (.node d f s ks) = (d, (p.1 ++ [nm], d)) :: placesOfList (p.1 ++ [nm], d) ks := by
        simp [placesOf, ht, hname]
      have hN : namespacesOf p.1 (.node d f s ks) = (d, p.1 ++ [nm]) :: namespacesOfList (p.1 ++ [nm]) ks := by
        simp [namespacesOf, ht, hname]
      rw [hS, hN]
      have lookLow : ∀ x, x < d.off → look x ((d, (p.1 ++ [nm], d)) :: placesOfList (p.1 ++ [nm], d) ks) p = p := by
        intro x hx
        apply look_below
        intro e he'
        simp only [List.mem_cons] at he'
        rcases he' with rfl | he'
        · exact hx
        · have := hord.1 _ (mem_placesOfList _ _ _ he'); omega
      have lookHigh : ∀ x, d.off ≤ x → look x ((d, (p.1 ++ [nm], d)) :: placesOfList (p.1 ++ [nm], d) ks) p =
          look x (placesOfList (p.1 ++ [nm], d) ks) (p.1 ++ [nm], d) := by
        intro x hx; simp [look, hx]
      have hd2 : d.off ≤ b2.lastSeen := by rw [← hl0]; exact tiles_le _ _ _ g3
      rw [hl0] at g3
      cases after with
      | none =>
        have hleave : visitor.leave b2 d none = b2 := rfl
        rw [hleave]
        refine ⟨R0 ++ R1, (nm, d, d.off) :: extra, rfl, by simp [g2, hr0], tiles_append _ _ _ _ _ ht0 g3,
          by simp [g4, hs0], by simp, by simp, ?_, ?_, ?_, ?_, ?_⟩
        · intro M h1 h2 _
          exact g7 M (by rw [hl0]; exact h2 d (by simp)) (fun d' hd' => h2 d' (by simp [hd'])) (by simp)
        · intro ρ hρ x h1 h2
          simp only [List.mem_append] at hρ
          rcases hρ with hρ | hρ
          · have := tiles_mem _ _ _ ht0 ρ hρ
            rw [lookLow x (by omega)]; exact hp0 ρ hρ
          · have := tiles_mem _ _ _ g3 ρ hρ
            rw [lookHigh x (by omega)]; exact g8 ρ hρ x h1 h2
        · intro x hx _
          simp only at hx
          rw [lookHigh x (by omega)]; exact g9 x hx (by simp)
        · simp only [List.foldl_cons]; rw [g10, hm0]
        · intro q hq
          simp only [List.mem_cons] at hq
          rcases hq with rfl | hq
          · exact ⟨.node d f s ks, by simp [subtrees], rfl, by rw [Tree.entries]; exact List.suffix_refl _⟩
          · obtain ⟨t', h1, h2, h3⟩ := g11 q hq
            exact ⟨t', by simp [subtrees, h1], h2, h3.trans (List.suffix_cons _ _)⟩
      | some e =>
        have hex := g5 rfl
        subst hex
        simp only [List.append_nil] at g4
        rw [hs0] at g4
        have hle := g6 e rfl
        have hlst : b2.stack.getLast? = some (nm, d, d.off) := by rw [g4]; simp
        have hdl : b2.stack.dropLast = b.stack := by rw [g4]; simp
        obtain ⟨R2, hleave1, hleave2, hleave3, hleave4, hleave5, hleave6⟩ : ∃ R2,
            (visitor.leave b2 d (some e)).ranges = b2.ranges ++ R2 ∧
            (visitor.leave b2 d (some e)).lastSeen = e.off ∧
            (visitor.leave b2 d (some e)).stack = b.stack ∧
            (visitor.leave b2 d (some e)).modules = b2.modules ∧
            Tiles b2.lastSeen e.off R2 ∧ ∀ ρ ∈ R2, (ρ.path, ρ.die) = (p.1 ++ [nm], d) := by
          rcases Nat.lt_or_ge b2.lastSeen e.off with hlt | hge
          · refine ⟨[{ path := pathOf b.stack ++ [nm], die := d, start := b2.lastSeen, stop := e.off }],
              ?_, ?_, ?_, ?_, ⟨rfl, hlt, rfl⟩, by simp [h.path]⟩ <;>
              simp [visitor, hlst, hlt, hdl]
          · have : ¬ b2.lastSeen < e.off := by omega
            refine ⟨[], ?_, ?_, ?_, ?_, by simp only [Tiles]; omega, by simp⟩ <;>
              simp [visitor, hlst, this, hdl]
            omega
        refine ⟨R0 ++ R1 ++ R2, [], rfl, ?_, ?_, by simp [hleave3], by simp, ?_, ?_, ?_, ?_, ?_, by simp⟩
        · rw [hleave1, g2, hr0]; simp
        · rw [hleave2]; exact tiles_append _ _ _ _ _ (tiles_append _ _ _ _ _ ht0 g3) hleave5
        · intro e' he'; cases he'; rw [hleave2]; omega
        · intro M _ _ h3; rw [hleave2]; exact h3 e rfl
        · intro ρ hρ x h1 h2
          simp only [List.mem_append] at hρ
          rcases hρ with (hρ | hρ) | hρ
          · have := tiles_mem _ _ _ ht0 ρ hρ
            rw [lookLow x (by omega)]; exact hp0 ρ hρ
          · have := tiles_mem _ _ _ g3 ρ hρ
            rw [lookHigh x (by omega)]; exact g8 ρ hρ x h1 h2
          · have := tiles_mem _ _ _ hleave5 ρ hρ
            rw [lookHigh x (by omega), hleave6 ρ hρ]
            have h9 := g9 x (by omega) (by intro e' he'; cases he'; omega)
            rw [g4, pathOf_snoc _ _ h.stack, h.path] at h9
            obtain ⟨ha, l, hb, hc⟩ := h9
            simp only [List.getLast?_append, List.getLast?_singleton, Option.some_or, Option.some.injEq] at hb
            subst hb
            exact Prod.ext ha.symm hc
        · intro x hx h2
          have := h2 e rfl
          rw [hleave2] at hx; omega
        · rw [hleave4]; simp only [List.foldl_cons]; rw [g10, hm0]
    · have hvt : visitTree visitor b after (.node d f s ks) = (b, .ok) := by
        simp [visitTree, visitor, ht]
      rw [hvt]
      refine ⟨[], [], rfl, by simp, rfl, by simp, by simp, fun e he => (h.high e he).1, fun M h1 _ _ => h1,
        by simp, ?_, by simp [namespacesOf, ht], by simp⟩
      intro x _ _
      have : look x (placesOf p (.node d f s ks)) p = p := by
        simp only [placesOf, ht, if_false]
        exact look_const x (d :: entriesList ks) p
      rw [this]
      exact ⟨h.path.symm, h.top⟩
theorem visitForest_good (ts : List (Tree Die)) (p : List Str × Die) (b : Builder) (after : Option Die)
    (h : Fits p (entriesList ts) b after) :
    Good p (entriesList ts) (subtreesList ts) (placesOfList p ts) (namespacesOfList p.1 ts) b after
      (visitForest visitor b after ts) := by
  match ts with
  | [] =>
    refine ⟨[], [], rfl, by simp [visitForest], rfl, by simp [visitForest], by simp,
      fun e he => (h.high e he).1, fun M h1 _ _ => h1, by simp, ?_, rfl, by simp⟩
    intro x _ _
    simp only [placesOfList, look, visitForest]; exact ⟨h.path.symm, h.top⟩
  | t :: ts =>
    have hord := h.order
    simp only [entriesList] at hord
    rw [List.pairwise_append] at hord
    obtain ⟨o1, o2, o3⟩ := hord
    have hfit1 : Fits p t.entries b (firstOr after ts) := by
      refine ⟨h.stack, h.path, h.top, fun d hd => h.named d (by simp [entriesList, hd]), o1,
        fun d hd => h.low d (by simp [entriesList, hd]), ?_⟩
      intro e he
      cases ts with
      | nil =>
        simp only [firstOr] at he
        have := h.high e he
        exact ⟨this.1, fun d hd => this.2 d (by simp [entriesList, hd])⟩
      | cons t' ts' =>
        simp only [firstOr, Option.some.injEq] at he
        have hm : e ∈ entriesList (t' :: ts') := by
          rw [← he]; simp only [entriesList, List.mem_append]; left; rw [entries_die]; simp
        exact ⟨h.low e (by simp only [entriesList, List.mem_append] at hm ⊢; right; exact hm),
          fun d hd => o3 d hd e hm⟩
    obtain ⟨R1, ex1, g1, g2, g3, g4, g5, g6, g7, g8, g9, g10, g11⟩ := visitTree_good t p b _ hfit1
    rcases hv : visitTree visitor b (firstOr after ts) t with ⟨b1, e1⟩
    rw [hv] at g1 g2 g3 g4 g6 g7 g9 g10
    simp only at g1 g2 g3 g4 g6 g7 g9 g10
    subst g1
    have hvf : visitForest visitor b after (t :: ts) = visitForest visitor b1 after ts := by
      simp only [visitForest]; rw [hv]
    rw [hvf]
    cases ts with
    | nil =>
      simp only [firstOr, visitForest, entriesList, subtreesList, placesOfList, namespacesOfList, List.append_nil] at *
      exact ⟨R1, ex1, rfl, g2, g3, g4, g5, g6, g7, g8, g9, g10, g11⟩
    | cons t' ts' =>
      simp only [firstOr] at g5 g6 g7 g8 g9
      have hex := g5 rfl
      subst hex
      simp only [List.append_nil] at g4
      have hm : t'.die ∈ entriesList (t' :: ts') := by
        simp only [entriesList, List.mem_append]; left; rw [entries_die]; simp
      have hle1 := g6 t'.die rfl
      have hmin : ∀ d ∈ entriesList (t' :: ts'), t'.die.off ≤ d.off := by
        intro d hd
        have h2 := o2
        simp only [entriesList] at h2 hd
        rw [entries_die, List.cons_append, List.pairwise_cons] at h2
        rw [entries_die, List.cons_append, List.mem_cons] at hd
        rcases hd with rfl | hd
        · exact Nat.le_refl _
        · exact Nat.le_of_lt (h2.1 d hd)
      have hfit2 : Fits p (entriesList (t' :: ts')) b1 after := by
        refine ⟨by rw [g4]; exact h.stack, by rw [g4]; exact h.path, by rw [g4]; exact h.top,
          fun d hd => h.named d (by rw [entriesList, List.mem_append]; right; exact hd), o2, ?_, ?_⟩
        · intro d hd; have := hmin d hd; omega
        · intro e he
          have := h.high e he
          have h2 := this.2 t'.die (by rw [entriesList, List.mem_append]; right; exact hm)
          exact ⟨by omega, fun d hd => this.2 d (by rw [entriesList, List.mem_append]; right; exact hd)⟩
      obtain ⟨R2, ex2, k1, k2, k3, k4, k5, k6, k7, k8, k9, k10, k11⟩ :=
        visitForest_good (t' :: ts') p b1 after hfit2
      have hcons : ∃ q S', placesOfList p (t' :: ts') = (t'.die, q) :: S' := by
        cases t' with
        | node d f s ks =>
          simp only [placesOfList, placesOf, Tree.die]
          split <;> exact ⟨_, _, rfl⟩
      obtain ⟨q, S', hS'⟩ := hcons
      have split2 : ∀ x, look x (placesOfList p (t :: t' :: ts')) p =
          if x < t'.die.off then look x (placesOf p t) p
          else look x (placesOfList p (t' :: ts')) p := by
        intro x
        rw [placesOfList, look_append]
        split
        · apply look_below
          intro e he
          have := hmin e.1 (mem_placesOfList _ _ _ he)
          omega
        · rw [hS']; exact look_default _ _ _ _ _ (by simp only; omega)
      have preHere : ∀ x, b1.lastSeen ≤ x → x < t'.die.off → look x (placesOf p t) p = p := by
        intro x h1 h2
        have h9 := g9 x h1 (by intro e he; cases he; exact h2)
        rw [g4, h.path] at h9
        obtain ⟨ha, l, hb, hc⟩ := h9
        obtain ⟨l', hb', hc'⟩ := h.top
        rw [hb] at hb'
        cases hb'
        exact Prod.ext ha (hc.symm.trans hc')
      have lowNext : ∀ x, x < t'.die.off → look x (placesOfList p (t' :: ts')) p = p := by
        intro x hx
        apply look_below
        intro e he
        have := hmin e.1 (mem_placesOfList _ _ _ he)
        omega
      have hl12 := tiles_le _ _ _ k3
      refine ⟨R1 ++ R2, ex2, k1, by rw [k2, g2]; simp, tiles_append _ _ _ _ _ g3 k3, by rw [k4, g4], k5,
        k6, ?_, ?_, ?_, ?_, ?_⟩
      · intro M h1 h2 h3
        refine k7 M ?_ (fun d hd => h2 d (by rw [entriesList, List.mem_append]; right; exact hd)) h3
        have := h2 t'.die (by rw [entriesList, List.mem_append]; right; exact hm)
        omega
      · intro ρ hρ x h1 h2
        simp only [List.mem_append] at hρ
        rw [split2]
        rcases hρ with hρ | hρ
        · have := tiles_mem _ _ _ g3 ρ hρ
          rw [if_pos (by omega)]; exact g8 ρ hρ x h1 h2
        · have := tiles_mem _ _ _ k3 ρ hρ
          have h8 := k8 ρ hρ x h1 h2
          split
          · rw [preHere x (by omega) (by assumption), h8, lowNext x (by assumption)]
          · exact h8
      · intro x hx h2
        rw [split2]
        have h9 := k9 x hx h2
        split
        · rw [preHere x (by omega) (by assumption)]
          rwa [lowNext x (by assumption)] at h9
        · exact h9
      · rw [k10, g10]; conv => rhs; rw [namespacesOfList, List.foldl_append]
      · intro q hq
        obtain ⟨m, h1, h2, h3⟩ := k11 q hq
        refine ⟨m, by rw [subtreesList, List.mem_append]; exact Or.inr h1, h2, h3.trans ?_⟩
        conv => rhs; rw [entriesList]
        exact List.suffix_append _ _
end

end Rudy.Modules
