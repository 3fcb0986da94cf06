import Verif.Proof.Parser
import Mathlib.Data.List.Forall2
/-
C41: patterns over the tree of debugging information entries.
-/
namespace Rudy.Parse
open Rudy.Dwarf

/-- C41: a pattern for a child selects the first child for which it succeeds; the children before it
do not match it. -/
theorem C41_first_matching_child {T : Type} (p : Parser T) (db : Db) (e : Nat) (x : T) :
    child p db e = .ok x ↔ ∃ before c after, db.children e = .ok (before ++ c :: after) ∧ p db c = .ok x ∧
      ∀ b ∈ before, p db b = .err := child_ok p db e x

/-- C41: a group of patterns matches exactly if each pattern alone matches, with the same results: no
pattern takes a child away from another, whatever their order. -/
theorem C41_patterns_independent {T U V : Type} (p : Parser T) (q : Parser U) (r : Parser V) (db : Db)
    (e : Nat) (x : T) (y : U) (z : V) :
    parseChildren (pair (single p) (pair (single q) (single r))) db e = .ok (x, y, z) ↔
      child p db e = .ok x ∧ child q db e = .ok y ∧ child r db e = .ok z := by
  rw [parseChildren_pair, parseChildren_pair]; rfl

/-- C41: the same for groups of any size. -/
theorem C41_groups_independent {S S' T U : Type} (m : Multi S T) (n : Multi S' U) (db : Db) (e : Nat) (x : T)
    (y : U) :
    parseChildren (pair m n) db e = .ok (x, y) ↔
      parseChildren m db e = .ok x ∧ parseChildren n db e = .ok y := parseChildren_pair m n db e x y

theorem slots_single_err {T : Type} (p : Parser T) (db : Db) (cs : List Nat) :
    slots (single p) db cs none = .ok none ↔ ∀ c ∈ cs, p db c = .err := by
  induction cs with
  | nil => simp [slots]
  | cons c cs ih =>
    have hs : slots (single p) db (c :: cs) none =
        ((single p).step db c none).bind fun s => slots (single p) db cs s := rfl
    rw [hs]
    cases hp : p db c with
    | ok y =>
      have : (single p).step db c none = .ok (some y) := by simp [single, hp]
      rw [this, Res.bind_ok, slots_single_some]
      simp [hp]
    | err =>
      have : (single p).step db c none = .ok none := by simp [single, hp]
      rw [this, Res.bind_ok, ih]
      simp [hp]
    | panic =>
      have : (single p).step db c none = .panic := by simp [single, hp]
      rw [this]
      simp [hp]

/-- C41: a required child that is missing is an error: the pattern fails if and only if it matches no
child (or the children cannot be read). -/
theorem C41_missing_child {T : Type} (p : Parser T) (db : Db) (e : Nat) :
    child p db e = .err ↔ db.children e = .err ∨ ∃ cs, db.children e = .ok cs ∧ ∀ c ∈ cs, p db c = .err := by
  simp only [child, parseChildren]
  cases hc : db.children e with
  | err => simp
  | panic => simp
  | ok cs =>
    simp only [Res.bind_ok, reduceCtorEq, false_or, Res.ok.injEq, exists_eq_left']
    rw [← slots_single_err]
    cases hs : slots (single p) db cs (single p).init with
    | err =>
      exfalso
      have : ∀ cs s, slots (single p) db cs s ≠ .err := by
        intro cs
        induction cs with
        | nil => simp [slots]
        | cons c cs ih =>
          intro s h
          simp only [slots] at h
          cases s with
          | some y => simp only [single, Res.bind_ok] at h; exact ih _ h
          | none =>
            cases hp : p db c with
            | ok y => simp only [single, hp, Res.bind_ok] at h; exact ih _ h
            | err => simp only [single, hp, Res.bind_ok] at h; exact ih _ h
            | panic => simp [single, hp] at h
      exact this _ _ hs
    | panic =>
      have : slots (single p) db cs none = .panic := hs
      simp [this]
    | ok s =>
      have : slots (single p) db cs none = .ok s := hs
      rw [this]
      cases s <;> simp [single, Res.ofOption]

/-- C41: collecting over all children keeps the results of exactly the children that match, in order;
the others are left out. -/
theorem C41_every_matching_child {T : Type} (p : Parser T) (db : Db) (e : Nat) (cs : List Nat)
    (h : db.children e = .ok cs) (hp : ∀ c ∈ cs, p db c ≠ .panic) :
    forEachChild p db e = .ok (cs.filterMap fun c => match p db c with | .ok x => some x | _ => none) := by
  simp only [forEachChild, h, Res.bind_ok]
  clear h
  induction cs with
  | nil => rfl
  | cons c cs ih =>
    simp only [collect]
    have := hp c (by simp)
    have ih := ih fun c hm => hp c (by simp [hm])
    cases hpc : p db c with
    | ok x => simp [ih, hpc]
    | err => simp [ih, hpc]
    | panic => exact absurd hpc this

/-- C41: collecting over all children where every child must be understood succeeds only if it is. -/
theorem C41_every_child_understood {T : Type} (p : Parser (Option T)) (db : Db) (e : Nat) (xs : List T) :
    tryForEachChild p db e = .ok xs ↔ ∃ cs os, db.children e = .ok cs ∧
      List.Forall₂ (fun c o => p db c = .ok o) cs os ∧ xs = os.flatMap Option.toList := by
  simp only [tryForEachChild, Res.bind_eq_ok]
  have : ∀ cs xs, tryCollect p db cs = .ok xs ↔
      ∃ os, List.Forall₂ (fun c o => p db c = .ok o) cs os ∧ xs = os.flatMap Option.toList := by
    intro cs
    induction cs with
    | nil =>
      intro xs
      simp only [tryCollect, List.forall₂_nil_left_iff, exists_eq_left]
      constructor
      · intro h; cases h; rfl
      · intro h; simp [h]
    | cons c cs ih =>
      intro xs
      simp only [tryCollect, Res.bind_eq_ok]
      constructor
      · rintro ⟨o, ho, ys, hys, he⟩
        cases he
        obtain ⟨os, h1, rfl⟩ := (ih ys).1 hys
        exact ⟨o :: os, .cons ho h1, by simp⟩
      · rintro ⟨os, h1, rfl⟩
        cases h1 with
        | cons ho h1 => exact ⟨_, ho, _, (ih _).2 ⟨_, h1, rfl⟩, by simp⟩
  constructor
  · rintro ⟨cs, hcs, h⟩
    obtain ⟨os, h1, h2⟩ := (this cs xs).1 h
    exact ⟨cs, os, hcs, h1, h2⟩
  · rintro ⟨cs, os, hcs, h1, h2⟩
    exact ⟨cs, hcs, (this cs xs).2 ⟨os, h1, h2⟩⟩

/-- C41: looking a member up by name gives the first child of that name, whatever else the type
contains. -/
theorem C41_member_by_name (db : Db) (e : Nat) (n : Str) (c : Nat) :
    member n db e = .ok c ↔ FirstChild db e (fun c => Named db c n) c := getMember_ok db e n c

/-- C41: the offset of a field path is the sum of the offsets of the members along the path, and it ends
at the type of the last one. -/
theorem C41_field_path (db : Db) (n : Str) (ns : List Str) (m t r : Nat) :
    fieldPath (n :: ns) db m = .ok (t, r) ↔
      Named db m n ∧ ∃ o t1 o', Located db m o ∧ Typed db m t1 ∧ Along db t1 ns o' t ∧ r = o + o' ∧
        r < u64Max1 := fieldPath_ok db n ns m t r

/-- C41: a path that leaves the address space panics (in a debug build). -/
theorem C41_field_path_overflow_panics (db : Db) (n n' : Str) (m m' o o' t t' : Nat) (h1 : Named db m n)
    (h2 : Located db m o) (h3 : Typed db m t) (ho : o < u64Max1)
    (h4 : FirstChild db t (fun c => Named db c n') m') (h5 : Located db m' o') (_h6 : Typed db m' t')
    (h : u64Max1 ≤ o + o') : fieldPath [n, n'] db m = .panic := by
  have e2 : udataAttr .dataMemberLocation db m = .ok o := (located_iff db m o).2 h2
  have e3 : refAttr .type db m = .ok t := (typed_iff db m t).2 h3
  have e5 : udataAttr .dataMemberLocation db m' = .ok o' := (located_iff db m' o').2 h5
  simp only [fieldPath, (dieName_ok db m n).2 h1, Res.bind_ok, if_true, field, e2, e3, addU, Nat.zero_add, ho,
    follow, (getMember_ok db t n' m').2 h4, e5]
  rw [if_neg (by omega)]; rfl

/-- C41: an alternative that does not match is an absent result, not an error. -/
theorem C41_optional {T : Type} (p : Parser T) (db : Db) (e : Nat) (x : T) :
    (filterP p db e = .ok (some x) ↔ p db e = .ok x) ∧ (filterP p db e = .ok none ↔ p db e = .err) ∧
      filterP p db e ≠ .err := by
  simp only [filterP]
  cases p db e <;> simp

/-! ### A concrete case: `struct { a: A, b: u32 }` with `struct A { c: u8 (at 4) }` -/

/-- Entries 1 (the struct: 2 `a` at 16 of type 10, 3 `b` at 8, 4 another `a`), 10 (`A`: 11 `c` at 4). -/
def demoDb : Db where
  entry
    | 1 => some { off := 1, tag := .structureType }
    | 2 => some { off := 2, tag := .member,
                  attrs := [(.name, .str (chars! "a")), (.dataMemberLocation, .data 16), (.type, .ref 10)] }
    | 3 => some { off := 3, tag := .member,
                  attrs := [(.name, .str (chars! "b")), (.dataMemberLocation, .data 8), (.type, .ref 20)] }
    | 4 => some { off := 4, tag := .member,
                  attrs := [(.name, .str (chars! "a")), (.dataMemberLocation, .data 99), (.type, .ref 20)] }
    | 10 => some { off := 10, tag := .structureType }
    | 11 => some { off := 11, tag := .member,
                   attrs := [(.name, .str (chars! "c")), (.dataMemberLocation, .data 4), (.type, .ref 20)] }
    | _ => none
  children
    | 1 => .ok [2, 3, 4]
    | 10 => .ok [11]
    | _ => .err

example :
    child (fieldPathOffset [chars! "a", chars! "c"]) demoDb 1 = .ok 20 ∧
    parseChildren (pair (single (isMemberOffset (chars! "b"))) (single (isMemberOffset (chars! "a")))) demoDb 1
      = .ok (8, 16) ∧
    child (isMemberOffset (chars! "z")) demoDb 1 = .err ∧
    forEachChild (isMemberOffset (chars! "a")) demoDb 1 = .ok [16, 99] := by
  refine ⟨rfl, rfl, rfl, rfl⟩

example : Along demoDb 1 [chars! "a", chars! "c"] (16 + (4 + 0)) 20 := by
  refine .cons ⟨2, ⟨[], [3, 4], rfl, ⟨_, rfl, rfl⟩, by simp⟩, ⟨_, rfl, rfl⟩, ⟨_, rfl, rfl⟩⟩ ?_
  exact .cons ⟨11, ⟨[], [], rfl, ⟨_, rfl, rfl⟩, by simp⟩, ⟨_, rfl, rfl⟩, ⟨_, rfl, rfl⟩⟩ (.nil _)

end Rudy.Parse
