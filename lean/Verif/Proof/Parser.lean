import Verif.Model.Parser
/-
Vocabulary for entries and their members, and the meaning of the parser combinators.
-/
namespace Rudy.Parse
open Rudy.Dwarf

/-! ### Vocabulary: what the debug file says -/

/-- The entry at `c` is called `n`. -/
def Named (db : Db) (c : Nat) (n : Str) : Prop :=
  ∃ d, db.entry c = some d ∧ d.attr .name = some (.str n)

/-- The entry at `c` is a member at offset `o`. -/
def Located (db : Db) (c o : Nat) : Prop :=
  ∃ d, db.entry c = some d ∧ d.attr .dataMemberLocation = some (.data o)

/-- The entry at `c` has the type described at `t`. -/
def Typed (db : Db) (c t : Nat) : Prop :=
  ∃ d, db.entry c = some d ∧ d.attr .type = some (.ref t)

/-- The entry at `c` has the tag. -/
def Tagged (db : Db) (c : Nat) (t : Tag) : Prop := ∃ d, db.entry c = some d ∧ d.tag = t

/-- The entry at `c` has the number as attribute. -/
def HasNum (db : Db) (c : Nat) (a : At) (n : Nat) : Prop :=
  ∃ d, db.entry c = some d ∧ d.attr a = some (.data n)

/-- `c` is the first of the children of `e` with the property. -/
def FirstChild (db : Db) (e : Nat) (P : Nat → Prop) (c : Nat) : Prop :=
  ∃ before after, db.children e = .ok (before ++ c :: after) ∧ P c ∧ ∀ b ∈ before, ¬ P b

/-- The first child of the type `e` called `n` is at offset `o` and has type `t`. -/
def Field (db : Db) (e : Nat) (n : Str) (o t : Nat) : Prop :=
  ∃ c, FirstChild db e (fun c => Named db c n) c ∧ Located db c o ∧ Typed db c t

/-- From the type `e`, following the fields `ns` leads to the type `t`; `off` is the sum of the offsets
of the fields. -/
inductive Along (db : Db) : Nat → List Str → Nat → Nat → Prop
  | nil (e : Nat) : Along db e [] 0 e
  | cons {e t' t o o' : Nat} {n : Str} {ns : List Str} :
    Field db e n o t' → Along db t' ns o' t → Along db e (n :: ns) (o + o') t

/-! ### Accessors -/

theorem dieName_ok (db : Db) (c : Nat) (n : Str) : dieName db c = .ok n ↔ Named db c n := by
  simp only [dieName, stringAttr, Named]
  cases db.entry c with
  | none => simp
  | some d =>
    simp only [Die.stringAttr, Option.some.injEq, exists_eq_left']
    split
    · rename_i s hs; simp [hs]
    · rename_i hs
      constructor
      · intro h; cases h
      · intro h; exact absurd h (hs n)

theorem dieName_no_panic (db : Db) (c : Nat) : dieName db c ≠ .panic := by
  simp only [dieName, stringAttr]
  cases db.entry c with
  | none => simp
  | some d => simp only [Die.stringAttr]; split <;> simp

theorem udataAttr_ok (db : Db) (c : Nat) (a : At) (n : Nat) :
    udataAttr a db c = .ok n ↔ HasNum db c a n := by
  simp only [udataAttr, HasNum]
  cases db.entry c with
  | none => simp
  | some d =>
    simp only [Die.udataAttr, Option.some.injEq, exists_eq_left']
    split
    · rename_i s hs; simp [hs]
    · rename_i hs
      constructor
      · intro h; cases h
      · intro h; exact absurd h (hs n)

theorem udataAttr_no_panic (db : Db) (c : Nat) (a : At) : udataAttr a db c ≠ .panic := by
  simp only [udataAttr]
  cases db.entry c with
  | none => simp
  | some d => simp only [Die.udataAttr]; split <;> simp

theorem located_iff (db : Db) (c o : Nat) : dataOffset db c = .ok o ↔ Located db c o :=
  udataAttr_ok db c .dataMemberLocation o

theorem refAttr_ok (db : Db) (c : Nat) (a : At) (t : Nat) :
    refAttr a db c = .ok t ↔ ∃ d, db.entry c = some d ∧ d.attr a = some (.ref t) := by
  simp only [refAttr, getAttr]
  cases db.entry c with
  | none => simp
  | some d =>
    simp only [Option.some.injEq, exists_eq_left']
    cases hd : d.attr a with
    | none => simp
    | some v => cases v <;> simp

theorem refAttr_no_panic (db : Db) (c : Nat) (a : At) : refAttr a db c ≠ .panic := by
  simp only [refAttr, getAttr]
  cases db.entry c with
  | none => simp
  | some d =>
    cases hd : d.attr a with
    | none => simp [hd]
    | some v => cases v <;> simp [hd]

theorem typed_iff (db : Db) (c t : Nat) : entryType db c = .ok t ↔ Typed db c t := refAttr_ok db c .type t

theorem tagged_iff (db : Db) (c : Nat) (t : Tag) : tag db c = some t ↔ Tagged db c t := by
  simp only [tag, Tagged]
  cases db.entry c <;> simp

theorem Named.unique {db : Db} {c : Nat} {n m : Str} (h : Named db c n) (h' : Named db c m) : n = m := by
  obtain ⟨d, h1, h2⟩ := h; obtain ⟨d', h3, h4⟩ := h'
  rw [h1] at h3; cases h3; rw [h2] at h4; cases h4; rfl

theorem Located.unique {db : Db} {c n m : Nat} (h : Located db c n) (h' : Located db c m) : n = m := by
  obtain ⟨d, h1, h2⟩ := h; obtain ⟨d', h3, h4⟩ := h'
  rw [h1] at h3; cases h3; rw [h2] at h4; cases h4; rfl

theorem Typed.unique {db : Db} {c n m : Nat} (h : Typed db c n) (h' : Typed db c m) : n = m := by
  obtain ⟨d, h1, h2⟩ := h; obtain ⟨d', h3, h4⟩ := h'
  rw [h1] at h3; cases h3; rw [h2] at h4; cases h4; rfl

/-! ### First children -/

theorem find?_first {α : Type} (p : α → Bool) (l : List α) (c : α) :
    l.find? p = some c ↔ ∃ before after, l = before ++ c :: after ∧ p c = true ∧ ∀ b ∈ before, p b = false := by
  rw [List.find?_eq_some_iff_append]
  constructor
  · rintro ⟨h, as, bs, e, hb⟩
    exact ⟨as, bs, e, h, fun b hm => by simpa using hb b hm⟩
  · rintro ⟨as, bs, e, h, hb⟩
    exact ⟨h, as, bs, e, fun b hm => by simpa using hb b hm⟩

theorem findChild_ok (db : Db) (e : Nat) (p : Nat → Bool) (P : Nat → Prop) (hp : ∀ c, p c = true ↔ P c)
    (c : Nat) :
    ((db.children e).bind fun cs => Res.ofOption (cs.find? p)) = .ok c ↔ FirstChild db e P c := by
  rw [Res.bind_eq_ok]
  constructor
  · rintro ⟨cs, hcs, h⟩
    cases hf : cs.find? p with
    | none => rw [hf] at h; cases h
    | some x =>
      rw [hf] at h; cases h
      obtain ⟨b, a, rfl, h1, h2⟩ := (find?_first p cs c).1 hf
      exact ⟨b, a, hcs, (hp c).1 h1, fun x hx hP => absurd ((hp x).2 hP) (by simp [h2 x hx])⟩
  · rintro ⟨b, a, hcs, h1, h2⟩
    refine ⟨_, hcs, ?_⟩
    have : (b ++ c :: a).find? p = some c := by
      rw [find?_first]
      refine ⟨b, a, rfl, (hp c).2 h1, fun x hx => ?_⟩
      cases hpx : p x with
      | false => rfl
      | true => exact absurd ((hp x).1 hpx) (h2 x hx)
    rw [this]; rfl

theorem getMember_ok (db : Db) (e : Nat) (n : Str) (c : Nat) :
    getMember n db e = .ok c ↔ FirstChild db e (fun c => Named db c n) c :=
  findChild_ok db e _ _ (fun c => by simp [dieName_ok]) c

theorem getMemberByTag_ok (db : Db) (e : Nat) (t : Tag) (c : Nat) :
    getMemberByTag t db e = .ok c ↔ FirstChild db e (fun c => Tagged db c t) c :=
  findChild_ok db e _ _ (fun c => by simp [tagged_iff]) c

theorem FirstChild.unique {db : Db} {e : Nat} {P : Nat → Prop} {c d : Nat} (h : FirstChild db e P c)
    (h' : FirstChild db e P d) : c = d := by
  classical
  have h1 := (findChild_ok db e (fun c => decide (P c)) P (fun c => by simp) c).2 h
  have h2 := (findChild_ok db e (fun c => decide (P c)) P (fun c => by simp) d).2 h'
  rw [h1] at h2; cases h2; rfl

theorem Field.unique {db : Db} {e o t o' t' : Nat} {n : Str} (h : Field db e n o t) (h' : Field db e n o' t') :
    o = o' ∧ t = t' := by
  obtain ⟨c, h1, h2, h3⟩ := h
  obtain ⟨d, h4, h5, h6⟩ := h'
  cases h1.unique h4
  exact ⟨h2.unique h5, h3.unique h6⟩

theorem Along.unique {db : Db} {e o t o' t' : Nat} {ns : List Str} (h : Along db e ns o t)
    (h' : Along db e ns o' t') : o = o' ∧ t = t' := by
  induction h generalizing o' t' with
  | nil e => cases h'; exact ⟨rfl, rfl⟩
  | cons hf _ ih =>
    cases h' with
    | cons hf' ha' =>
      obtain ⟨rfl, rfl⟩ := hf.unique hf'
      obtain ⟨rfl, rfl⟩ := ih ha'
      exact ⟨rfl, rfl⟩

/-! ### Groups of children -/

theorem slots_pair {S S' T U : Type} (m : Multi S T) (n : Multi S' U) (db : Db) (cs : List Nat) (s : S) (t : S')
    (a : S) (b : S') :
    slots (pair m n) db cs (s, t) = .ok (a, b) ↔ slots m db cs s = .ok a ∧ slots n db cs t = .ok b := by
  induction cs generalizing s t with
  | nil => simp [slots]
  | cons c cs ih =>
    simp only [slots, Res.bind_eq_ok]
    constructor
    · rintro ⟨⟨s', t'⟩, h1, h2⟩
      simp only [pair, Res.bind_eq_ok] at h1
      obtain ⟨x, hx, y, hy, he⟩ := h1
      cases he
      have := (ih s' t').1 h2
      exact ⟨⟨s', hx, this.1⟩, ⟨t', hy, this.2⟩⟩
    · rintro ⟨⟨s', h1, h2⟩, ⟨t', h3, h4⟩⟩
      refine ⟨(s', t'), ?_, (ih s' t').2 ⟨h2, h4⟩⟩
      simp [pair, h1, h3]

theorem parseChildren_pair {S S' T U : Type} (m : Multi S T) (n : Multi S' U) (db : Db) (e : Nat) (x : T) (y : U) :
    parseChildren (pair m n) db e = .ok (x, y) ↔
      parseChildren m db e = .ok x ∧ parseChildren n db e = .ok y := by
  simp only [parseChildren, Res.bind_eq_ok]
  constructor
  · rintro ⟨cs, hcs, ⟨a, b⟩, h1, h2⟩
    have := (slots_pair m n db cs m.init n.init a b).1 h1
    simp only [pair, Res.bind_eq_ok] at h2
    obtain ⟨x', hx, y', hy, he⟩ := h2
    cases he
    exact ⟨⟨cs, hcs, a, this.1, hx⟩, ⟨cs, hcs, b, this.2, hy⟩⟩
  · rintro ⟨⟨cs, hcs, a, h1, h2⟩, ⟨cs', hcs', b, h3, h4⟩⟩
    rw [hcs] at hcs'; cases hcs'
    exact ⟨cs, hcs, (a, b), (slots_pair m n db cs m.init n.init a b).2 ⟨h1, h3⟩, by simp [pair, h2, h4]⟩

theorem slots_single_some {T : Type} (p : Parser T) (db : Db) (cs : List Nat) (x : T) :
    slots (single p) db cs (some x) = .ok (some x) := by
  induction cs with
  | nil => rfl
  | cons c cs ih =>
    show (((single p).step db c (some x)).bind fun s => slots (single p) db cs s) = _
    simpa [single] using ih

theorem slots_single {T : Type} (p : Parser T) (db : Db) (cs : List Nat) (x : T) :
    slots (single p) db cs none = .ok (some x) ↔
      ∃ before c after, cs = before ++ c :: after ∧ p db c = .ok x ∧ ∀ b ∈ before, p db b = .err := by
  induction cs with
  | nil => simp [slots]
  | cons c cs ih =>
    have hs : slots (single p) db (c :: cs) none =
        ((single p).step db c none).bind fun s => slots (single p) db cs s := rfl
    rw [hs]
    cases hp : p db c with
    | ok y =>
      have : (single p).step db c none = .ok (some y) := by simp [single, hp]
      rw [this, Res.bind_ok, slots_single_some]
      constructor
      · intro h; cases h; exact ⟨[], c, cs, rfl, hp, by simp⟩
      · rintro ⟨before, d, after, he, hd, hb⟩
        cases before with
        | nil => cases he; rw [hp] at hd; cases hd; rfl
        | cons b bs =>
          cases he
          have := hb c (by simp)
          rw [hp] at this; cases this
    | err =>
      have : (single p).step db c none = .ok none := by simp [single, hp]
      rw [this, Res.bind_ok, ih]
      constructor
      · rintro ⟨before, d, after, rfl, hd, hb⟩
        refine ⟨c :: before, d, after, rfl, hd, ?_⟩
        intro b hm
        rcases List.mem_cons.1 hm with rfl | hm
        · exact hp
        · exact hb b hm
      · rintro ⟨before, d, after, he, hd, hb⟩
        cases before with
        | nil => cases he; rw [hp] at hd; cases hd
        | cons b bs =>
          cases he
          exact ⟨bs, d, after, rfl, hd, fun b hm => hb b (by simp [hm])⟩
    | panic =>
      have : (single p).step db c none = .panic := by simp [single, hp]
      rw [this]
      constructor
      · intro h; cases h
      · rintro ⟨before, d, after, he, hd, hb⟩
        cases before with
        | nil => cases he; rw [hp] at hd; cases hd
        | cons b bs =>
          cases he
          have := hb c (by simp)
          rw [hp] at this; cases this

theorem child_ok {T : Type} (p : Parser T) (db : Db) (e : Nat) (x : T) :
    child p db e = .ok x ↔ ∃ before c after, db.children e = .ok (before ++ c :: after) ∧ p db c = .ok x ∧
      ∀ b ∈ before, p db b = .err := by
  simp only [child, parseChildren, Res.bind_eq_ok]
  constructor
  · rintro ⟨cs, hcs, s, h1, h2⟩
    cases s with
    | none => cases h2
    | some y =>
      cases h2
      obtain ⟨b, c, a, rfl, h3, h4⟩ := (slots_single p db cs x).1 h1
      exact ⟨b, c, a, hcs, h3, h4⟩
  · rintro ⟨b, c, a, hcs, h3, h4⟩
    exact ⟨_, hcs, some x, (slots_single p db _ x).2 ⟨b, c, a, rfl, h3, h4⟩, rfl⟩

/-! ### Field paths -/

theorem field_ok (db : Db) (m off t r : Nat) :
    field off db m = .ok (t, r) ↔ ∃ o, Located db m o ∧ Typed db m t ∧ r = off + o ∧ off + o < u64Max1 := by
  simp only [field, Res.bind_eq_ok]
  constructor
  · rintro ⟨o, h1, r', h2, t', h3, h4⟩
    cases h4
    simp only [addU] at h2
    split at h2
    · cases h2
      exact ⟨o, (located_iff db m o).1 h1, (typed_iff db m t).1 h3, rfl, by assumption⟩
    · cases h2
  · rintro ⟨o, h1, h3, rfl, hlt⟩
    exact ⟨o, (located_iff db m o).2 h1, off + o, by simp [addU, hlt], t, (typed_iff db m t).2 h3, rfl⟩

theorem follow_ok (db : Db) (ns : List Str) (e off t r : Nat) (hoff : off < u64Max1) :
    follow ns e off db = .ok (t, r) ↔ ∃ o, Along db e ns o t ∧ r = off + o ∧ r < u64Max1 := by
  induction ns generalizing e off with
  | nil =>
    simp only [follow]
    constructor
    · intro h; cases h; exact ⟨0, .nil _, by simp, hoff⟩
    · rintro ⟨o, h, rfl, _⟩
      cases h; simp
  | cons n ns ih =>
    simp only [follow, Res.bind_eq_ok, Prod.exists]
    constructor
    · rintro ⟨m, hm, t', r', hf, h⟩
      obtain ⟨o, h1, h2, rfl, hlt⟩ := (field_ok db m off t' r').1 hf
      obtain ⟨o', ha, rfl, hr⟩ := (ih t' (off + o) hlt).1 h
      exact ⟨o + o', .cons ⟨m, (getMember_ok db e n m).1 hm, h1, h2⟩ ha, by omega, hr⟩
    · rintro ⟨o, ha, rfl, hr⟩
      cases ha with
      | @cons _ t' _ o1 o2 _ _ hf ha =>
        obtain ⟨m, hm, h1, h2⟩ := hf
        have hlt : off + o1 < u64Max1 := by omega
        exact ⟨m, (getMember_ok db e n m).2 hm, t', off + o1,
          (field_ok db m off t' _).2 ⟨o1, h1, h2, rfl, hlt⟩,
          (ih t' (off + o1) hlt).2 ⟨o2, ha, by omega, by omega⟩⟩

theorem fieldPath_ok (db : Db) (n : Str) (ns : List Str) (m t r : Nat) :
    fieldPath (n :: ns) db m = .ok (t, r) ↔
      Named db m n ∧ ∃ o t1 o', Located db m o ∧ Typed db m t1 ∧ Along db t1 ns o' t ∧ r = o + o' ∧
        r < u64Max1 := by
  simp only [fieldPath, Res.bind_eq_ok]
  constructor
  · rintro ⟨x, hx, h⟩
    split at h
    · rename_i he
      subst he
      simp only [Res.bind_eq_ok, Prod.exists] at h
      obtain ⟨t1, r1, hf, hfo⟩ := h
      obtain ⟨o, h1, h2, h3, hlt⟩ := (field_ok db m 0 t1 r1).1 hf
      have h3' : r1 = o := by omega
      subst h3'
      obtain ⟨o', ha, rfl, hr⟩ := (follow_ok db ns t1 r1 t r (by omega)).1 hfo
      exact ⟨(dieName_ok db m x).1 hx, r1, t1, o', h1, h2, ha, rfl, hr⟩
    · cases h
  · rintro ⟨hn, o, t1, o', h1, h2, ha, rfl, hr⟩
    refine ⟨n, (dieName_ok db m n).2 hn, ?_⟩
    simp only [if_true, Res.bind_eq_ok, Prod.exists]
    exact ⟨t1, o, (field_ok db m 0 t1 o).2 ⟨o, h1, h2, by simp, by omega⟩,
      (follow_ok db ns t1 o t _ (by omega)).2 ⟨o', ha, rfl, hr⟩⟩

end Rudy.Parse
