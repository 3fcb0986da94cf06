import Verif.Model.Declared
import Verif.Props.Methods
import Verif.Props.Variables
import Verif.Props.TypeRes
/-
C94: what is known of a variable or parameter is what its entry says.
-/
namespace Rudy.Declared
open Rudy.Dwarf Rudy.Parse Rudy.Layout Rudy.TypeRes Rudy.Resolve
open Rudy.Remap (Path)

/-! ### Vocabulary -/

/-- The entry has the attribute, and it decodes. -/
def HasAttr (db : Db) (e : Nat) (a : At) (v : Val) : Prop := v ≠ .bad ∧ ∃ d, db.entry e = some d ∧ d.attr a = some v

/-- The files of a unit by their numbers: from 0 on since DWARF 5; before, from 1 on, and 0 is the unit's own file. -/
inductive FileNumber (u : UnitFiles) : Nat → Path → Prop
  | v5 {lp : LineProgram} {i : Nat} {p : Path} : u.lines = some lp → 5 ≤ lp.version → lp.files[i]? = some (some p) → FileNumber u i p
  | v4 {lp : LineProgram} {i : Nat} {p : Path} : u.lines = some lp → lp.version < 5 → lp.files[i]? = some (some p) → FileNumber u (i + 1) p
  | own {lp : LineProgram} {p : Path} : u.lines = some lp → lp.version < 5 → u.own = some (some p) → FileNumber u 0 p

/-- Where the entry says it is declared: nowhere, if it lacks the file or the line; otherwise on the line of the file with the number. -/
inductive DeclaredAt (u : UnitFiles) (db : Db) (e : Nat) : Option Location → Prop
  | noFile : (∀ v, ¬ HasAttr db e .declFile v) → DeclaredAt u db e none
  | noLine : (∀ l, ¬ HasNum db e .declLine l) → DeclaredAt u db e none
  | known {i l : Nat} {p : Path} : HasAttr db e .declFile (.file i) → HasNum db e .declLine l → FileNumber u i p →
      DeclaredAt u db e (some { file := p, line := l, column := none })

/-- The entry of a variable says: this name (if any), this type, declared there. -/
def Describes (sh : Sh) (u : UnitFiles) (db : Db) (e : Nat) (name : Option Str) (t : TypeDef) (p : Option Location) : Prop :=
  (∀ n, name = some n ↔ Named db e n) ∧ (∃ ty, Typed db e ty ∧ sh ty = .ok t) ∧ DeclaredAt u db e p

/-! ### Proofs -/

theorem getAttr_ok (db : Db) (e : Nat) (a : At) (v : Val) : getAttr a db e = .ok v ↔ HasAttr db e a v := by
  simp only [getAttr, HasAttr]
  cases db.entry e with
  | none => simp
  | some d =>
    simp only [Option.some.injEq, exists_eq_left']
    cases hd : d.attr a with
    | none => simp
    | some w =>
      cases w <;> simp only [Res.ok.injEq, Option.some.injEq] <;> constructor <;> intro h <;> first
        | (cases h; exact ⟨by simp, rfl⟩)
        | exact h.2
        | exact absurd h.2.symm h.1
        | cases h

theorem file_iff (u : UnitFiles) (lp : LineProgram) (h : u.lines = some lp) (i : Nat) (p : Path) :
    u.file lp i = some (some p) ↔ FileNumber u i p := by
  unfold UnitFiles.file
  constructor
  · intro hf
    split at hf
    · rename_i h5; exact .v5 h h5 hf
    · rename_i h5
      split at hf
      · rename_i h0; subst h0; exact .own h (by omega) hf
      · rename_i h0
        obtain ⟨j, rfl⟩ : ∃ j, i = j + 1 := ⟨i - 1, by omega⟩
        exact .v4 h (by omega) hf
  · intro hf
    cases hf with
    | v5 h1 h2 h3 => rw [h] at h1; cases h1; rw [if_pos h2]; exact h3
    | v4 h1 h2 h3 =>
      rw [h] at h1; cases h1
      rw [if_neg (by omega), if_neg (by omega)]; exact h3
    | own h1 h2 h3 =>
      rw [h] at h1; cases h1
      rw [if_neg (by omega), if_pos rfl]; exact h3

theorem position_no_panic (u : UnitFiles) (db : Db) (e : Nat) : position u db e ≠ .panic := by
  unfold position
  split
  · split
    · split
      · split
        · simp
        · split <;> simp
      · simp
    · simp
  · simp

theorem HasAttr.unique {db : Db} {e : Nat} {a : At} {v w : Val} (h : HasAttr db e a v) (h' : HasAttr db e a w) : v = w := by
  obtain ⟨_, d, h1, h2⟩ := h; obtain ⟨_, d', h3, h4⟩ := h'
  rw [h1] at h3; cases h3; rw [h2] at h4; cases h4; rfl

theorem HasNum.unique {db : Db} {e : Nat} {a : At} {v w : Nat} (h : HasNum db e a v) (h' : HasNum db e a w) : v = w := by
  obtain ⟨d, h1, h2⟩ := h; obtain ⟨d', h3, h4⟩ := h'
  rw [h1] at h3; cases h3; rw [h2] at h4; cases h4; rfl

/-- C94: the position of a declaration is the one its entry states. -/
theorem C94_position (u : UnitFiles) (db : Db) (e : Nat) (p : Option Location) :
    position u db e = .ok p ↔ DeclaredAt u db e p := by
  unfold position
  have hf := getAttr_ok db e .declFile
  have hl := udataAttr_ok db e .declLine
  cases hv : getAttr .declFile db e with
  | ok v =>
    have hv' := (hf v).1 hv
    simp only
    cases hn : udataAttr .declLine db e with
    | ok l =>
      have hn' := (hl l).1 hn
      simp only
      constructor
      · intro h
        cases v with
        | file i =>
          simp only at h
          cases hlp : u.lines with
          | none => rw [hlp] at h; cases h
          | some lp =>
            rw [hlp] at h
            simp only at h
            cases hfi : u.file lp i with
            | none => rw [hfi] at h; cases h
            | some o =>
              cases o with
              | none => rw [hfi] at h; cases h
              | some q =>
                rw [hfi] at h
                cases h
                exact .known hv' hn' ((file_iff u lp hlp i q).1 hfi)
        | _ => cases h
      · intro h
        cases h with
        | noFile h => exact absurd hv' (h v)
        | noLine h => exact absurd hn' (h l)
        | @known i l' q h1 h2 h3 =>
          cases hv'.unique h1
          cases HasNum.unique hn' h2
          have : ∃ lp, u.lines = some lp := by cases h3 <;> exact ⟨_, by assumption⟩
          obtain ⟨lp, hlp⟩ := this
          simp only [hlp, (file_iff u lp hlp i q).2 h3]
    | err =>
      have hno : ∀ l, ¬ HasNum db e .declLine l := fun l h => by have := (hl l).2 h; rw [hn] at this; cases this
      simp only [Res.ok.injEq]
      constructor
      · rintro rfl; exact .noLine hno
      · intro h
        cases h with
        | noFile _ => rfl
        | noLine _ => rfl
        | known _ h2 _ => exact absurd h2 (hno _)
    | panic => exact absurd hn (udataAttr_no_panic _ _ _)
  | err =>
    have hno : ∀ v, ¬ HasAttr db e .declFile v := fun v h => by have := (hf v).2 h; rw [hv] at this; cases this
    simp only [Res.ok.injEq]
    constructor
    · rintro rfl; exact .noFile hno
    · intro h
      cases h with
      | noFile _ => rfl
      | noLine _ => rfl
      | known h1 _ _ => exact absurd h1 (hno _)
  | panic =>
    have hno : ∀ v, ¬ HasAttr db e .declFile v := fun v h => by have := (hf v).2 h; rw [hv] at this; cases this
    simp only [Res.ok.injEq]
    constructor
    · rintro rfl; exact .noFile hno
    · intro h
      cases h with
      | noFile _ => rfl
      | noLine _ => rfl
      | known h1 _ _ => exact absurd h1 (hno _)

theorem name_ok (db : Db) (c : Nat) (o : Option Str) :
    filterP (stringAttr .name) db c = .ok o ↔ ∀ n, o = some n ↔ Named db c n := by
  unfold filterP
  have := dieName_ok db c
  have hp := dieName_no_panic db c
  unfold dieName at this hp
  cases hs : stringAttr .name db c with
  | panic => exact absurd hs hp
  | ok n =>
    simp only [Res.ok.injEq]
    have hn := (this n).1 hs
    constructor
    · rintro rfl m
      simp only [Option.some.injEq]
      constructor
      · rintro rfl; exact hn
      · exact fun h => hn.unique h
    · intro h; exact ((h n).2 hn).symm
  | err =>
    simp only [Res.ok.injEq]
    have hn : ∀ n, ¬ Named db c n := fun n h => by
      have := (this n).2 h; rw [hs] at this; cases this
    constructor
    · rintro rfl m
      simp [hn m]
    · intro h
      cases o with
      | none => rfl
      | some m => exact absurd ((h m).1 rfl) (hn m)

/-- C94: a variable or parameter is read exactly if its type resolves and its declaration, if it states one, is in a file of the unit; then with
the name, type and declaration its entry states. -/
theorem C94_variable_read (sh : Sh) (u : UnitFiles) (db : Db) (e : Nat) (name : Option Str) (t : TypeDef) (p : Option Location) :
    «variable» sh u db e = .ok (name, t, p) ↔ Describes sh u db e name t p := by
  simp only [«variable», both, Res.bind_eq_ok, andThen, Res.ok.injEq, Prod.mk.injEq, Describes]
  constructor
  · rintro ⟨o, h1, ⟨t', p'⟩, ⟨t'', ⟨ty, h2, h3⟩, p'', h4, h5⟩, rfl, h6⟩
    cases h5; cases h6
    exact ⟨(name_ok db e _).1 h1, ⟨ty, (typed_iff _ _ _).1 h2, h3⟩, (C94_position u db e _).1 h4⟩
  · rintro ⟨h1, ⟨ty, h2, h3⟩, h4⟩
    exact ⟨_, (name_ok db e _).2 h1, _, ⟨t, ⟨ty, (typed_iff _ _ _).2 h2, h3⟩, p, (C94_position u db e _).2 h4, rfl⟩, rfl, rfl⟩

/-- C94: reading a variable crashes exactly if resolving its type does. -/
theorem C94_crash (sh : Sh) (u : UnitFiles) (db : Db) (e : Nat) :
    «variable» sh u db e = .panic ↔ ∃ ty, Typed db e ty ∧ sh ty = .panic := by
  have hn : ∃ o, filterP (stringAttr .name) db e = .ok o := by
    unfold filterP
    have hp := dieName_no_panic db e
    unfold dieName at hp
    cases hs : stringAttr .name db e with
    | panic => exact absurd hs hp
    | ok n => exact ⟨_, rfl⟩
    | err => exact ⟨_, rfl⟩
  obtain ⟨o, ho⟩ := hn
  simp only [«variable», both, ho, Res.bind_ok, andThen]
  cases ht : entryType db e with
  | panic => exact absurd ht (refAttr_no_panic _ _ _)
  | err =>
    simp only [Res.bind_err]
    constructor
    · intro h; cases h
    · rintro ⟨ty, h, _⟩
      have := (typed_iff _ _ _).2 h
      rw [ht] at this; cases this
  | ok ty =>
    have hty := (typed_iff _ _ _).1 ht
    simp only [Res.bind_ok]
    cases hs : sh ty with
    | panic =>
      simp only [Res.bind_panic, true_iff]
      exact ⟨ty, hty, hs⟩
    | err =>
      simp only [Res.bind_err]
      constructor
      · intro h; cases h
      · rintro ⟨ty', h, h'⟩; cases hty.unique h; rw [hs] at h'; cases h'
    | ok t =>
      simp only [Res.bind_ok]
      have hno : ¬ ∃ ty, Typed db e ty ∧ sh ty = .panic := by
        rintro ⟨ty', h, h'⟩; cases hty.unique h; rw [hs] at h'; cases h'
      cases hp : position u db e with
      | panic => exact absurd hp (position_no_panic _ _ _)
      | err => simp [hno]
      | ok p => simp [hno]

/-! ### The variables of a function -/

/-- The queries about variables read the entries of the debug information `db`. -/
structure Reading (V : Vars.World) (sh : Sh) (u : Die → UnitFiles) (db : Db) (loc : Die → Option Vars.Eval) : Prop where
  parse : V.parse = variableOf sh u db loc

/-- An entry of a variable or a parameter of the function. -/
def VariableEntry (t : Walker.Tree Die) (d : Die) : Prop :=
  d ∈ Walker.reach Vars.opened t ∧ (d.tag = .formalParameter ∨ d.tag = .variable)

theorem variableOf_ok (sh : Sh) (u : Die → UnitFiles) (db : Db) (loc : Die → Option Vars.Eval) (d : Die) (v : Vars.Var) :
    variableOf sh u db loc d = .ok v ↔ ∃ name t p, Describes sh (u d) db d.off name t p ∧
      v = { die := d, name := name, line := p.map (·.line), loc := loc d, ty := t } := by
  simp only [variableOf, Res.bind_eq_ok, Prod.exists]
  constructor
  · rintro ⟨n, t, p, h1, h2⟩
    cases h2
    exact ⟨n, t, p, (C94_variable_read _ _ _ _ _ _ _).1 h1, rfl⟩
  · rintro ⟨n, t, p, h1, rfl⟩
    exact ⟨n, t, p, (C94_variable_read _ _ _ _ _ _ _).2 h1, rfl⟩

theorem variableOf_panic (sh : Sh) (u : Die → UnitFiles) (db : Db) (loc : Die → Option Vars.Eval) (d : Die) :
    variableOf sh u db loc d = .panic ↔ ∃ ty, Typed db d.off ty ∧ sh ty = .panic := by
  rw [← C94_crash sh (u d) db d.off]
  simp only [variableOf]
  cases «variable» sh (u d) db d.off with
  | panic => simp
  | err => simp
  | ok x => simp

theorem crashes_iff (sh : Sh) (u : Die → UnitFiles) (db : Db) (loc : Die → Option Vars.Eval) (t : Walker.Tree Die) :
    Vars.Crashes (variableOf sh u db loc) t ↔ ∃ d, VariableEntry t d ∧ ∃ ty, Typed db d.off ty ∧ sh ty = .panic := by
  simp only [Vars.Crashes, VariableEntry, variableOf_panic]
  constructor
  · rintro ⟨d, h1, h2, h3⟩; exact ⟨d, ⟨h1, h2⟩, h3⟩
  · rintro ⟨d, ⟨h1, h2⟩, h3⟩; exact ⟨d, h1, h2, h3⟩

theorem mem_variables (parse : Die → Res Vars.Var) (t : Walker.Tree Die) (v : Vars.Var) :
    v ∈ Vars.paramsOf parse t ++ Vars.localsOf parse t ↔ ∃ d, VariableEntry t d ∧ parse d = .ok v := by
  have hk : ∀ d, Vars.known parse d = some v ↔ parse d = .ok v := by
    intro d; unfold Vars.known; cases parse d <;> simp
  simp only [Vars.paramsOf, Vars.localsOf, List.mem_append, List.mem_filterMap, List.mem_filter, decide_eq_true_eq, hk, VariableEntry]
  constructor
  · rintro (⟨d, ⟨h1, h2⟩, h3⟩ | ⟨d, ⟨h1, h2⟩, h3⟩)
    · exact ⟨d, ⟨h1, .inl h2⟩, h3⟩
    · exact ⟨d, ⟨h1, .inr h2⟩, h3⟩
  · rintro ⟨d, ⟨h1, h2 | h2⟩, h3⟩
    · exact .inl ⟨d, ⟨h1, h2⟩, h3⟩
    · exact .inr ⟨d, ⟨h1, h2⟩, h3⟩

/-- C94: a variable or parameter is found by its name although others cannot be read: if no two entries of the function have the name and
none of its types crashes the resolution, the answer describes the entry with the name. -/
theorem C94_found_partial (V : Vars.World) (sh : Sh) (u : Die → UnitFiles) (db : Db) (loc : Die → Option Vars.Eval)
    (hV : Reading V sh u db loc) (pc fn line base : Nat) (f : Vars.Fn) (tree : Walker.Tree Die) (trailing : List (Walker.Tok Die))
    (h1 : V.lookupAddress pc = some (fn, line)) (h2 : V.getFunction fn = some f) (h3 : f.toks = Walker.enc tree ++ trailing)
    (h4 : V.baseAddress fn = some base)
    (hcr : ∀ d ty, VariableEntry tree d → Typed db d.off ty → sh ty ≠ .panic)
    (d : Die) (hd : VariableEntry tree d) (x : Str) (t : TypeDef) (p : Option Location) (hx : Describes sh (u d) db d.off (some x) t p)
    (hu : ∀ d', VariableEntry tree d' → Named db d'.off x → d' = d) :
    Vars.getVariableAtPc V pc x =
      (Vars.variableInfo V f base { die := d, name := some x, line := p.map (·.line), loc := loc d, ty := t }).bind
        fun i => .ok (some i) := by
  obtain ⟨hV⟩ := hV
  have hat : Vars.At V pc f tree line base := by
    refine ⟨fn, h1, h2, ⟨_, h3⟩, h4, ?_⟩
    rw [hV, crashes_iff]
    rintro ⟨d', hd', ty, h5, h6⟩
    exact hcr d' ty hd' h5 h6
  have hmem := (mem_variables V.parse tree _).2 ⟨d, hd, by rw [hV]; exact (variableOf_ok sh u db loc d _).2 ⟨some x, t, p, hx, rfl⟩⟩
  rw [Vars.getVariable_eq V pc f tree line base hat]
  cases hf : (Vars.paramsOf V.parse tree ++ Vars.localsOf V.parse tree).find? fun v => v.name == some x with
  | none =>
    have := List.find?_eq_none.1 hf _ hmem
    simp at this
  | some v =>
    have hv := List.find?_some hf
    obtain ⟨d', hd', hp'⟩ := (mem_variables V.parse tree v).1 (List.mem_of_find?_eq_some hf)
    rw [hV, variableOf_ok] at hp'
    obtain ⟨n', t', p', hdes, rfl⟩ := hp'
    simp only [beq_iff_eq] at hv
    subst hv
    have hnm : Named db d'.off x := (hdes.1 x).1 rfl
    cases hu d' hd' hnm
    obtain ⟨_, ⟨ty, a1, a2⟩, a3⟩ := hx
    obtain ⟨_, ⟨ty', b1, b2⟩, b3⟩ := hdes
    cases a1.unique b1
    rw [a2] at b2
    cases b2
    have e := ((C94_position (u d) db d.off p).2 a3).symm.trans ((C94_position (u d) db d.off p').2 b3)
    cases e
    rfl

/-- C94: the locals listed are those declared on a line before the current one (of whatever file): each of them is listed, with what is known
of it, and everything listed is one of them. -/
theorem C94_listed_partial (V : Vars.World) (sh : Sh) (u : Die → UnitFiles) (db : Db) (loc : Die → Option Vars.Eval)
    (hV : Reading V sh u db loc) (pc line base : Nat) (f : Vars.Fn) (tree : Walker.Tree Die)
    (hat : Vars.At V pc f tree line base) (ps ls : List Vars.VarInfo) (hl : Vars.getAllVariablesAtPc V pc = .ok (ps, ls)) :
    (∀ d name t at', d ∈ Walker.reach Vars.opened tree → d.tag = .variable → Describes sh (u d) db d.off name t (some at') → at'.line < line →
      ∃ i ∈ ls, Vars.variableInfo V f base { die := d, name := name, line := some at'.line, loc := loc d, ty := t } = .ok i) ∧
    ∀ i ∈ ls, ∃ d name t at', d ∈ Walker.reach Vars.opened tree ∧ d.tag = .variable ∧ Describes sh (u d) db d.off name t (some at') ∧ at'.line < line ∧
      Vars.variableInfo V f base { die := d, name := name, line := some at'.line, loc := loc d, ty := t } = .ok i := by
  obtain ⟨hV⟩ := hV
  have hx := ((Vars.C33_listing_exact V pc f tree line base hat ps ls).1 hl).2
  have hmem : ∀ v, v ∈ (Vars.localsOf V.parse tree).filter (fun v => Vars.declaredBefore line v) ↔
      ∃ d name t at', d ∈ Walker.reach Vars.opened tree ∧ d.tag = .variable ∧ Describes sh (u d) db d.off name t (some at') ∧ at'.line < line ∧
        v = { die := d, name := name, line := some at'.line, loc := loc d, ty := t } := by
    intro v
    have hk : ∀ d, Vars.known V.parse d = some v ↔ V.parse d = .ok v := by
      intro d; unfold Vars.known; cases V.parse d <;> simp
    simp only [Vars.localsOf, List.mem_filter, List.mem_filterMap, decide_eq_true_eq, hk]
    rw [hV]
    simp only [variableOf_ok]
    constructor
    · rintro ⟨⟨d, ⟨h1, h2⟩, n, t, p, h3, rfl⟩, h4⟩
      cases p with
      | none => simp [Vars.declaredBefore] at h4
      | some q =>
        refine ⟨d, n, t, q, h1, h2, h3, ?_, rfl⟩
        simpa [Vars.declaredBefore] using h4
    · rintro ⟨d, n, t, q, h1, h2, h3, h4, rfl⟩
      exact ⟨⟨d, ⟨h1, h2⟩, n, t, some q, h3, rfl⟩, by simpa [Vars.declaredBefore] using h4⟩
  have key : ∀ (vs : List Vars.Var) (is : List Vars.VarInfo), List.Forall₂ (fun v i => Vars.variableInfo V f base v = .ok i) vs is →
      (∀ v ∈ vs, ∃ i ∈ is, Vars.variableInfo V f base v = .ok i) ∧ ∀ i ∈ is, ∃ v ∈ vs, Vars.variableInfo V f base v = .ok i := by
    intro vs is hf
    induction hf with
    | nil => exact ⟨by simp, by simp⟩
    | cons h1 _ ih =>
      constructor
      · intro v hv
        rcases List.mem_cons.1 hv with rfl | hv
        · exact ⟨_, by simp, h1⟩
        · obtain ⟨i, hi, e⟩ := ih.1 v hv
          exact ⟨i, by simp [hi], e⟩
      · intro i hi
        rcases List.mem_cons.1 hi with rfl | hi
        · exact ⟨_, by simp, h1⟩
        · obtain ⟨v, hv, e⟩ := ih.2 i hi
          exact ⟨v, by simp [hv], e⟩
  obtain ⟨k1, k2⟩ := key _ _ hx
  constructor
  · intro d name t at' h1 h2 h3 h4
    exact k1 _ ((hmem _).2 ⟨d, name, t, at', h1, h2, h3, h4, rfl⟩)
  · intro i hi
    obtain ⟨v, hv, e⟩ := k2 i hi
    obtain ⟨d, name, t, at', h1, h2, h3, h4, rfl⟩ := (hmem v).1 hv
    exact ⟨d, name, t, at', h1, h2, h3, h4, e⟩

/-! ### What the code does not keep -/

/-- C94 fails for a variable whose declaration is in a file the unit does not list: it is not read at all, although its name, type and line are
known, and is not found by its name. -/
theorem C94_unlisted_file_fails (sh : Sh) (u : UnitFiles) (db : Db) (e i l : Nat) (t : TypeDef) (hty : ∃ ty, Typed db e ty ∧ sh ty = .ok t)
    (hf : HasAttr db e .declFile (.file i)) (hl : HasNum db e .declLine l) (hno : ∀ p, ¬ FileNumber u i p) :
    «variable» sh u db e = .err := by
  cases h : «variable» sh u db e with
  | err => rfl
  | panic =>
    obtain ⟨ty, h1, h2⟩ := (C94_crash sh u db e).1 h
    obtain ⟨ty', h3, h4⟩ := hty
    cases h1.unique h3
    rw [h2] at h4; cases h4
  | ok x =>
    obtain ⟨n, t', p⟩ := x
    obtain ⟨_, _, h3⟩ := (C94_variable_read sh u db e n t' p).1 h
    cases h3 with
    | noFile h0 => exact absurd hf (h0 _)
    | noLine h0 => exact absurd hl (h0 _)
    | known h1 h2 h3 =>
      cases hf.unique h1
      exact absurd h3 (hno _)

/-- C94 fails for a function with a variable or parameter of type `RwLock<…>`: looking up any variable of this function crashes, whatever its name, and so
does the listing. -/
theorem C94_rwlock_fails (V : Vars.World) (typedef : Nat → Option Layout) (u : Die → UnitFiles) (db : Db) (depth : Nat)
    (loc : Die → Option Vars.Eval) (hV : Reading V (shallow typedef db depth) u db loc)
    (pc fn line : Nat) (f : Vars.Fn) (tree : Walker.Tree Die) (trailing : List (Walker.Tok Die))
    (h1 : V.lookupAddress pc = some (fn, line)) (h2 : V.getFunction fn = some f) (h3 : f.toks = Walker.enc tree ++ trailing)
    (d : Die) (hd : VariableEntry tree d) (ty : Nat) (ht : Typed db d.off ty)
    (t0 : TypeDef) (a b : Nat) (hn : typedef ty = some (.smartPtr .rwLock t0 a b)) :
    (∀ x, Vars.getVariableAtPc V pc x = .panic) ∧ Vars.getAllVariablesAtPc V pc = .panic := by
  refine Vars.C33_one_crash_hides_all_fails V pc fn line f tree trailing h1 h2 h3 ?_
  rw [hV.parse, crashes_iff]
  refine ⟨d, hd, ty, ht, ?_⟩
  cases depth with
  | zero => rfl
  | succ n => simp [shallow, builtin, hn, primitive, smartPtr, smartInner]

/-- A variable `name` of type 9 at `off`, declared on line `l` of the file number `i`. -/
def local' (off : Nat) (name : Str) (i l : Nat) : Die :=
  { off := off, tag := .variable, attrs := [(.name, .str name), (.type, .ref 9), (.declFile, .file i), (.declLine, .data l)] }

/-- `fn f() { let a; m!(); let b; }`, stopped on line 5 of the file number 1, where `a` is declared on line 4 and `b` on line 6 of this file; `m!` declares
`c` on line 3 and `d` on line 90 of the file number 2; `e` is a variable of a file number 7, which there is not. -/
def macroEntries : List Die :=
  [local' 2 (chars! "a") 1 4, local' 3 (chars! "c") 2 3, local' 4 (chars! "d") 2 90, local' 5 (chars! "b") 1 6, local' 6 (chars! "e") 7 4]

/-- The function. -/
def macroFn : Walker.Tree Die :=
  .node { off := 1, tag := .subprogram } true false (macroEntries.map fun d => .node d false false [])

/-- Its unit. -/
def macroUnit : UnitFiles where
  lines := some { version := 4, files := [some [.normal (chars! "main.rs")], some [.normal (chars! "macros.rs")]], rows := [] }
  own := none

/-- The entries by their offsets; 9 is a number. -/
def macroDb : Db := Discovery.table (macroEntries.map fun d => (d, []))

/-- The numbers. -/
def macroSh : Sh := fun _ => .ok (.mk (some 9) (.uint 4))

/-- The program, stopped there. -/
def macroWorld : Vars.World where
  lookupAddress _ := some (0, 5)
  getFunction _ := some { toks := Walker.enc macroFn, frameBase := none }
  baseAddress _ := some 4096
  parse := variableOf macroSh (fun _ => macroUnit) macroDb (fun _ => none)
  resolve _ := .err
  ctx := { reg := fun _ => .err, sp := .err }

/-- C94 fails for variables that macros of other files declare: lines of different files are compared, so `c` is shown before `m!` has run
or not depending on where the macro is written, and `d` is not shown after it. `e` is not known at all. -/
theorem C94_other_file_fails :
    ∃ ps ls, Vars.getAllVariablesAtPc macroWorld 4096 = .ok (ps, ls) ∧ ls.map (·.name) = [chars! "a", chars! "c"] ∧
      Vars.getVariableAtPc macroWorld 4096 (chars! "e") = .ok none := ⟨_, _, rfl, rfl, rfl⟩

theorem macroWorld_reading : Reading macroWorld macroSh (fun _ => macroUnit) macroDb (fun _ => none) := ⟨rfl⟩

/-- The hypotheses of `C94_found_partial` hold here, for `d`. -/
example : ∃ i, Vars.getVariableAtPc macroWorld 4096 (chars! "d") = .ok (some i) ∧ i.name = chars! "d" := by
  have hd : VariableEntry macroFn (local' 4 (chars! "d") 2 90) := ⟨by decide, .inr rfl⟩
  have hx : Describes macroSh macroUnit macroDb 4 (some (chars! "d")) (.mk (some 9) (.uint 4))
      (some { file := [.normal (chars! "macros.rs")], line := 90, column := none }) :=
    (C94_variable_read _ _ _ _ _ _ _).1 rfl
  rw [C94_found_partial macroWorld macroSh (fun _ => macroUnit) macroDb _ macroWorld_reading 4096 0 5 4096 _ macroFn [] rfl rfl (by simp) rfl
    (fun _ _ _ _ h => by cases h) _ hd (chars! "d") _ _ hx ?_]
  · exact ⟨_, rfl, rfl⟩
  · rintro d' ⟨h1, _⟩ h2
    have hm : d' ∈ ({ off := 1, tag := .subprogram } : Die) :: macroEntries := by
      have : Walker.reach Vars.opened macroFn = ({ off := 1, tag := .subprogram } : Die) :: macroEntries := by decide
      rw [← this]; exact h1
    have hn := (dieName_ok macroDb d'.off (chars! "d")).2 h2
    simp only [macroEntries, List.mem_cons, List.not_mem_nil, or_false] at hm
    rcases hm with rfl | rfl | rfl | rfl | rfl | rfl
    · exact absurd hn (by decide)
    · exact absurd hn (by decide)
    · exact absurd hn (by decide)
    · rfl
    · exact absurd hn (by decide)
    · exact absurd hn (by decide)

/-- The hypotheses of `C94_rwlock_fails` hold if the number 9 above is an `RwLock` instead: then `a` cannot be looked up. -/
example : Vars.getVariableAtPc { macroWorld with
    parse := variableOf (shallow (fun _ => some (.smartPtr .rwLock (.mk none (.uint 4)) 0 0)) macroDb 3) (fun _ => macroUnit) macroDb (fun _ => none) }
    4096 (chars! "a") = .panic :=
  (C94_rwlock_fails _ (fun _ => some (.smartPtr .rwLock (.mk none (.uint 4)) 0 0)) (fun _ => macroUnit) macroDb 3 (fun _ => none) ⟨rfl⟩ 4096 0 5 _ macroFn [] rfl rfl (by simp)
    (local' 4 (chars! "d") 2 90) ⟨by decide, .inr rfl⟩ 9 ((typed_iff _ _ _).1 rfl) _ 0 0 rfl).1 _

/-- C94: the parameters in signatures (C44, C93) are read the same way as variables. -/
theorem C94_signatures_agree (sh : Sh) (u : UnitFiles) (db : Db) (e : Nat) (name : Option Str) (t : TypeDef) :
    Discovery.variableP sh (fun e => (Discovery.okOf (position u db e)).isSome) db e = .ok (name, t) ↔
      ∃ p, Describes sh u db e name t p := by
  simp only [← C94_variable_read, Discovery.variableP, «variable», both, Res.bind_eq_ok, Res.ok.injEq, Prod.mk.injEq]
  constructor
  · rintro ⟨n, h1, t', h2, h3⟩
    cases hp : position u db e with
    | ok p =>
      simp only [hp, Discovery.okOf, Option.isSome_some, if_true] at h3
      cases h3
      exact ⟨p, _, h1, (t, p), ⟨t, h2, p, rfl, rfl⟩, rfl, rfl⟩
    | err => simp [hp, Discovery.okOf] at h3
    | panic => simp [hp, Discovery.okOf] at h3
  · rintro ⟨p, n, h1, ⟨t', p'⟩, ⟨t'', h2, p'', h3, h4⟩, rfl, h5⟩
    cases h4; cases h5
    exact ⟨_, h1, _, h2, by simp [h3, Discovery.okOf]⟩

end Rudy.Declared
