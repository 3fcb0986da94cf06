import Verif.Proof.TypeRes
/-
Monotonicity of type resolution in the depth of recursion allowed to it: more stack only turns a stack
overflow into a result.
-/
namespace Rudy.TypeRes
open Rudy.Dwarf Rudy.Parse Rudy.Layout

/-- `b` is `a`, or `a` is a panic. -/
def Le {T : Type} (a b : Res T) : Prop := a = .panic ∨ a = b

theorem Le.refl {T : Type} (a : Res T) : Le a a := .inr rfl

theorem Le.bind {T U : Type} {a b : Res T} {f g : T → Res U} (h : Le a b) (hf : ∀ x, Le (f x) (g x)) :
    Le (a.bind f) (b.bind g) := by
  rcases h with rfl | rfl
  · exact .inl rfl
  · cases a with
    | ok x => exact hf x
    | err => exact .inr rfl
    | panic => exact .inl rfl

theorem Le.eq {T : Type} {a b : Res T} (h : Le a b) (hp : a ≠ .panic) : b = a := by
  rcases h with h | h
  · exact absurd h hp
  · exact h.symm

theorem Le.trans {T : Type} {a b c : Res T} (h : Le a b) (h' : Le b c) : Le a c := by
  rcases h with h | rfl
  · exact .inl h
  · exact h'

/-- Parsers related pointwise. -/
def PLe {T : Type} (p q : Parser T) : Prop := ∀ db e, Le (p db e) (q db e)

theorem PLe.refl {T : Type} (p : Parser T) : PLe p p := fun _ _ => .inr rfl

theorem PLe.both {T U : Type} {p p' : Parser T} {q q' : Parser U} (h : PLe p p') (h' : PLe q q') :
    PLe (both p q) (both p' q') := fun db e => (h db e).bind fun _ => (h' db e).bind fun _ => .refl _

theorem PLe.mapP {T U : Type} {p p' : Parser T} (f : T → U) (h : PLe p p') : PLe (mapP p f) (mapP p' f) :=
  fun db e => (h db e).bind fun _ => .refl _

theorem PLe.mapRes {T U : Type} {p p' : Parser T} (f : T → Res U) (h : PLe p p') :
    PLe (mapRes p f) (mapRes p' f) := fun db e => (h db e).bind fun _ => .refl _

theorem PLe.andThen {U : Type} {p p' : Parser Nat} {q q' : Parser U} (h : PLe p p') (h' : PLe q q') :
    PLe (andThen p q) (andThen p' q') := fun db e => (h db e).bind fun m => h' db m

theorem PLe.filterP {T : Type} {p p' : Parser T} (h : PLe p p') : PLe (filterP p) (filterP p') := by
  intro db e
  rcases h db e with h | h
  · exact .inl (by simp [Parse.filterP, h])
  · exact .inr (by simp [Parse.filterP, h])

/-- Groups of parsers related pointwise. -/
def MLe {S T : Type} (m n : Multi S T) : Prop :=
  m.init = n.init ∧ (∀ db c s, Le (m.step db c s) (n.step db c s)) ∧ m.finish = n.finish

theorem MLe.single {T : Type} {p q : Parser T} (h : PLe p q) : MLe (single p) (single q) := by
  refine ⟨rfl, fun db c s => ?_, rfl⟩
  cases s with
  | some x => exact .inr rfl
  | none =>
    rcases h db c with h | h
    · exact .inl (by simp [Parse.single, h])
    · exact .inr (by simp [Parse.single, h])

theorem MLe.refl {S T : Type} (m : Multi S T) : MLe m m := ⟨rfl, fun _ _ _ => .refl _, rfl⟩

theorem MLe.pair {S S' T U : Type} {m m' : Multi S T} {n n' : Multi S' U} (h : MLe m m') (h' : MLe n n') :
    MLe (pair m n) (pair m' n') := by
  refine ⟨by simp [Parse.pair, h.1, h'.1], fun db c s => ?_, by simp [Parse.pair, h.2.2, h'.2.2]⟩
  exact (h.2.1 db c s.1).bind fun _ => (h'.2.1 db c s.2).bind fun _ => .refl _

theorem MLe.slots {S T : Type} {m n : Multi S T} (h : MLe m n) (db : Db) (cs : List Nat) (s : S) :
    Le (slots m db cs s) (slots n db cs s) := by
  induction cs generalizing s with
  | nil => exact .inr rfl
  | cons c cs ih => exact (h.2.1 db c s).bind fun s => ih s

theorem PLe.parseChildren {S T : Type} {m n : Multi S T} (h : MLe m n) :
    PLe (parseChildren m) (parseChildren n) := by
  intro db e
  refine (Le.refl (db.children e)).bind fun cs => ?_
  rw [h.1, h.2.2]
  exact (h.slots db cs n.init).bind fun _ => .refl _

theorem PLe.child {T : Type} {p q : Parser T} (h : PLe p q) : PLe (child p) (child q) :=
  PLe.parseChildren (.single h)

theorem PLe.collect {T : Type} {p q : Parser T} (h : PLe p q) (db : Db) (cs : List Nat) :
    Le (collect p db cs) (collect q db cs) := by
  induction cs with
  | nil => exact .inr rfl
  | cons c cs ih =>
    rcases h db c with h | h
    · exact .inl (by simp [Parse.collect, h])
    · simp only [Parse.collect, h]
      cases q db c with
      | ok x => exact ih.bind fun _ => .refl _
      | err => exact ih
      | panic => exact .inl rfl

theorem PLe.forEachChild {T : Type} {p q : Parser T} (h : PLe p q) : PLe (forEachChild p) (forEachChild q) :=
  fun db e => (Le.refl (db.children e)).bind fun cs => h.collect db cs

section
variable {sh sh' : Sh} (h : ∀ e, Le (sh e) (sh' e))
include h

theorem resolveShallow_le : PLe (resolveShallow sh) (resolveShallow sh') := fun _ e => h e

theorem resolvedGeneric_le (n : Str) : PLe (resolvedGeneric sh n) (resolvedGeneric sh' n) :=
  .andThen (.refl _) (resolveShallow_le h)

theorem entryShallow_le : PLe (entryShallow sh) (entryShallow sh') :=
  fun db e => (Le.refl (refAttr .type db e)).bind fun t => h t

theorem vec_le : PLe (vec sh) (vec sh') :=
  .mapP _ (.parseChildren (.pair (.single (.refl _)) (.pair (.single (.refl _))
    (.pair (.single (.refl _)) (.single (resolvedGeneric_le h _))))))

theorem stringL_le : PLe (stringL sh) (stringL sh') := .andThen (.refl _) (vec_le h)

theorem enumDiscriminant_le : PLe (enumDiscriminant sh) (enumDiscriminant sh') := by
  intro db e
  refine (Le.refl _).bind fun d => (Le.refl _).bind fun o => ?_
  cases d with
  | none => exact .inr rfl
  | some d => exact (entryShallow_le h db d).bind fun _ => .refl _

theorem enumVariant_le : PLe (enumVariant sh) (enumVariant sh') :=
  .mapRes _ (.andThen (.refl _) (.both (.refl _) (.andThen (.refl _)
    (.both (.refl _) (.both (.refl _) (.andThen (.refl _) (resolveShallow_le h)))))))

omit h in
theorem namedTuple1_le {T : Type} (n : Str) {p q : Parser T} (h : PLe p q) :
    PLe (namedTuple1 n p) (namedTuple1 n q) := by
  intro db e
  refine (Le.refl _).bind fun v => ?_
  split
  · exact (PLe.parseChildren (.single (.andThen (.refl _) (.both (.refl _) (.andThen (.refl _) h)))) db _).bind
      fun _ => .refl _
  · exact .inr rfl

theorem optionEntry_le : PLe (optionEntry sh) (optionEntry sh') :=
  .both (.refl _) (.both (.refl _) (.andThen (.refl _) (.both (enumDiscriminant_le h) (.refl _))))

theorem optionDef_le : PLe (optionDef sh) (optionDef sh') :=
  fun db e => (optionEntry_le h db e).bind fun r => (h r.2.2.2.2).bind fun _ => .refl _

theorem resultDef_le : PLe (resultDef sh) (resultDef sh') := by
  intro db e
  refine Le.bind (PLe.both (.refl _) (.both (.refl _) (.andThen (.refl _) (.both (enumDiscriminant_le h)
    (.parseChildren (.pair (.single (namedTuple1_le _ (resolveShallow_le h)))
      (.single (namedTuple1_le _ (resolveShallow_le h))))))) ) db e) fun _ => .refl _

theorem btreeMap_le : PLe (btreeMap sh) (btreeMap sh') := by
  intro db e
  refine Le.bind (PLe.parseChildren (.pair (.single (resolvedGeneric_le h _)) (.pair (.single (resolvedGeneric_le h _))
    (.refl _))) db e) fun a => ?_
  refine Le.bind (optionEntry_le h db _) fun b => ?_
  refine (Le.refl _).bind fun c => (Le.refl _).bind fun d => (Le.refl _).bind fun f => (Le.refl _).bind fun g => ?_
  refine Le.bind (optionEntry_le h db _) fun b => ?_
  exact .refl _

theorem mapType_le (v : MapVariant) : PLe (mapType sh v) (mapType sh' v) := by
  intro db e
  refine Le.bind (PLe.parseChildren (.pair (.single (resolvedGeneric_le h _)) (.single (resolvedGeneric_le h _))) db e)
    fun a => ?_
  cases v with
  | hashMap => exact .refl _
  | btreeMap => exact btreeMap_le h db e
  | indexMap => exact .refl _

theorem smartPtr_le (v : SmartPtr) : PLe (smartPtr sh v) (smartPtr sh' v) := by
  intro db e
  refine Le.bind ?_ fun _ => .refl _
  cases v <;> simp only [smartInner]
  case box => exact entryShallow_le h db e
  case rwLock => exact .refl _
  all_goals exact (Le.refl _).bind fun t => h t

theorem tupleElems_le (db : Db) (cs : List Nat) : Le (tupleElems sh db cs) (tupleElems sh' db cs) := by
  induction cs with
  | nil => exact .refl _
  | cons c cs ih =>
    exact (Le.refl _).bind fun _ => (entryShallow_le h db c).bind fun _ => ih.bind fun _ => .refl _

theorem argTypes_le (db : Db) (cs : List Nat) : Le (argTypes sh db cs) (argTypes sh' db cs) := by
  induction cs with
  | nil => exact .refl _
  | cons c cs ih =>
    simp only [argTypes]
    split
    · exact (entryShallow_le h db c).bind fun _ => ih.bind fun _ => .refl _
    · exact ih

theorem primitive_le (l : Layout) (db : Db) (e : Nat) :
    (primitive sh l db e = none ∧ primitive sh' l db e = none) ∨
      ∃ a b, primitive sh l db e = some a ∧ primitive sh' l db e = some b ∧ Le a b := by
  cases l
  case slice =>
    exact .inr ⟨_, _, rfl, rfl, (Le.refl _).bind fun _ => (Le.refl _).bind fun _ => (Le.refl _).bind fun p =>
      (entryShallow_le h db p).bind fun _ => .refl _⟩
  case array => exact .inr ⟨_, _, rfl, rfl, (entryShallow_le h db e).bind fun _ => .refl _⟩
  case pointer => exact .inr ⟨_, _, rfl, rfl, (entryShallow_le h db e).bind fun _ => .refl _⟩
  case reference => exact .inr ⟨_, _, rfl, rfl, (entryShallow_le h db e).bind fun _ => .refl _⟩
  case function =>
    exact .inr ⟨_, _, rfl, rfl, (entryShallow_le h db e).bind fun _ => (Le.refl _).bind fun cs =>
      (argTypes_le h db cs).bind fun _ => .refl _⟩
  case tuple =>
    exact .inr ⟨_, _, rfl, rfl, (Le.refl _).bind fun _ => (Le.refl _).bind fun cs =>
      (tupleElems_le h db cs).bind fun _ => .refl _⟩
  all_goals first | exact .inl ⟨rfl, rfl⟩ | exact .inr ⟨_, _, rfl, rfl, .refl _⟩

theorem builtin_le (typedef : Nat → Option Layout) (db : Db) (e : Nat) :
    Le (builtin sh typedef db e) (builtin sh' typedef db e) := by
  simp only [builtin]
  cases typedef e with
  | none => exact .refl _
  | some l =>
    simp only
    rcases primitive_le h l db e with ⟨h1, h2⟩ | ⟨a, b, h1, h2, hab⟩
    · rw [h1, h2]
      cases l
      case option => exact (optionDef_le h db e).bind fun _ => .refl _
      case vec => exact (vec_le h db e).bind fun _ => .refl _
      case string => exact (stringL_le h db e).bind fun _ => .refl _
      case map => exact (mapType_le h _ db e).bind fun _ => .refl _
      case result => exact (resultDef_le h db e).bind fun _ => .refl _
      case smartPtr => exact (smartPtr_le h _ db e).bind fun _ => .refl _
      all_goals exact .refl _
    · rw [h1, h2]; exact hab.bind fun _ => .refl _

theorem enumDef_le : PLe (enumDef sh) (enumDef sh') :=
  fun db e => (Le.refl _).bind fun r => (enumDiscriminant_le h db r.2.2).bind fun _ =>
    ((enumVariant_le h).forEachChild db r.2.2).bind fun _ => .refl _

theorem cEnumDef_le : PLe (cEnumDef sh) (cEnumDef sh') :=
  fun db e => Le.bind (PLe.both (.refl _) (.both (.refl _) (.mapRes _ (.andThen (.refl _) (resolveShallow_le h)))) db e)
    fun _ => .refl _

theorem structFields_le (db : Db) (cs : List Nat) : Le (structFields sh db cs) (structFields sh' db cs) := by
  induction cs with
  | nil => exact .refl _
  | cons c cs ih =>
    simp only [structFields]
    split
    · exact (Le.refl _).bind fun _ => (Le.refl _).bind fun _ => (Le.refl _).bind fun t => (h t).bind fun _ =>
        ih.bind fun _ => .refl _
    · exact ih

theorem structDef_le : PLe (structDef sh) (structDef sh') :=
  fun db _ => (Le.refl _).bind fun _ => (Le.refl _).bind fun _ => (Le.refl _).bind fun _ => (Le.refl _).bind fun cs =>
    (structFields_le h db cs).bind fun _ => .refl _

theorem byTag_le : PLe (byTag sh) (byTag sh') := by
  intro db e
  simp only [byTag]
  split
  · exact (entryShallow_le h db e).bind fun _ => .refl _
  · refine (Le.refl _).bind fun cs => ?_
    split
    · exact enumDef_le h db e
    · exact structDef_le h db e
  · refine Le.bind ?_ fun _ => (Le.refl _).bind fun cs => (argTypes_le h db cs).bind fun _ => .refl _
    split
    · exact (entryShallow_le h db _).bind fun _ => .refl _
    · exact .refl _
  · exact cEnumDef_le h db e
  · exact .refl _

end

theorem shallow_le_succ (typedef : Nat → Option Layout) (db : Db) (n : Nat) (e : Nat) :
    Le (shallow typedef db n e) (shallow typedef db (n + 1) e) := by
  induction n generalizing e with
  | zero => exact .inl rfl
  | succ n ih => exact (builtin_le ih typedef db e).bind fun _ => .refl _

theorem shallow_le (typedef : Nat → Option Layout) (db : Db) (n m : Nat) (h : n ≤ m) (e : Nat) :
    Le (shallow typedef db n e) (shallow typedef db m e) := by
  induction h with
  | refl => exact .refl _
  | step _ ih => exact ih.trans (shallow_le_succ typedef db _ e)

theorem resolveType_le (typedef : Nat → Option Layout) (db : Db) (n m : Nat) (h : n ≤ m) (e : Nat) :
    Le (resolveType typedef db n e) (resolveType typedef db m e) := by
  refine (builtin_le (shallow_le typedef db n m h) typedef db e).bind fun o => ?_
  cases o with
  | some t => exact .refl _
  | none => exact (byTag_le (shallow_le typedef db n m h) db e).bind fun _ => .refl _

end Rudy.TypeRes
