import Verif.Model.Whole
/-
The questions of a conversation: what holds of every one of them, whatever is answered.
-/
set_option linter.unusedSimpArgs false
namespace Rudy.Ask
open Rudy Rudy.Server Rudy.Expr Rudy.Data Rudy.Layout Rudy.Eval Rudy.Remote

variable {α β : Type}

/-- Every question satisfies `P`, and a result `Q`, whatever is answered. -/
def Sat (P : Event → Prop) (Q : α → Prop) : Conv α → Prop
  | .ok a => Q a
  | .err => True
  | .panic => True
  | .ask e k => P e ∧ ∀ a, Sat P Q (k a)

/-- Only questions that satisfy `P`. -/
abbrev Only (P : Event → Prop) (c : Conv α) : Prop := Sat P (fun _ => True) c

variable {P : Event → Prop} {Q : α → Prop} {R : β → Prop}

namespace Sat

theorem mono {Q' : α → Prop} {c : Conv α} (h : Sat P Q c) (hq : ∀ a, Q a → Q' a) : Sat P Q' c := by
  induction c with
  | ok a => exact hq a h
  | err => trivial
  | panic => trivial
  | ask e k ih => exact ⟨h.1, fun a => ih a (h.2 a)⟩

theorem bind {c : Conv α} {k : α → Conv β} (h : Sat P Q c) (hk : ∀ a, Q a → Sat P R (k a)) : Sat P R (c.bind k) := by
  induction c with
  | ok a => exact hk a h
  | err => trivial
  | panic => trivial
  | ask e g ih => exact ⟨h.1, fun a => ih a (h.2 a)⟩

theorem handle {c : Conv α} {f : α → Conv β} {g : Conv β} (h : Sat P Q c) (hf : ∀ a, Q a → Sat P R (f a)) (hg : Sat P R g) :
    Sat P R (c.handle f g) := by
  induction c with
  | ok a => exact hf a h
  | err => exact hg
  | panic => trivial
  | ask e k ih => exact ⟨h.1, fun a => ih a (h.2 a)⟩

theorem ite {p : Prop} [Decidable p] {c d : Conv α} (h : Sat P Q c) (h' : Sat P Q d) : Sat P Q (if p then c else d) := by
  by_cases hp : p <;> simp only [hp, if_true, if_false] <;> assumption

theorem capture {c : Conv α} (h : Only P c) : Only P (capture c) := by
  induction c with
  | ok a => trivial
  | err => trivial
  | panic => trivial
  | ask e k ih => exact ⟨h.1, fun a => ih a (h.2 a)⟩

end Sat

theorem only_ok (a : α) : Only P (.ok a) := trivial
theorem only_err : Only P (.err : Conv α) := trivial
theorem only_panic : Only P (.panic : Conv α) := trivial

theorem only_lift (r : Res α) : Only P (lift r) := by cases r <;> trivial

/-- Follows the structure of a conversation. -/
macro "only" : tactic => `(tactic| repeat' (first
  | with_reducible assumption
  | with_reducible exact only_lift _
  | with_reducible exact only_ok _ | with_reducible exact only_err | with_reducible exact only_panic
  | with_reducible refine Sat.ite ?_ ?_
  | with_reducible refine Sat.bind (Q := fun _ => True) ?_ (fun _ _ => ?_)))

/-- The questions by which a process is looked at: its memory, its registers, where it is stopped. -/
structure MayLook (P : Event → Prop) : Prop where
  memory : ∀ a n, P (.readMemory a n)
  register : ∀ i, P (.readRegisterByIndex i)
  frame : P .getFrameInfo

section
variable (hP : MayLook P) (I : Info)
include hP

theorem only_read (a n : Nat) : Only P (readE a n) := by
  refine ⟨hP.memory a n, fun x => ?_⟩
  dsimp only
  split <;> trivial

theorem only_register (i : Nat) : Only P (Remote.getRegister i) := by
  refine ⟨hP.register i, fun x => ?_⟩
  dsimp only
  split <;> trivial

theorem only_getPc' : Only P Remote.getPc := by
  refine ⟨hP.frame, fun x => ?_⟩
  dsimp only
  split <;> trivial

theorem only_readExact (a n : Nat) : Only P (readExact a n) := by
  have := only_read hP a n
  unfold readExact; only

theorem only_readNat (a n : Nat) : Only P (readNat a n) := by
  have := only_readExact hP a n
  unfold readNat; only

theorem only_readAddress (a : Nat) : Only P (readAddress a) := by
  have : Only P (Remote.readMemory a 8) := only_read hP a 8
  unfold readAddress Remote.readAddress; only

theorem only_readLen (a : Nat) : Only P (readLen a) := by
  have := only_read hP a 8
  unfold readLen; only

/-- Follows the structure of a reader. -/
macro "only_reads" h:ident : tactic => `(tactic| repeat' (first
  | with_reducible assumption
  | with_reducible exact only_lift _
  | with_reducible exact only_ok _ | with_reducible exact only_err | with_reducible exact only_panic
  | with_reducible exact only_read $h _ _ | with_reducible exact only_readExact $h _ _ | with_reducible exact only_readNat $h _ _
  | with_reducible exact only_readAddress $h _ | with_reducible exact only_readLen $h _
  | with_reducible refine Sat.ite ?_ ?_
  | with_reducible refine Sat.bind (Q := fun _ => True) ?_ (fun _ _ => ?_)))

theorem only_btreeEdge {edges : Option (Nat × (Nat → Conv (List (Nat × Nat))))} (h : ∀ p, edges = some p → ∀ e, Only P (p.2 e)) (i : Nat) :
    Only P (btreeEdge edges i) := by
  match edges with
  | none => trivial
  | some (b, f) =>
    have := h _ rfl
    unfold btreeEdge
    dsimp only
    only_reads hP
    exact this _

theorem only_btreeLoop {ks vs ka va : Nat} {edges : Option (Nat × (Nat → Conv (List (Nat × Nat))))}
    (h : ∀ p, edges = some p → ∀ e, Only P (p.2 e)) (n i : Nat) : Only P (btreeLoop ks vs ka va edges n i) := by
  induction n generalizing i with
  | zero => exact only_btreeEdge hP h i
  | succ n ih =>
    have := only_btreeEdge hP h i
    have := ih (i + 1)
    unfold btreeLoop
    only_reads hP

theorem only_btreeNode (kt vt : TypeDef) (nl : NodeLayout) (h node : Nat) : Only P (btreeNode kt vt nl h node) := by
  have hh : ∀ node, Only P (btreeHead kt vt nl node) := by
    intro node
    unfold btreeHead
    only_reads hP
  induction h generalizing node with
  | zero => exact (hh node).bind fun _ _ => only_btreeLoop hP (by simp) _ _
  | succ h ih =>
    refine (hh node).bind fun _ _ => (only_lift _).bind fun _ _ => only_btreeLoop hP ?_ _ _
    simp only [Option.some.injEq]
    rintro p rfl
    exact ih

theorem only_mapEntries (a : Nat) (v : MapVariant) (kt vt : TypeDef) : Only P (mapEntries a v kt vt) := by
  cases v with
  | hashMap => unfold mapEntries; only_reads hP
  | btreeMap => unfold mapEntries; only_reads hP; exact only_btreeNode hP ..
  | indexMap => trivial

theorem only_readDisc (a : Nat) (d : DiscTy) : Only P (readDisc a d) := by
  cases d <;> (unfold readDisc; only_reads hP)

theorem only_readEnum {rec : Nat → TypeDef → Conv Value} (h : ∀ a t, Only P (rec a t)) (a : Nat) (name : Str) (d : Disc)
    (vs : List (Str × Option Int × TypeDef)) : Only P (readEnum rec a name d vs) := by
  unfold readEnum
  refine (only_lift _).bind fun da _ => Sat.bind (Q := fun _ => True) ?_ fun d' _ => ?_
  · cases d.ty with
    | implicit => only_reads hP
    | int n => exact only_readDisc hP ..
    | uint n => exact only_readDisc hP ..
  · only_reads hP
    exact h _ _

theorem only_vecInfo (a l d : Nat) : Only P (vecInfo a l d) := by
  unfold vecInfo
  only_reads hP

theorem only_readLayout {rec : Nat → TypeDef → Conv Value} (h : ∀ a t, Only P (rec a t)) (a : Nat) (loc : Option Nat) (l : Layout) :
    Only P (readLayout I rec a loc l) := by
  cases l with
  | vec n d c e =>
    simp only [readLayout]
    refine (only_lift _).bind fun _ _ => (only_lift _).bind fun _ _ => (only_vecInfo hP _ _ _).bind ?_
    rintro ⟨x, y⟩ -
    dsimp only
    only_reads hP
  | bool =>
    refine (only_read hP _ _).bind fun bs _ => ?_
    cases bs <;> trivial
  | char =>
    refine (only_readNat hP _ _).bind fun n _ => ?_
    cases charFromU32 n <;> trivial
  | option n d so st al =>
    simp only [readLayout]
    refine (only_lift _).bind fun _ _ => (only_read hP _ _).bind fun bs _ => ?_
    cases bs <;> (dsimp only; only_reads hP)
    exact h _ _
  | smartPtr v t i d =>
    simp only [readLayout]
    cases v <;> (dsimp only; only_reads hP) <;> exact h _ _
  | map v k w => exact (only_mapEntries hP ..).bind fun _ _ => trivial
  | enum n d vs s => exact only_readEnum hP h ..
  | cenum n d vs s => exact (only_readDisc hP ..).bind fun _ _ => (only_lift _).bind fun _ _ => trivial
  | «alias» n => exact (only_lift _).bind fun _ _ => h _ _
  | pointer m t => simp only [readLayout]; only_reads hP; exact h _ _
  | reference m t => simp only [readLayout]; only_reads hP; exact h _ _
  | _ => simp only [readLayout]; only_reads hP

theorem only_readMem (f a : Nat) (t : TypeDef) : Only P (readMem I f a t) := by
  induction f generalizing a t with
  | zero => trivial
  | succ f ih => obtain ⟨loc, l⟩ := t; exact only_readLayout hP I ih a loc l

theorem only_indexSeq (a : Nat) (t : TypeDef) (i : Nat) : Only P (indexSeq I a t i) := by
  unfold indexSeq
  cases t.layout with
  | array e n => dsimp only; only_reads hP
  | slice e d n =>
    dsimp only
    refine (only_readMem hP I _ _ _).bind fun v _ => (only_lift _).bind ?_
    rintro ⟨x, y⟩ -
    dsimp only
    only_reads hP
  | vec n d c e =>
    dsimp only
    refine (only_vecInfo hP _ _ _).bind ?_
    rintro ⟨x, y⟩ -
    dsimp only
    only_reads hP
  | _ => trivial

theorem only_findKey (kt vt : TypeDef) (k : Value) (es : List (Nat × Nat)) : Only P (findKey I kt vt k es) := by
  induction es with
  | nil => trivial
  | cons e es ih => exact (only_readMem hP I _ _ _).bind fun _ _ => Sat.ite trivial ih

theorem only_indexMap (a : Nat) (t : TypeDef) (k : Value) : Only P (indexMap I a t k) := by
  unfold indexMap
  cases t.layout with
  | map v kt vt => exact (only_mapEntries hP ..).bind fun _ _ => only_findKey hP I ..
  | _ => trivial

theorem only_readUsize (a o : Nat) : Only P (readUsize a o) := by
  unfold readUsize
  only_reads hP

theorem only_vecMethod (a n c : Nat) (m : Str) : Only P (vecMethod a n c m) := by
  have h := fun a o => only_readUsize hP a o
  unfold vecMethod
  only_reads hP <;> exact h _ _

theorem only_evalSynthetic (a : Nat) (t : TypeDef) (m : Str) : Only P (evalSynthetic a t m) := by
  have h1 := fun n c m => only_vecMethod hP a n c m
  have h3 : ∀ d, Only P (readTag a d) := by
    intro d
    unfold readTag
    only_reads hP
  have h4 : Only P (sliceMethod a m) := by
    have h := fun o => only_readUsize hP a o
    unfold sliceMethod
    only_reads hP <;> exact h _
  unfold evalSynthetic
  cases t.layout with
  | vec n d c e => exact h1 _ _ _
  | string n d c e =>
    dsimp only [stringMethod]
    only_reads hP <;> exact h1 _ _ _
  | option n d so st al =>
    refine (h3 _).bind ?_
    rintro ⟨x, y⟩ -
    dsimp only
    only_reads hP
  | result =>
    refine (h3 _).bind ?_
    rintro ⟨x, y⟩ -
    dsimp only
    only_reads hP
  | slice => exact h4
  | strSlice => exact h4
  | array => exact only_lift _
  | _ => trivial

theorem only_frameBase (fb : Option Vars.Eval) : Only P (frameBase fb) := by
  cases fb with
  | none => trivial
  | some e =>
    have : Only P (frameLoop e) := by cases e <;> trivial
    refine this.bind fun ps _ => ?_
    split
    · trivial
    · exact only_register hP _
    · trivial
    · trivial

theorem only_dataLoop (fb : Option Vars.Eval) (base : Nat) (e : Vars.Eval) : Only P (dataLoop fb base e) := by
  induction e with
  | complete ps => trivial
  | fail => trivial
  | frameBase k ih => exact (only_frameBase hP fb).bind fun x _ => ih x
  | register r k ih => exact (only_register hP r).bind fun x _ => ih x
  | relocated a k ih => exact (only_lift _).bind fun x _ => ih x
  | cfa k => trivial
  | other => trivial

theorem only_variableInfo (f : Vars.Fn) (base : Nat) (v : Vars.Var) : Only P (variableInfo I f base v) := by
  have : Only P (dataLocation f.frameBase base v.loc) := by
    cases v.loc with
    | none => trivial
    | some e =>
      refine (only_dataLoop hP _ base e).bind fun ps _ => ?_
      split <;> trivial
  exact this.bind fun _ _ => (only_lift _).bind fun _ _ => trivial

theorem only_getVariableAtPc (pc : Nat) (x : Str) : Only P (getVariableAtPc I pc x) := by
  unfold getVariableAtPc
  cases I.vars.lookupAddress pc with
  | none => trivial
  | some p =>
    dsimp only
    cases I.vars.getFunction p.1 with
    | none => trivial
    | some f =>
      dsimp only
      refine (only_lift _).bind fun vs _ => (only_lift _).bind fun base _ => ?_
      cases vs.params.find? fun v => v.name == some x with
      | some v => exact (only_variableInfo hP I f base v).bind fun _ _ => trivial
      | none =>
        dsimp only
        cases vs.locals.find? fun v => v.name == some x with
        | some v => exact (only_variableInfo hP I f base v).bind fun _ _ => trivial
        | none => trivial

theorem only_expand (d : Nat) (v : Value) : Only P (expand I d v) := by
  induction d generalizing v with
  | zero => trivial
  | succ d ih =>
    have h1 : ∀ vs, Only P (expandList (expand I d) vs) := by
      intro vs
      induction vs with
      | nil => trivial
      | cons v vs ih' => exact (ih v).bind fun _ _ => ih'.bind fun _ _ => trivial
    have h2 : ∀ vs, Only P (expandFields (expand I d) vs) := by
      intro vs
      induction vs with
      | nil => trivial
      | cons v vs ih' => exact (ih v.2).bind fun _ _ => ih'.bind fun _ _ => trivial
    have h3 : ∀ vs, Only P (expandEntries (expand I d) vs) := by
      intro vs
      induction vs with
      | nil => trivial
      | cons v vs ih' => exact (ih v.1).bind fun _ _ => (ih v.2).bind fun _ _ => ih'.bind fun _ _ => trivial
    cases v with
    | pointer a t => exact (only_readMem hP I _ _ _).bind fun v _ => ih v
    | scalar t v => trivial
    | array t xs => exact (h1 xs).bind fun _ _ => trivial
    | struct t fs => exact (h2 fs).bind fun _ _ => trivial
    | tuple t xs => exact (h1 xs).bind fun _ _ => trivial
    | map t es => exact (h3 es).bind fun _ _ => trivial

theorem only_readInt (f : Nat) (p : Ptr) : Only P (readInt I f p) := by
  induction f generalizing p with
  | zero => trivial
  | succ f ih =>
    refine (only_readMem hP I _ _ _).bind fun v _ => ?_
    cases v <;> first | exact only_lift _ | exact ih _ | trivial

theorem only_readString (f : Nat) (p : Ptr) : Only P (readString I f p) := by
  induction f with
  | zero => trivial
  | succ f ih =>
    refine (only_readMem hP I _ _ _).bind fun v _ => ?_
    cases v <;> first | exact ih | trivial

end

/-! ### The evaluator -/

/-- The same for a method of the evaluator. -/
def Sats (P : Event → Prop) (Q : α → Prop) (x : Ask α) : Prop := ∀ pc, Sat P (fun r => ∀ a, r.1 = .ok a → Q a) (x pc)

/-- Only questions that satisfy `P`. -/
abbrev Onlys (P : Event → Prop) (x : Ask α) : Prop := Sats P (fun _ => True) x

namespace Sats

theorem res {r : Res α} (h : ∀ a, r = .ok a → Q a) : Sats P Q (.res r) := fun _ => h

theorem bind {x : Ask α} {f : α → Ask β} (h : Sats P Q x) (hf : ∀ a, Q a → Sats P R (f a)) : Sats P R (x.bind f) := by
  intro pc
  refine (h pc).bind fun r hr => ?_
  obtain ⟨r, pc'⟩ := r
  cases r with
  | ok a => exact hf a (hr a rfl) pc'
  | err => exact fun _ h => nomatch h
  | panic => exact fun _ h => nomatch h

theorem orElse {x : Ask α} {f : α → Ask β} {g : Ask β} (h : Sats P Q x) (hf : ∀ a, Q a → Sats P R (f a)) (hg : Sats P R g) :
    Sats P R (x.orElse f g) := by
  intro pc
  refine (h pc).bind fun r hr => ?_
  obtain ⟨r, pc'⟩ := r
  cases r with
  | ok a => exact hf a (hr a rfl) pc'
  | err => exact hg pc'
  | panic => exact fun _ h => nomatch h

theorem conv {c : Conv α} (h : Only P c) : Onlys P (.conv c) := fun _ => h.capture.bind fun _ _ _ _ => trivial

theorem ite {p : Prop} [Decidable p] {x y : Ask α} (h : p → Sats P Q x) (h' : ¬ p → Sats P Q y) : Sats P Q (if p then x else y) := by
  by_cases hp : p <;> simp only [hp, if_true, if_false]
  · exact h hp
  · exact h' hp

theorem mono {Q' : α → Prop} {x : Ask α} (h : Sats P Q x) (hq : ∀ a, Q a → Q' a) : Sats P Q' x :=
  fun pc => (h pc).mono fun _ hr a ha => hq a (hr a ha)

theorem run {x : Ask α} (h : Sats P Q x) : Sat P Q x.run := (h none).bind fun r hr => by
  cases hx : r.1 with
  | ok a => exact hr a hx
  | err => trivial
  | panic => trivial

end Sats

end Rudy.Ask
