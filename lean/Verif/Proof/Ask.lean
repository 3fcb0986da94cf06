import Verif.Model.Ask
import Verif.Props.Remote
import Verif.Props.Listing
/-
What the conversations of `Model/Ask.lean` do when the client is at the other end: they are the computations of the other
models on the process as the debugger shows it.
-/
set_option linter.unusedSimpArgs false
namespace Rudy.Ask
open Rudy Rudy.Server Rudy.Expr Rudy.Data Rudy.Layout Rudy.Eval Rudy.Remote

variable {σ α β : Type} (L : Lldb σ) (s : σ)

/-- The process in the state `s`, as the debugger shows its memory. -/
def Info.target (I : Info) : Target where
  read := fun a n => okOf (talk L (readMemory a n) s)
  resolve := I.resolve
  lossy := I.lossy
  floatStr := I.floatStr

/-- The variables, with the registers as the debugger shows them in the state `s`; there is no stack pointer (evaluator.rs:63-65). -/
def Info.variables (I : Info) : Vars.World :=
  { I.vars with ctx := ⟨fun i => (talk L (Remote.getRegister i) s).1, .err⟩ }

/-- The program and the debugger as the evaluator of `Model/Eval.lean` has them. -/
def Info.world (I : Info) : Eval.World σ where
  target := fun s => I.target L s
  frame := fun s => okOf (talk L Remote.getPc s)
  variableAt := fun s pc x =>
    (Vars.getVariableAtPc (I.variables L s) pc x).bind fun o => .ok (o.map fun i => i.address.map fun a => (a, i.ty))
  methods := I.methods
  functions := I.functions
  execute := fun e s => match e with
    | .executeMethod address base args ret => let r := talk L (callMethod address base args ret) s; (okOf r, r.2)
    | .executeFunction address args ret => let r := talk L (callFunction address args ret) s; (okOf r, r.2)
    | _ => (none, s)
  remote :=
    { alloc := fun n s => let r := talk L (allocateMemory n) s; (okOf r, r.2)
      write := fun a d s => let r := talk L (writeMemory a d) s; (okOf r, r.2)
      read := fun a n s => okOf (talk L (readMemory a n) s)
      lossy := I.lossy }
  isFloat := I.isFloat
  stack := I.stack

/-- The conversation has the result `r` and leaves the process as it is. -/
def Gives (c : Conv α) (r : Res α) : Prop := talk L c s = (r, s)

variable {L s}

namespace Gives

theorem ok (a : α) : Gives L s (.ok a) (.ok a) := rfl
theorem err : Gives L s (.err : Conv α) .err := rfl
theorem panic : Gives L s (.panic : Conv α) .panic := rfl
theorem lift (r : Res α) : Gives L s (Ask.lift r) r := Listing.talk_ofRes L r s

theorem bind {c : Conv α} {r : Res α} {k : α → Conv β} {f : α → Res β} (h : Gives L s c r) (hk : ∀ a, Gives L s (k a) (f a)) :
    Gives L s (c.bind k) (r.bind f) := by
  unfold Gives at *
  rw [Listing.talk_bind, h]
  cases r with
  | ok a => exact hk a
  | err => rfl
  | panic => rfl

theorem ite {p : Prop} [Decidable p] {c d : Conv α} {r t : Res α} (h : Gives L s c r) (h' : Gives L s d t) :
    Gives L s (if p then c else d) (if p then r else t) := by
  by_cases hp : p <;> simp only [hp, if_true, if_false] <;> assumption

end Gives

theorem ask_err {e : Event} {k : Option Answer → Conv α} (he : Looks e) (hk : ∀ a, k a = .err ∨ ∃ x, k a = .ok x) :
    Gives L s (.ask e k) (Res.ofOption (okOf (talk L (.ask e k) s))) := by
  unfold Gives
  have h1 := C77_looking L s e he
  cases hx : exchange L s e with
  | mk a s' =>
    rw [hx] at h1
    simp only at h1
    subst h1
    simp only [talk, hx]
    rcases hk a with h | ⟨x, h⟩ <;> rw [h] <;> rfl

variable {I : Info}

theorem gives_read (a n : Nat) : Gives L s (readE a n) ((I.target L s).readE a n) :=
  ask_err trivial (by
    rintro (_ | a)
    · exact .inl rfl
    · cases a <;> simp)

theorem gives_register (i : Nat) : Gives L s (Remote.getRegister i) (talk L (Remote.getRegister i) s).1 := by
  have h : Gives L s (Remote.getRegister i) _ := ask_err trivial (by
    rintro (_ | a)
    · exact .inl rfl
    · cases a <;> simp)
  unfold Gives at h ⊢
  rw [h]

theorem gives_readExact (a n : Nat) : Gives L s (readExact a n) ((I.target L s).readExact a n) :=
  (gives_read a n).bind fun _ => (Gives.ok _).ite .panic

theorem gives_readNat (a n : Nat) : Gives L s (readNat a n) ((I.target L s).readNat a n) :=
  (gives_readExact a n).bind fun _ => .ok _

theorem gives_readAddress (a : Nat) : Gives L s (readAddress a) ((I.target L s).readAddress a) :=
  (gives_read a 8).bind fun _ => (Gives.ok _).ite .err

theorem gives_readLen (a : Nat) : Gives L s (readLen a) ((I.target L s).readLen a) :=
  (gives_read a 8).bind fun _ => (Gives.ok _).ite .err

theorem resolveAt_eq (o : Option Nat) : resolveAt I o = (I.target L s).resolveAt o := by cases o <;> rfl

theorem resolveAlias_eq (t : TypeDef) : resolveAlias I t = (I.target L s).resolveAlias t := by
  obtain ⟨loc, l⟩ := t
  cases l <;> rfl

theorem gives_resolveAlias (t : TypeDef) : Gives L s (lift (resolveAlias I t)) ((I.target L s).resolveAlias t) := by
  rw [resolveAlias_eq (L := L) (s := s)]
  exact .lift _

theorem gives_resolveAt (o : Option Nat) : Gives L s (lift (resolveAt I o)) ((I.target L s).resolveAt o) := by
  rw [resolveAt_eq (L := L) (s := s)]
  exact .lift _

/-- Follows the structure of both sides. -/
macro "gives" : tactic => `(tactic| repeat' (first
  | with_reducible assumption
  | with_reducible exact Gives.ok _ | with_reducible exact Gives.err | with_reducible exact Gives.panic | with_reducible exact Gives.lift _
  | with_reducible exact gives_resolveAlias _ | with_reducible exact gives_resolveAt _
  | with_reducible exact gives_read _ _ | with_reducible exact gives_readExact _ _ | with_reducible exact gives_readNat _ _
  | with_reducible exact gives_readAddress _ | with_reducible exact gives_readLen _
  | with_reducible refine Gives.ite ?_ ?_
  | with_reducible refine Gives.bind ?_ (fun _ => ?_)))

theorem gives_btreeEdge {edges : Option (Nat × (Nat → Conv (List (Nat × Nat))))} {edges' : Option (Nat × (Nat → Res (List (Nat × Nat))))}
    (h : edges.map Prod.fst = edges'.map Prod.fst) (h2 : ∀ p q, edges = some p → edges' = some q → ∀ e, Gives L s (p.2 e) (q.2 e)) (i : Nat) :
    Gives L s (btreeEdge edges i) (Data.btreeEdge (I.target L s) edges' i) := by
  match edges, edges', h with
  | none, none, _ => exact .ok _
  | some (b, f), some (b', g), h =>
    simp only [Option.map_some, Option.some.injEq] at h
    subst h
    have := h2 _ _ rfl rfl
    unfold btreeEdge Data.btreeEdge
    dsimp only
    gives
    exact this _

theorem gives_btreeLoop {ks vs ka va : Nat} {edges : Option (Nat × (Nat → Conv (List (Nat × Nat))))}
    {edges' : Option (Nat × (Nat → Res (List (Nat × Nat))))}
    (h : edges.map Prod.fst = edges'.map Prod.fst) (h2 : ∀ p q, edges = some p → edges' = some q → ∀ e, Gives L s (p.2 e) (q.2 e)) (n i : Nat) :
    Gives L s (btreeLoop ks vs ka va edges n i) (Data.btreeLoop (I.target L s) ks vs ka va edges' n i) := by
  induction n generalizing i with
  | zero => exact gives_btreeEdge h h2 i
  | succ n ih =>
    have := gives_btreeEdge (I := I) h h2 i
    have := ih (i + 1)
    unfold btreeLoop Data.btreeLoop
    gives

theorem gives_btreeHead (kt vt : TypeDef) (nl : NodeLayout) (node : Nat) :
    Gives L s (btreeHead kt vt nl node) (Data.btreeHead (I.target L s) kt vt nl node) := by
  unfold btreeHead Data.btreeHead
  gives

theorem gives_btreeNode (kt vt : TypeDef) (nl : NodeLayout) (h node : Nat) :
    Gives L s (btreeNode kt vt nl h node) (Data.btreeNode (I.target L s) kt vt nl h node) := by
  induction h generalizing node with
  | zero =>
    exact (gives_btreeHead kt vt nl node).bind fun _ => gives_btreeLoop rfl (by simp) _ _
  | succ h ih =>
    refine (gives_btreeHead kt vt nl node).bind fun _ => (Gives.lift _).bind fun _ => gives_btreeLoop rfl ?_ _ _
    simp only [Option.some.injEq]
    rintro p q rfl rfl
    exact ih

theorem gives_mapEntries (a : Nat) (v : MapVariant) (kt vt : TypeDef) :
    Gives L s (mapEntries a v kt vt) (Data.mapEntries (I.target L s) a v kt vt) := by
  cases v with
  | hashMap => unfold mapEntries Data.mapEntries; gives
  | btreeMap => unfold mapEntries Data.mapEntries; gives; exact gives_btreeNode ..
  | indexMap => exact .panic

theorem gives_readDisc (a : Nat) (d : DiscTy) : Gives L s (readDisc a d) (Data.readDisc (I.target L s) a d) := by
  cases d <;> (unfold readDisc Data.readDisc; gives)

theorem gives_readEnum {rec : Nat → TypeDef → Conv Value} {rec' : Nat → TypeDef → Res Value} (h : ∀ a t, Gives L s (rec a t) (rec' a t))
    (a : Nat) (name : Str) (d : Disc) (vs : List (Str × Option Int × TypeDef)) :
    Gives L s (readEnum rec a name d vs) (Data.readEnum (I.target L s) rec' a name d vs) := by
  unfold readEnum Data.readEnum
  refine (Gives.lift _).bind fun da => Gives.bind ?_ fun d' => ?_
  · cases d.ty with
    | implicit => gives
    | int n => exact gives_readDisc ..
    | uint n => exact gives_readDisc ..
  · gives
    exact h _ _

theorem gives_readCEnum (a : Nat) (name : Str) (d : DiscTy) (vs : List (Str × Int)) :
    Gives L s (readCEnum a name d vs) (Data.readCEnum (I.target L s) a name d vs) :=
  (gives_readDisc a d).bind fun _ => by gives

theorem gives_vecInfo (a l d : Nat) : Gives L s (vecInfo a l d) (Data.vecInfo (I.target L s) a l d) := by
  unfold vecInfo Data.vecInfo
  gives

theorem gives_readLayout {rec : Nat → TypeDef → Conv Value} {rec' : Nat → TypeDef → Res Value} (h : ∀ a t, Gives L s (rec a t) (rec' a t))
    (a : Nat) (loc : Option Nat) (l : Layout) :
    Gives L s (readLayout I rec a loc l) (Data.readLayout (I.target L s) rec' a loc l) := by
  cases l with
  | array e n => simp only [readLayout, Data.readLayout]; gives
  | slice e d n => simp only [readLayout, Data.readLayout]; gives
  | vec n d c e =>
    simp only [readLayout, Data.readLayout]
    refine (gives_resolveAlias _).bind fun _ => (Gives.lift _).bind fun _ => (gives_vecInfo _ _ _).bind ?_
    rintro ⟨x, y⟩
    dsimp only
    gives
  | bool =>
    refine (gives_read _ _).bind fun bs => ?_
    cases bs <;> (dsimp only; gives)
  | char =>
    refine (gives_readNat _ _).bind fun n => ?_
    cases charFromU32 n <;> (dsimp only; gives)
  | option n d so st al =>
    simp only [readLayout, Data.readLayout]
    refine (Gives.lift _).bind fun _ => (gives_read _ _).bind fun bs => ?_
    cases bs <;> (dsimp only; gives)
    exact h _ _
  | smartPtr v t i d =>
    simp only [readLayout, Data.readLayout]
    cases v <;> (dsimp only; gives) <;> exact h _ _
  | map v k w => exact (gives_mapEntries ..).bind fun _ => .ok _
  | enum n d vs s => exact gives_readEnum h ..
  | cenum n d vs s => exact gives_readCEnum ..
  | «alias» n =>
    simp only [readLayout, Data.readLayout]
    exact (gives_resolveAt _).bind fun _ => h _ _
  | pointer m t => simp only [readLayout, Data.readLayout]; gives; exact h _ _
  | reference m t => simp only [readLayout, Data.readLayout]; gives; exact h _ _
  | _ => simp only [readLayout, Data.readLayout]; gives <;> exact .ok _

theorem gives_readMem (f a : Nat) (t : TypeDef) : Gives L s (readMem I f a t) (Data.readMem (I.target L s) f a t) := by
  induction f generalizing a t with
  | zero => exact .panic
  | succ f ih => obtain ⟨loc, l⟩ := t; exact gives_readLayout ih a loc l

theorem gives_indexSeq (a : Nat) (t : TypeDef) (i : Nat) : Gives L s (indexSeq I a t i) (Data.indexSeq (I.target L s) I.stack a t i) := by
  unfold indexSeq Data.indexSeq
  cases t.layout with
  | array e n => dsimp only; gives
  | slice e d n =>
    dsimp only
    refine (gives_readMem _ _ _).bind fun v => (Gives.lift _).bind ?_
    rintro ⟨x, y⟩
    dsimp only
    gives
  | vec n d c e =>
    dsimp only
    refine (gives_vecInfo _ _ _).bind ?_
    rintro ⟨x, y⟩
    dsimp only
    gives
  | _ => exact .err

theorem gives_findKey (kt vt : TypeDef) (k : Value) (es : List (Nat × Nat)) :
    Gives L s (findKey I kt vt k es) (Data.findKey (I.target L s) I.stack kt vt k es) := by
  induction es with
  | nil => exact .err
  | cons e es ih => exact (gives_readMem _ _ _).bind fun _ => (Gives.ok _).ite ih

theorem gives_indexMap (a : Nat) (t : TypeDef) (k : Value) : Gives L s (indexMap I a t k) (Data.indexMap (I.target L s) I.stack a t k) := by
  unfold indexMap Data.indexMap
  cases t.layout with
  | map v kt vt => exact (gives_mapEntries ..).bind fun _ => gives_findKey ..
  | _ => exact .err

theorem gives_readUsize (a o : Nat) : Gives L s (readUsize a o) (Data.readUsize (I.target L s) a o) := by
  unfold readUsize Data.readUsize
  gives

theorem gives_vecMethod (a n c : Nat) (m : Str) : Gives L s (vecMethod a n c m) (Data.vecMethod (I.target L s) a n c m) := by
  have h := fun a o => gives_readUsize (I := I) (L := L) (s := s) a o
  unfold vecMethod Data.vecMethod
  gives <;> exact h _ _

theorem gives_stringMethod (a n c : Nat) (m : Str) : Gives L s (stringMethod a n c m) (Data.stringMethod (I.target L s) a n c m) := by
  have h := fun m => gives_vecMethod (I := I) (L := L) (s := s) a n c m
  unfold stringMethod Data.stringMethod
  gives <;> exact h _

theorem gives_readTag (a : Nat) (d : Disc) : Gives L s (readTag a d) (Data.readTag (I.target L s) a d) := by
  unfold readTag Data.readTag
  gives

theorem gives_evalSynthetic (a : Nat) (t : TypeDef) (m : Str) :
    Gives L s (evalSynthetic a t m) (Data.evalSynthetic (I.target L s) a t m) := by
  have h1 := fun n c => gives_vecMethod (I := I) (L := L) (s := s) a n c m
  have h2 := fun n c => gives_stringMethod (I := I) (L := L) (s := s) a n c m
  have h3 := fun d => gives_readTag (I := I) (L := L) (s := s) a d
  have h4 : Gives L s (sliceMethod a m) (Data.sliceMethod (I.target L s) a m) := by
    have h := fun o => gives_readUsize (I := I) (L := L) (s := s) a o
    unfold sliceMethod Data.sliceMethod
    gives <;> exact h _
  unfold evalSynthetic Data.evalSynthetic
  cases t.layout with
  | vec n d c e => exact h1 _ _
  | string n d c e => exact h2 _ _
  | option n d so st al =>
    refine (h3 _).bind ?_
    rintro ⟨x, y⟩
    dsimp only
    gives
  | result =>
    refine (h3 _).bind ?_
    rintro ⟨x, y⟩
    dsimp only
    gives
  | slice => exact h4
  | strSlice => exact h4
  | array => exact .lift _
  | _ => exact .err

/-! ### Variables -/

theorem gives_frameLoop (e : Vars.Eval) : Gives L s (frameLoop e) (Vars.frameLoop (I.variables L s).ctx e) := by
  cases e <;> first | exact .ok _ | exact .err | exact .panic

theorem gives_frameBase (fb : Option Vars.Eval) : Gives L s (frameBase fb) (Vars.frameBase (I.variables L s).ctx fb) := by
  cases fb with
  | none => exact .err
  | some e =>
    refine (gives_frameLoop e).bind fun ps => ?_
    split
    · exact .ok _
    · exact gives_register _
    · exact .err
    · split <;> first | exact .panic | simp_all

theorem gives_dataLoop (fb : Option Vars.Eval) (base : Nat) (e : Vars.Eval) :
    Gives L s (dataLoop fb base e) (Vars.dataLoop (I.variables L s).ctx fb base e) := by
  induction e with
  | complete ps => exact .ok _
  | fail => exact .err
  | frameBase k ih =>
    have h : Vars.dataLoop (I.variables L s).ctx fb base (.frameBase k) =
        (Vars.frameBase (I.variables L s).ctx fb).bind fun x => Vars.dataLoop (I.variables L s).ctx fb base (k x) := by
      conv => lhs; unfold Vars.dataLoop
      cases Vars.frameBase (I.variables L s).ctx fb <;> rfl
    rw [h]
    exact (gives_frameBase fb).bind fun x => ih x
  | register r k ih =>
    have h : Vars.dataLoop (I.variables L s).ctx fb base (.register r k) =
        ((I.variables L s).ctx.reg r).bind fun x => Vars.dataLoop (I.variables L s).ctx fb base (k x) := by
      conv => lhs; unfold Vars.dataLoop
      cases (I.variables L s).ctx.reg r <;> rfl
    rw [h]
    exact (gives_register r).bind fun x => ih x
  | relocated a k ih =>
    have h : Vars.dataLoop (I.variables L s).ctx fb base (.relocated a k) =
        (addU base a).bind fun x => Vars.dataLoop (I.variables L s).ctx fb base (k x) := by
      conv => lhs; unfold Vars.dataLoop
      cases addU base a <;> rfl
    rw [h]
    exact (Gives.lift _).bind fun x => ih x
  | cfa k => exact .panic
  | other => exact .panic

theorem gives_dataLocation (fb : Option Vars.Eval) (base : Nat) (loc : Option Vars.Eval) :
    Gives L s (dataLocation fb base loc) (Vars.dataLocation (I.variables L s).ctx fb base loc) := by
  cases loc with
  | none => exact .ok _
  | some e =>
    refine (gives_dataLoop fb base e).bind fun ps => ?_
    split
    · exact .ok _
    · split <;> first | exact .panic | simp_all

theorem gives_variableInfo (f : Vars.Fn) (base : Nat) (v : Vars.Var) :
    Gives L s (variableInfo I f base v) (Vars.variableInfo (I.variables L s) f base v) :=
  (gives_dataLocation _ _ _).bind fun _ => (Gives.lift _).bind fun _ => .ok _

theorem gives_getVariableAtPc (pc : Nat) (x : Str) :
    Gives L s (getVariableAtPc I pc x) (Vars.getVariableAtPc (I.variables L s) pc x) := by
  unfold getVariableAtPc Vars.getVariableAtPc
  have h1 : (I.variables L s).lookupAddress = I.vars.lookupAddress := rfl
  have h2 : (I.variables L s).getFunction = I.vars.getFunction := rfl
  have h3 : (I.variables L s).baseAddress = I.vars.baseAddress := rfl
  have h4 : (I.variables L s).parse = I.vars.parse := rfl
  rw [h1, h2, h3, h4]
  cases I.vars.lookupAddress pc with
  | none => exact .ok _
  | some p =>
    dsimp only
    cases I.vars.getFunction p.1 with
    | none => exact .ok _
    | some f =>
      dsimp only
      refine (Gives.lift _).bind fun vs => (Gives.lift _).bind fun base => ?_
      cases vs.params.find? fun v => v.name == some x with
      | some v => exact (gives_variableInfo f base v).bind fun _ => .ok _
      | none =>
        dsimp only
        cases vs.locals.find? fun v => v.name == some x with
        | some v => exact (gives_variableInfo f base v).bind fun _ => .ok _
        | none => exact .ok _

/-! ### Effects -/

/-- The conversation does what the computation on the process does. -/
def Does (L : Lldb σ) (c : Conv α) (x : Act σ α) : Prop := ∀ s, talk L c s = x s

namespace Does

theorem lift (r : Res α) : Does L (Ask.lift r) (Act.lift r) := fun s => Listing.talk_ofRes L r s
theorem ok (a : α) : Does L (.ok a) (Act.lift (.ok a)) := fun _ => rfl
theorem err : Does L (.err : Conv α) (Act.lift .err) := fun _ => rfl

theorem bind {c : Conv α} {x : Act σ α} {k : α → Conv β} {f : α → Act σ β} (h : Does L c x) (hk : ∀ a, Does L (k a) (f a)) :
    Does L (c.bind k) (x.bind f) := by
  intro s
  rw [Listing.talk_bind, h s]
  unfold Act.bind
  cases x s with
  | mk r s' => cases r <;> first | exact hk _ s' | rfl

theorem ite {p : Prop} [Decidable p] {c d : Conv α} {x y : Act σ α} (h : Does L c x) (h' : Does L d y) :
    Does L (if p then c else d) (if p then x else y) := by
  by_cases hp : p <;> simp only [hp, if_true, if_false] <;> assumption

end Does

theorem ask_does {e : Event} {k : Option Answer → Conv α} (hk : ∀ a, k a = .err ∨ ∃ x, k a = .ok x) (s : σ) :
    talk L (.ask e k) s = (Res.ofOption (okOf (talk L (.ask e k) s)), (talk L (.ask e k) s).2) := by
  simp only [talk]
  rcases hk (exchange L s e).1 with h | ⟨x, h⟩ <;> rw [h] <;> rfl

theorem does_allocate (n : Nat) : Does L (allocateMemory n) ((I.world L).remote.allocate n) := fun s => ask_does (by
  rintro (_ | a)
  · exact .inl rfl
  · cases a <;> simp) s

theorem does_store (a : Nat) (d : List UInt8) : Does L (writeMemory a d) ((I.world L).remote.store a d) := fun s => ask_does (by
  rintro (_ | a)
  · exact .inl rfl
  · cases a <;> simp) s

theorem does_load (a n : Nat) : Does L (readE a n) ((I.world L).remote.load a n) := fun _ => gives_read (I := I) a n

/-- Follows the structure of both sides. -/
macro "does" : tactic => `(tactic| repeat' (first
  | with_reducible exact Does.ok _ | with_reducible exact Does.err | with_reducible exact Does.lift _
  | with_reducible exact does_allocate _ | with_reducible exact does_store _ _ | with_reducible exact does_load _ _
  | with_reducible refine Does.ite ?_ ?_
  | with_reducible refine Does.bind ?_ (fun _ => ?_)))

theorem does_createTyped (text : Str) (t : TypeDef) : Does L (createTyped I text t) (Data.createTyped (I.world L).remote text t) := by
  unfold createTyped Data.createTyped
  cases t.layout with
  | strSlice d n =>
    dsimp only [createStr, Data.createStr]
    does
    intro s
    have h : (I.world L).remote.lossy = I.lossy := rfl
    rw [h]
    split <;> rfl
  | string n d c e =>
    dsimp only [createString, Data.createString]
    does
  | _ => exact .err

/-! ### The evaluator -/

theorem talk_capture (c : Conv α) (s : σ) : talk L (capture c) s = (.ok (talk L c s).1, (talk L c s).2) := by
  induction c generalizing s with
  | ok a => rfl
  | err => rfl
  | panic => rfl
  | ask e k ih => simp only [capture, talk]; exact ih _ _

/-- A method of the evaluator, as a conversation, does what it does as a computation. -/
def Same (L : Lldb σ) (x : Ask α) (X : Ev σ α) : Prop :=
  ∀ pc cs s, talk L (x pc) s = (.ok ((X ⟨pc, cs, s⟩).1, (X ⟨pc, cs, s⟩).2.pc), (X ⟨pc, cs, s⟩).2.proc)

namespace Same

theorem res (r : Res α) : Same L (.res r) (.lift r) := fun _ _ _ => rfl

theorem bind {x : Ask α} {X : Ev σ α} {f : α → Ask β} {F : α → Ev σ β} (h : Same L x X) (hf : ∀ a, Same L (f a) (F a)) :
    Same L (x.bind f) (X.bind F) := by
  intro pc cs s
  unfold Ask.bind Eval.Ev.bind
  rw [Listing.talk_bind, h pc cs s]
  cases X ⟨pc, cs, s⟩ with
  | mk r st =>
    obtain ⟨pc', cs', s'⟩ := st
    cases r with
    | ok a => exact hf a pc' cs' s'
    | err => rfl
    | panic => rfl

theorem orElse {x : Ask α} {X : Ev σ α} {f : α → Ask β} {F : α → Ev σ β} {g : Ask β} {G : Ev σ β} (h : Same L x X)
    (hf : ∀ a, Same L (f a) (F a)) (hg : Same L g G) : Same L (x.orElse f g) (X.orElse F G) := by
  intro pc cs s
  unfold Ask.orElse Eval.Ev.orElse
  rw [Listing.talk_bind, h pc cs s]
  cases X ⟨pc, cs, s⟩ with
  | mk r st =>
    obtain ⟨pc', cs', s'⟩ := st
    cases r with
    | ok a => exact hf a pc' cs' s'
    | err => exact hg pc' cs' s'
    | panic => rfl

theorem reading {c : Conv α} {f : σ → Res α} (h : ∀ s, Gives L s c (f s)) : Same L (.conv c) (.reading f) := by
  intro pc cs s
  unfold Ask.conv Eval.Ev.reading
  rw [Listing.talk_bind, talk_capture, h s]
  rfl

theorem ite {p : Prop} [Decidable p] {x y : Ask α} {X Y : Ev σ α} (h : Same L x X) (h' : Same L y Y) :
    Same L (if p then x else y) (if p then X else Y) := by
  by_cases hp : p <;> simp only [hp, if_true, if_false] <;> assumption

end Same

theorem gives_expandList {f : Value → Conv Value} {g : Value → Res Value} (h : ∀ v, Gives L s (f v) (g v)) (vs : List Value) :
    Gives L s (expandList f vs) (Eval.expandList g vs) := by
  induction vs with
  | nil => exact .ok _
  | cons v vs ih => exact (h v).bind fun _ => ih.bind fun _ => .ok _

theorem gives_expandFields {f : Value → Conv Value} {g : Value → Res Value} (h : ∀ v, Gives L s (f v) (g v)) (vs : List (Str × Value)) :
    Gives L s (expandFields f vs) (Eval.expandFields g vs) := by
  induction vs with
  | nil => exact .ok _
  | cons v vs ih => exact (h v.2).bind fun _ => ih.bind fun _ => .ok _

theorem gives_expandEntries {f : Value → Conv Value} {g : Value → Res Value} (h : ∀ v, Gives L s (f v) (g v)) (vs : List (Value × Value)) :
    Gives L s (expandEntries f vs) (Eval.expandEntries g vs) := by
  induction vs with
  | nil => exact .ok _
  | cons v vs ih => exact (h v.1).bind fun _ => (h v.2).bind fun _ => ih.bind fun _ => .ok _

theorem gives_expand (d : Nat) (v : Value) : Gives L s (expand I d v) (Eval.expand (I.target L s) I.stack d v) := by
  induction d generalizing v with
  | zero => exact .ok _
  | succ d ih =>
    cases v with
    | pointer a t => exact (gives_readMem _ _ _).bind fun v => ih v
    | scalar t v => exact .ok _
    | array t xs => exact (gives_expandList ih xs).bind fun _ => .ok _
    | struct t fs => exact (gives_expandFields ih fs).bind fun _ => .ok _
    | tuple t xs => exact (gives_expandList ih xs).bind fun _ => .ok _
    | map t es => exact (gives_expandEntries ih es).bind fun _ => .ok _

theorem same_pointerToResult (p : Ptr) : Same L (pointerToResult I p) (Eval.pointerToResult (I.world L) p) :=
  .reading fun _ => (gives_readMem _ _ _).bind fun _ => (gives_expand _ _).bind fun _ => .ok _

theorem same_getPc : Same L getPc (Eval.getPc (I.world L)) := by
  intro pc cs s
  cases pc with
  | some p => rfl
  | none =>
    have h : Gives L s Remote.getPc (Res.ofOption ((I.world L).frame s)) := ask_err trivial (by
      rintro (_ | a)
      · exact .inl rfl
      · cases a <;> simp)
    unfold Ask.getPc Eval.getPc
    dsimp only
    rw [Listing.talk_bind, talk_capture, h]
    cases (I.world L).frame s <;> rfl

theorem same_variableRef (x : Str) : Same L (variableRef I x) (Eval.variableRef (I.world L) x) := by
  intro pc cs s
  refine Eq.trans ?_ ((same_getPc (I := I)).bind (f := fun pc => (Ask.conv ((getVariableAtPc I pc x).bind fun o => .ok (o.map place))).bind
    fun v => .res (match v with
    | some (some p) => .ok p
    | _ => .err)) (fun pc => Same.bind (Same.reading (f := fun s => (I.world L).variableAt s pc x) fun s =>
      (gives_getVariableAtPc pc x).bind fun _ => .ok _) fun v => .res _) pc cs s)
  unfold variableRef Ask.bind
  rw [Listing.talk_bind, Listing.talk_bind]
  cases talk L (getPc pc) s with
  | mk r s1 =>
    cases r with
    | err => rfl
    | panic => rfl
    | ok p =>
      obtain ⟨r, q⟩ := p
      cases r with
      | err => rfl
      | panic => rfl
      | ok p =>
        dsimp only [Ask.conv]
        simp only [Listing.talk_bind, talk_capture]
        cases talk L (getVariableAtPc I p x) s1 with
        | mk r s2 => cases r <;> rfl

theorem gives_readInt (f : Nat) (p : Ptr) : Gives L s (readInt I f p) (Eval.readInt (I.target L s) I.stack f p) := by
  induction f generalizing p with
  | zero => exact .panic
  | succ f ih =>
    refine (gives_readMem _ _ _).bind fun v => ?_
    cases v <;> first | exact .lift _ | exact ih _ | exact .err

theorem gives_readString (f : Nat) (p : Ptr) : Gives L s (readString I f p) (Eval.readString (I.target L s) I.stack f p) := by
  induction f with
  | zero => exact .panic
  | succ f ih =>
    refine (gives_readMem _ _ _).bind fun v => ?_
    cases v <;> first | exact .ok _ | exact ih | exact .err

theorem same_indexRef (p : Ptr) {key : Ask Str} {Key : Ev σ Str} {index : Ask Nat} {Index : Ev σ Nat} (h1 : Same L key Key)
    (h2 : Same L index Index) : Same L (indexRef I p key index) (Eval.indexRef (I.world L) p Key Index) :=
  Same.ite (h1.bind fun _ => .reading fun _ => gives_indexMap _ _ _) (h2.bind fun _ => .reading fun _ => gives_indexSeq _ _ _)

theorem same_stringArg (text : Str) (t : Option TypeDef) : Same L (stringArg I text t) (Eval.stringArg (I.world L) text t) := by
  intro pc cs s
  cases t with
  | none => rfl
  | some t =>
    unfold stringArg Eval.stringArg
    dsimp only [Ask.bind, Ask.conv]
    rw [Listing.talk_bind, Listing.talk_bind, talk_capture, does_createTyped text t s]
    dsimp only
    cases Data.createTyped (I.world L).remote text t s with
    | mk r s' => cases r <;> rfl

theorem same_convertArg (e : Expr) (t : Option TypeDef) {ref : Ask Ptr} {Ref : Ev σ Ptr} {val : Ask Shown} {Val : Ev σ Shown}
    (h1 : Same L ref Ref) (h2 : Same L val Val) : Same L (convertArg I e t ref val) (Eval.convertArg (I.world L) e t Ref Val) := by
  cases e <;> first
    | exact .res _
    | exact same_stringArg _ _
    | exact h1.orElse (fun _ => .res _) (h2.bind fun _ => .res _)

theorem same_callMethod (a b : Nat) (as : List Arg) (r : Option Nat) :
    Same L (.conv (callMethod a b as r)) (Eval.execute (I.world L) (.executeMethod a b as r)) := by
  intro pc cs s
  have h : talk L (callMethod a b as r) s = (Res.ofOption (okOf (talk L (callMethod a b as r) s)), (talk L (callMethod a b as r) s).2) := ask_does (by
      rintro (_ | a)
      · exact .inl rfl
      · cases a <;> simp) s
  unfold Ask.conv Eval.execute
  rw [Listing.talk_bind, talk_capture]
  dsimp only [Info.world]
  generalize talk L (callMethod a b as r) s = x at h ⊢
  obtain ⟨x, s'⟩ := x
  simp only [Prod.mk.injEq, and_true] at h
  generalize okOf (x, s') = o at h ⊢
  subst h
  cases o <;> rfl

theorem same_callFunction (a : Nat) (as : List Arg) (r : Option Nat) :
    Same L (.conv (callFunction a as r)) (Eval.execute (I.world L) (.executeFunction a as r)) := by
  intro pc cs s
  have h : talk L (callFunction a as r) s = (Res.ofOption (okOf (talk L (callFunction a as r) s)), (talk L (callFunction a as r) s).2) := ask_does (by
      rintro (_ | a)
      · exact .inl rfl
      · cases a <;> simp) s
  unfold Ask.conv Eval.execute
  rw [Listing.talk_bind, talk_capture]
  dsimp only [Info.world]
  generalize talk L (callFunction a as r) s = x at h ⊢
  obtain ⟨x, s'⟩ := x
  simp only [Prod.mk.injEq, and_true] at h
  generalize okOf (x, s') = o at h ⊢
  subst h
  cases o <;> rfl

theorem same_executeMethod (p : Ptr) (m : Str) {as : List TypeDef → Ask (List Arg)} {As : List TypeDef → Ev σ (List Arg)}
    (h : ∀ ts, Same L (as ts) (As ts)) : Same L (executeMethod I p m as) (Eval.executeMethod (I.world L) p m As) :=
  (Same.res _).bind fun _ => (Same.res _).bind fun _ => (Same.res _).ite
    ((h _).bind fun _ => (Same.res _).bind fun _ => (same_callMethod _ _ _ _).bind fun _ => .res _)

theorem same_executeFunction (f : Str) (n : Nat) {as : List TypeDef → Ask (List Arg)} {As : List TypeDef → Ev σ (List Arg)}
    (h : ∀ ts, Same L (as ts) (As ts)) : Same L (executeFunction I f n as) (Eval.executeFunction (I.world L) f n As) :=
  (Same.res _).bind fun _ => (Same.res _).bind fun _ => (Same.res _).ite ((Same.res _).ite
    ((h _).bind fun _ => (Same.res _).bind fun _ => (same_callFunction _ _ _).bind fun _ => .res _))

theorem same_callShown (r : CallResult × Option TypeDef) : Same L (callShown I r) (Eval.callShown (I.world L) r) := by
  obtain ⟨c, t⟩ := r
  cases c <;> cases t <;> first | exact .res _ | exact same_pointerToResult _

theorem same_methodShown (p : Ptr) (m : Str) (n : Nat) {as : List TypeDef → Ask (List Arg)} {As : List TypeDef → Ev σ (List Arg)}
    (h : ∀ ts, Same L (as ts) (As ts)) : Same L (methodShown I p m n as) (Eval.methodShown (I.world L) p m n As) :=
  Same.ite (Same.ite (.res _) (.reading fun _ => (gives_evalSynthetic _ _ _).bind fun _ => .ok _))
    ((same_executeMethod p m h).bind same_callShown)

theorem same_methodRef (p : Ptr) (m : Str) {as : List TypeDef → Ask (List Arg)} {As : List TypeDef → Ev σ (List Arg)}
    (h : ∀ ts, Same L (as ts) (As ts)) : Same L (methodRef I p m as) (Eval.methodRef (I.world L) p m As) :=
  Same.ite (.res _) ((same_executeMethod p m h).bind fun _ => .res _)

mutual
theorem same_toRef : ∀ e : Expr, Same L (toRef I e) (Eval.toRef (I.world L) e)
  | .var n => by simp only [toRef, Eval.toRef]; exact same_variableRef n
  | .path _ => by simp only [toRef, Eval.toRef]; exact .res _
  | .generic _ _ => by simp only [toRef, Eval.toRef]; exact .res _
  | .field b f => by simp only [toRef, Eval.toRef]; exact (same_toRef b).bind fun _ => .res _
  | .index b i => by simp only [toRef, Eval.toRef]; exact (same_toRef b).bind fun _ => same_indexRef _ (same_toStr i) (same_toInt i)
  | .deref _ => by simp only [toRef, Eval.toRef]; exact .res _
  | .addrOf _ _ => by simp only [toRef, Eval.toRef]; exact .res _
  | .num _ => by simp only [toRef, Eval.toRef]; exact .res _
  | .str _ => by simp only [toRef, Eval.toRef]; exact .res _
  | .paren _ => by simp only [toRef, Eval.toRef]; exact .res _
  | .method b m as => by simp only [toRef, Eval.toRef]; exact (same_toRef b).bind fun _ => same_methodRef _ _ (same_convertArgs as)
  | .call f as => by simp only [toRef, Eval.toRef]; exact (same_executeFunction _ _ (same_convertArgs as)).bind fun _ => .res _
theorem same_toInt : ∀ e : Expr, Same L (toInt I e) (Eval.toInt (I.world L) e)
  | .var n => by simp only [toInt, Eval.toInt]; exact (same_variableRef n).bind fun _ => .reading fun _ => gives_readInt _ _
  | .path _ => by simp only [toInt, Eval.toInt]; exact .res _
  | .generic _ _ => by simp only [toInt, Eval.toInt]; exact .res _
  | .field b f => by simp only [toInt, Eval.toInt]; exact (same_toRef b).bind fun _ => (Same.res _).bind fun _ => .reading fun _ => gives_readInt _ _
  | .index b i => by simp only [toInt, Eval.toInt]; exact (same_toRef b).bind fun _ => (same_indexRef _ (same_toStr i) (same_toInt i)).bind fun _ => .reading fun _ => gives_readInt _ _
  | .deref _ => by simp only [toInt, Eval.toInt]; exact .res _
  | .addrOf _ _ => by simp only [toInt, Eval.toInt]; exact .res _
  | .num _ => by simp only [toInt, Eval.toInt]; exact .res _
  | .str _ => by simp only [toInt, Eval.toInt]; exact .res _
  | .paren e => by simp only [toInt, Eval.toInt]; exact same_toInt e
  | .method _ _ _ => by simp only [toInt, Eval.toInt]; exact .res _
  | .call _ _ => by simp only [toInt, Eval.toInt]; exact .res _
theorem same_toStr : ∀ e : Expr, Same L (toStr I e) (Eval.toStr (I.world L) e)
  | .var n => by simp only [toStr, Eval.toStr]; exact (same_variableRef n).bind fun _ => .reading fun _ => gives_readString _ _
  | .path _ => by simp only [toStr, Eval.toStr]; exact .res _
  | .generic _ _ => by simp only [toStr, Eval.toStr]; exact .res _
  | .field b f => by simp only [toStr, Eval.toStr]; exact (same_toRef b).bind fun _ => (Same.res _).bind fun _ => .reading fun _ => gives_readString _ _
  | .index b i => by simp only [toStr, Eval.toStr]; exact (same_toRef b).bind fun _ => (same_indexRef _ (same_toStr i) (same_toInt i)).bind fun _ => .reading fun _ => gives_readString _ _
  | .deref _ => by simp only [toStr, Eval.toStr]; exact .res _
  | .addrOf _ _ => by simp only [toStr, Eval.toStr]; exact .res _
  | .num _ => by simp only [toStr, Eval.toStr]; exact .res _
  | .str _ => by simp only [toStr, Eval.toStr]; exact .res _
  | .paren e => by simp only [toStr, Eval.toStr]; exact same_toStr e
  | .method _ _ _ => by simp only [toStr, Eval.toStr]; exact .res _
  | .call _ _ => by simp only [toStr, Eval.toStr]; exact .res _
theorem same_evaluate : ∀ e : Expr, Same L (evaluate I e) (Eval.evaluate (I.world L) e)
  | .var n => by simp only [evaluate, Eval.evaluate]; exact (same_variableRef n).bind same_pointerToResult
  | .path _ => by simp only [evaluate, Eval.evaluate]; exact .res _
  | .generic _ _ => by simp only [evaluate, Eval.evaluate]; exact .res _
  | .field b f => by simp only [evaluate, Eval.evaluate]; exact (same_toRef b).bind fun _ => (Same.res _).bind same_pointerToResult
  | .index b i => by simp only [evaluate, Eval.evaluate]; exact (same_toRef b).bind fun _ => (same_indexRef _ (same_toStr i) (same_toInt i)).bind same_pointerToResult
  | .deref _ => by simp only [evaluate, Eval.evaluate]; exact .res _
  | .addrOf _ _ => by simp only [evaluate, Eval.evaluate]; exact .res _
  | .num _ => by simp only [evaluate, Eval.evaluate]; exact .res _
  | .str _ => by simp only [evaluate, Eval.evaluate]; exact .res _
  | .paren e => by simp only [evaluate, Eval.evaluate]; exact same_evaluate e
  | .method b m as => by simp only [evaluate, Eval.evaluate]; exact (same_toRef b).bind fun _ => same_methodShown _ _ _ (same_convertArgs as)
  | .call f as => by simp only [evaluate, Eval.evaluate]; exact (same_executeFunction _ _ (same_convertArgs as)).bind same_callShown
theorem same_convertArgs : ∀ (es : List Expr) (ts : List TypeDef), Same L (convertArgs I es ts) (Eval.convertArgs (I.world L) es ts)
  | [], _ => by simp only [convertArgs, Eval.convertArgs]; exact .res _
  | e :: es, ts => by
    simp only [convertArgs, Eval.convertArgs]
    exact (same_convertArg e _ (same_toRef e) (same_evaluate e)).bind fun _ => (same_convertArgs es ts.tail).bind fun _ => .res _
end

theorem run_same {x : Ask α} {X : Ev σ α} (h : Same L x X) (s : σ) : talk L x.run s = ((X (St.new s)).1, (X (St.new s)).2.proc) := by
  unfold Ask.run
  rw [Listing.talk_bind, h none [] s]
  exact Listing.talk_ofRes L _ _

end Rudy.Ask
