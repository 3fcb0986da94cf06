import Verif.Proof.Asked
import Verif.Props.Whole
import Verif.Props.Server
/-
C87 What a command can make the debugger do
-/
set_option linter.unusedSimpArgs false
namespace Rudy.Ask
open Rudy Rudy.Server Rudy.Expr Rudy.Data Rudy.Layout Rudy.Eval Rudy.Remote

/-! ### What may be asked -/

/-- The second expression is a part of the first one. -/
inductive Within : Expr → Expr → Prop
  | self (e : Expr) : Within e e
  | field {b e : Expr} {f : Str} : Within b e → Within (.field b f) e
  | base {b i e : Expr} : Within b e → Within (.index b i) e
  | index {b i e : Expr} : Within i e → Within (.index b i) e
  | paren {b e : Expr} : Within b e → Within (.paren b) e
  | receiver {b e : Expr} {m : Str} {as : List Expr} : Within b e → Within (.method b m as) e
  | argument {b a e : Expr} {m : Str} {as : List Expr} : a ∈ as → Within a e → Within (.method b m as) e
  | passed {a e : Expr} {f : Str} {as : List Expr} : a ∈ as → Within a e → Within (.call f as) e

/-- The text is written in the expression as an argument of a method or function. -/
def Passes (e : Expr) (text : Str) : Prop :=
  (∃ b m as, Within e (.method b m as) ∧ .str text ∈ as) ∨ (∃ f as, Within e (.call f as) ∧ .str text ∈ as)

/-- The expression has to do with the process: there is a variable or a function in it. -/
def Touches (e : Expr) : Prop := (∃ x, Within e (.var x)) ∨ (∃ f as, Within e (.call f as))

/-- What is passed for one argument: a number as it is, for a text the address of one in the process. -/
def Stands : Expr → Arg → Prop
  | .num n, a => a = ⟨natStr n, .integer, none⟩
  | .str _, a => a.ty = .pointer ∧ ∃ x, a.value = hexStr x
  | _, _ => True

/-- What is passed for a list of arguments: one after the other. -/
inductive Stand : List Expr → List Arg → Prop
  | nil : Stand [] []
  | cons {e : Expr} {a : Arg} {es : List Expr} {as : List Arg} : Stands e a → Stand es as → Stand (e :: es) (a :: as)

/-- What evaluating the expression `e` may ask of the debugger: to look at the process, if there is a variable or a function in `e`; to run a
method or function that is called in `e`, found under that name, with the arguments written there; and to put a text that is an argument into
the process. -/
inductive May (I : Info) (e : Expr) : Event → Prop
  | memory (a n : Nat) : Touches e → May I e (.readMemory a n)
  | register (i : Nat) : Touches e → May I e (.readRegisterByIndex i)
  | frame : Touches e → May I e .getFrameInfo
  | method {b : Expr} {m : Str} {as : List Expr} {p : Ptr} {ms : List Callee} {c : Callee} {args : List Arg} {size : Option Nat} :
    Within e (.method b m as) → m ∉ syntheticMethods p.2.layout → I.methods p = .ok ms → ms.find? (fun c => c.name == m) = some c →
    c.address ≠ 0 → Stand as args → sizeOpt c.ret = .ok size → May I e (.executeMethod c.address p.1 args size)
  | function {f : Str} {as : List Expr} {c : Callee} {rest : List Callee} {args : List Arg} {size : Option Nat} :
    Within e (.call f as) → I.functions f = .ok (c :: rest) → c.address ≠ 0 → as.length = c.params.length → Stand as args →
    sizeOpt c.ret = .ok size → May I e (.executeFunction c.address args size)
  | allocate {text : Str} {n : Nat} : Passes e text → n = (utf8 text).length ∨ n = (utf8 text).length + 16 ∨ n = 24 →
    May I e (.allocate n)
  | write {text : Str} {a : Nat} {d : List UInt8} : Passes e text → d = utf8 text ∨ d.length = 8 ∨ d = List.replicate 24 0 →
    May I e (.write a d)

theorem mayLook {I : Info} {e : Expr} (h : Touches e) : MayLook (May I e) :=
  ⟨fun a n => .memory a n h, fun i => .register i h, .frame h⟩

theorem Within.trans {a b c : Expr} (h : Within a b) (h' : Within b c) : Within a c := by
  induction h with
  | self => exact h'
  | field _ ih => exact .field (ih h')
  | base _ ih => exact .base (ih h')
  | index _ ih => exact .index (ih h')
  | paren _ ih => exact .paren (ih h')
  | receiver _ ih => exact .receiver (ih h')
  | argument ha _ ih => exact .argument ha (ih h')
  | passed ha _ ih => exact .passed ha (ih h')

/-! ### The evaluator -/

section
variable {P : Event → Prop} {I : Info} {top : Expr}

theorem onlys_conv {α : Type} {c : Conv α} (h : Only P c) : Onlys P (.conv c) := Sats.conv h

theorem onlys_getPc (h : MayLook P) : Onlys P getPc := by
  intro pc
  unfold getPc
  cases pc with
  | some p => exact fun _ _ => trivial
  | none =>
    refine (only_getPc' h).capture.bind fun r _ => ?_
    cases r <;> exact fun _ _ => trivial

theorem onlys_variableRef (h : MayLook P) (x : Str) : Onlys P (variableRef I x) :=
  (onlys_getPc h).bind fun pc _ => (onlys_conv (only_getVariableAtPc h I pc x)).bind fun _ _ => .res fun _ _ => trivial

theorem onlys_pointerToResult (h : MayLook P) (p : Ptr) : Onlys P (pointerToResult I p) :=
  onlys_conv ((only_readMem h I _ _ _).bind fun v _ => (only_expand h I _ v).bind fun _ _ => trivial)

theorem onlys_indexRef (h : MayLook P) (p : Ptr) {k : Ask Str} {i : Ask Nat} (hk : Onlys P k) (hi : Onlys P i) :
    Onlys P (indexRef I p k i) :=
  Sats.ite (fun _ => hk.bind fun _ _ => onlys_conv (only_indexMap h I ..)) (fun _ => hi.bind fun _ _ => onlys_conv (only_indexSeq h I ..))

theorem only_allocate (n : Nat) (h : P (.allocate n)) : Only P (Remote.allocateMemory n) := by
  refine ⟨h, fun x => ?_⟩
  dsimp only
  split <;> trivial

theorem only_write (a : Nat) (d : List UInt8) (h : P (.write a d)) : Only P (Remote.writeMemory a d) := by
  refine ⟨h, fun x => ?_⟩
  dsimp only
  split <;> trivial

theorem le8_length (n : Nat) : (le8 n).length = 8 := by simp [le8]

theorem only_createTyped (hl : Touches top) {text : Str} (hp : Passes top text) (t : TypeDef) :
    Only (May I top) (createTyped I text t) := by
  have hr := fun a n => only_read (mayLook (I := I) hl) a n
  have ha : ∀ n, n = (utf8 text).length ∨ n = (utf8 text).length + 16 ∨ n = 24 → Only (May I top) (Remote.allocateMemory n) :=
    fun n hn => only_allocate n (.allocate hp hn)
  have hw : ∀ a d, d = utf8 text ∨ d.length = 8 ∨ d = List.replicate 24 0 → Only (May I top) (Remote.writeMemory a d) :=
    fun a d hd => only_write a d (.write hp hd)
  have h8 : ∀ a n, Only (May I top) (Remote.writeMemory a (le8 n)) := fun a n => hw a _ (.inr (.inl (le8_length n)))
  unfold createTyped
  cases t.layout with
  | strSlice d n =>
    simp only [createStr]
    refine Sat.ite trivial ?_
    have hs : Sat (May I top) (fun n => n = (utf8 text).length + 16) (lift (addU (utf8 text).length 16)) := by
      unfold lift addU
      split
      · rfl
      · trivial
    refine hs.bind fun total htot => (ha _ (.inr (.inl htot))).bind fun base _ => (hw _ _ (.inl rfl)).bind fun _ _ => ?_
    repeat' (first
      | with_reducible exact only_lift _
      | with_reducible exact only_ok _ | with_reducible exact only_err | with_reducible exact only_panic
      | with_reducible exact hr _ _ | with_reducible exact h8 _ _
      | with_reducible refine Sat.ite ?_ ?_
      | with_reducible refine Sat.bind (Q := fun _ => True) ?_ (fun _ _ => ?_))
  | string n d c e =>
    simp only [createString]
    refine (ha _ (.inl rfl)).bind fun content _ => (hw _ _ (.inl rfl)).bind fun _ _ => (ha _ (.inr (.inr rfl))).bind fun addr _ =>
      (hw _ _ (.inr (.inr rfl))).bind fun _ _ => ?_
    repeat' (first
      | with_reducible exact only_lift _
      | with_reducible exact only_ok _ | with_reducible exact only_err | with_reducible exact only_panic
      | with_reducible exact hr _ _ | with_reducible exact h8 _ _
      | with_reducible refine Sat.ite ?_ ?_
      | with_reducible refine Sat.bind (Q := fun _ => True) ?_ (fun _ _ => ?_))
  | _ => trivial

theorem sats_convertArg (hl : Touches top) {e : Expr} (hp : ∀ s, e = .str s → Passes top s) {ref : Ask Ptr} {val : Ask Shown}
    (hr : Onlys (May I top) ref) (hv : Onlys (May I top) val) (t : Option TypeDef) : Sats (May I top) (Stands e) (convertArg I e t ref val) := by
  have h1 : Onlys (May I top) (ref.orElse (fun p => .res (refArg p)) (val.bind fun r => .res (fallbackArg I r))) :=
    hr.orElse (fun _ _ => .res fun _ _ => trivial) (hv.bind fun _ _ => .res fun _ _ => trivial)
  cases e with
  | num n => exact .res fun a ha => by cases ha; exact rfl
  | str s =>
    cases t with
    | none => exact .res fun _ h => nomatch h
    | some t =>
      refine (onlys_conv (only_createTyped hl (hp s rfl) t)).bind fun a _ => .res fun x hx => ?_
      cases hz : t.size with
      | ok sz => rw [hz] at hx; cases hx; exact ⟨rfl, a, rfl⟩
      | err => rw [hz] at hx; cases hx
      | panic => rw [hz] at hx; cases hx
  | var => exact h1.mono fun _ _ => trivial
  | field => exact h1.mono fun _ _ => trivial
  | index => exact h1.mono fun _ _ => trivial
  | method => exact h1.mono fun _ _ => trivial
  | call => exact h1.mono fun _ _ => trivial
  | _ => exact .res fun _ h => nomatch h

theorem sats_executeMethod {b : Expr} {m : Str} {as : List Expr} (hw : Within top (.method b m as)) {p : Ptr}
    (hs : m ∉ syntheticMethods p.2.layout) {args : List TypeDef → Ask (List Arg)} (ha : ∀ ts, Sats (May I top) (Stand as) (args ts)) :
    Onlys (May I top) (executeMethod I p m args) := by
  unfold executeMethod
  refine Sats.bind (Q := fun ms => I.methods p = .ok ms) (.res fun _ h => h) fun ms hms => ?_
  refine Sats.bind (Q := fun c => ms.find? (fun c => c.name == m) = some c) (.res fun c h => ?_) fun c hc => ?_
  · cases hf : ms.find? (fun c => c.name == m) with
    | none => rw [hf] at h; cases h
    | some d => rw [hf] at h; cases h; rfl
  refine Sats.ite (fun _ => .res fun _ h => nomatch h) fun h0 => ?_
  refine (ha _).bind fun args hargs => Sats.bind (Q := fun z => sizeOpt c.ret = .ok z) (.res fun _ h => h) fun z hz => ?_
  refine Sats.bind (Q := fun _ => True) (onlys_conv ?_) fun _ _ => .res fun _ _ => trivial
  refine ⟨.method hw hs hms hc h0 hargs hz, fun x => ?_⟩
  dsimp only
  split <;> trivial

theorem sats_executeFunction {f : Str} {as : List Expr} (hw : Within top (.call f as))
    {args : List TypeDef → Ask (List Arg)} (ha : ∀ ts, Sats (May I top) (Stand as) (args ts)) :
    Onlys (May I top) (executeFunction I f as.length args) := by
  unfold executeFunction
  refine Sats.bind (Q := fun ms => I.functions f = .ok ms) (.res fun _ h => h) fun ms hms => ?_
  refine Sats.bind (Q := fun c => ms.head? = some c) (.res fun c h => ?_) fun c hc => ?_
  · cases hf : ms.head? with
    | none => rw [hf] at h; cases h
    | some d => rw [hf] at h; cases h; rfl
  refine Sats.ite (fun _ => .res fun _ h => nomatch h) fun h0 => Sats.ite (fun _ => .res fun _ h => nomatch h) fun hn => ?_
  refine (ha _).bind fun args hargs => Sats.bind (Q := fun z => sizeOpt c.ret = .ok z) (.res fun _ h => h) fun z hz => ?_
  refine Sats.bind (Q := fun _ => True) (onlys_conv ?_) fun _ _ => .res fun _ _ => trivial
  cases ms with
  | nil => cases hc
  | cons d rest =>
    cases hc
    refine ⟨.function hw hms h0 (Decidable.not_not.mp hn) hargs hz, fun x => ?_⟩
    dsimp only
    split <;> trivial

theorem sats_callShown (ht : Touches top) (r : CallResult × Option TypeDef) : Onlys (May I top) (callShown I r) := by
  obtain ⟨r, t⟩ := r
  cases r with
  | simple v n => exact .res fun _ _ => trivial
  | complex a n k =>
    cases t with
    | some t => exact onlys_pointerToResult (mayLook ht) (a, t)
    | none => exact .res fun _ _ => trivial

mutual
theorem sats_toRef : (e : Expr) → Within top e → Sats (May I top) (fun _ => Touches top) (toRef I e)
  | .var x, hw => by
    simp only [toRef]
    have ht : Touches top := .inl ⟨x, hw⟩
    exact (onlys_variableRef (mayLook ht) x).mono fun _ _ => ht
  | .field b f, hw => by
    simp only [toRef]
    exact (sats_toRef b (hw.trans (.field (.self b)))).bind fun p ht => .res fun _ _ => ht
  | .index b i, hw => by
    simp only [toRef]
    refine (sats_toRef b (hw.trans (.base (.self b)))).bind fun p ht => ?_
    exact (onlys_indexRef (mayLook ht) p (sats_toStr i (hw.trans (.index (.self i)))) (sats_toInt i (hw.trans (.index (.self i))))).mono fun _ _ => ht
  | .method b m as, hw => by
    simp only [toRef]
    refine (sats_toRef b (hw.trans (.receiver (.self b)))).bind fun p ht => ?_
    unfold methodRef
    refine Sats.ite (fun _ => .res fun _ h => nomatch h) fun hs => ?_
    refine (sats_executeMethod hw (by simpa using hs) (fun ts => sats_convertArgs as (fun a ha => hw.trans (.argument ha (.self a)))
      (fun s hs => .inl ⟨b, m, as, hw, hs⟩) ht ts)).bind fun r _ => .res fun _ _ => ht
  | .call f as, hw => by
    simp only [toRef]
    have ht : Touches top := .inr ⟨f, as, hw⟩
    refine (sats_executeFunction hw (fun ts => sats_convertArgs as (fun a ha => hw.trans (.passed ha (.self a)))
      (fun s hs => .inr ⟨f, as, hw, hs⟩) ht ts)).bind fun r _ => .res fun _ _ => ht
  | .num _, _ | .str _, _ | .paren _, _ | .path _, _ | .deref _, _ | .addrOf _ _, _ | .generic _ _, _ => by
    simp only [toRef]
    exact .res fun _ h => nomatch h
theorem sats_toInt : (e : Expr) → Within top e → Onlys (May I top) (toInt I e)
  | .num n, _ => by simp only [toInt]; exact .res fun _ _ => trivial
  | .var x, hw => by
    simp only [toInt]
    have ht : Touches top := .inl ⟨x, hw⟩
    exact (onlys_variableRef (mayLook ht) x).bind fun p _ => onlys_conv (only_readInt (mayLook ht) I _ p)
  | .field b f, hw => by
    simp only [toInt]
    exact (sats_toRef b (hw.trans (.field (.self b)))).bind fun p ht => Sats.bind (Q := fun _ => True) (.res fun _ _ => trivial) fun p _ =>
      onlys_conv (only_readInt (mayLook ht) I _ p)
  | .index b i, hw => by
    simp only [toInt]
    refine (sats_toRef b (hw.trans (.base (.self b)))).bind fun p ht => ?_
    exact (onlys_indexRef (mayLook ht) p (sats_toStr i (hw.trans (.index (.self i)))) (sats_toInt i (hw.trans (.index (.self i))))).bind fun p _ =>
      onlys_conv (only_readInt (mayLook ht) I _ p)
  | .paren e, hw => by
    simp only [toInt]
    exact sats_toInt e (hw.trans (.paren (.self e)))
  | .method _ _ _, _ | .call _ _, _ | .str _, _ | .path _, _ | .deref _, _ | .addrOf _ _, _ | .generic _ _, _ => by
    simp only [toInt]
    exact .res fun _ h => nomatch h
theorem sats_toStr : (e : Expr) → Within top e → Onlys (May I top) (toStr I e)
  | .str n, _ => by simp only [toStr]; exact .res fun _ _ => trivial
  | .var x, hw => by
    simp only [toStr]
    have ht : Touches top := .inl ⟨x, hw⟩
    exact (onlys_variableRef (mayLook ht) x).bind fun p _ => onlys_conv (only_readString (mayLook ht) I _ p)
  | .field b f, hw => by
    simp only [toStr]
    exact (sats_toRef b (hw.trans (.field (.self b)))).bind fun p ht => Sats.bind (Q := fun _ => True) (.res fun _ _ => trivial) fun p _ =>
      onlys_conv (only_readString (mayLook ht) I _ p)
  | .index b i, hw => by
    simp only [toStr]
    refine (sats_toRef b (hw.trans (.base (.self b)))).bind fun p ht => ?_
    exact (onlys_indexRef (mayLook ht) p (sats_toStr i (hw.trans (.index (.self i)))) (sats_toInt i (hw.trans (.index (.self i))))).bind fun p _ =>
      onlys_conv (only_readString (mayLook ht) I _ p)
  | .paren e, hw => by
    simp only [toStr]
    exact sats_toStr e (hw.trans (.paren (.self e)))
  | .method _ _ _, _ | .call _ _, _ | .num _, _ | .path _, _ | .deref _, _ | .addrOf _ _, _ | .generic _ _, _ => by
    simp only [toStr]
    exact .res fun _ h => nomatch h
theorem sats_evaluate : (e : Expr) → Within top e → Onlys (May I top) (evaluate I e)
  | .num n, _ => by simp only [evaluate]; exact .res fun _ _ => trivial
  | .str n, _ => by simp only [evaluate]; exact .res fun _ _ => trivial
  | .var x, hw => by
    simp only [evaluate]
    have ht : Touches top := .inl ⟨x, hw⟩
    exact (onlys_variableRef (mayLook ht) x).bind fun p _ => onlys_pointerToResult (mayLook ht) p
  | .field b f, hw => by
    simp only [evaluate]
    exact (sats_toRef b (hw.trans (.field (.self b)))).bind fun p ht => Sats.bind (Q := fun _ => True) (.res fun _ _ => trivial) fun p _ =>
      onlys_pointerToResult (mayLook ht) p
  | .index b i, hw => by
    simp only [evaluate]
    refine (sats_toRef b (hw.trans (.base (.self b)))).bind fun p ht => ?_
    exact (onlys_indexRef (mayLook ht) p (sats_toStr i (hw.trans (.index (.self i)))) (sats_toInt i (hw.trans (.index (.self i))))).bind fun p _ =>
      onlys_pointerToResult (mayLook ht) p
  | .paren e, hw => by
    simp only [evaluate]
    exact sats_evaluate e (hw.trans (.paren (.self e)))
  | .method b m as, hw => by
    simp only [evaluate]
    refine (sats_toRef b (hw.trans (.receiver (.self b)))).bind fun p ht => ?_
    unfold methodShown
    refine Sats.ite (fun _ => Sats.ite (fun _ => .res fun _ h => nomatch h) fun _ => ?_) fun hs => ?_
    · exact onlys_conv ((only_evalSynthetic (mayLook ht) _ _ _).bind fun _ _ => trivial)
    · exact (sats_executeMethod hw (by simpa using hs) (fun ts => sats_convertArgs as (fun a ha => hw.trans (.argument ha (.self a)))
        (fun s hs => .inl ⟨b, m, as, hw, hs⟩) ht ts)).bind fun r _ => sats_callShown ht r
  | .call f as, hw => by
    simp only [evaluate]
    have ht : Touches top := .inr ⟨f, as, hw⟩
    exact (sats_executeFunction hw (fun ts => sats_convertArgs as (fun a ha => hw.trans (.passed ha (.self a)))
      (fun s hs => .inr ⟨f, as, hw, hs⟩) ht ts)).bind fun r _ => sats_callShown ht r
  | .path _, _ | .deref _, _ | .addrOf _ _, _ | .generic _ _, _ => by
    simp only [evaluate]
    exact .res fun _ h => nomatch h
theorem sats_convertArgs : (es : List Expr) → (∀ e ∈ es, Within top e) → (∀ s, .str s ∈ es → Passes top s) → Touches top → (ts : List TypeDef) →
    Sats (May I top) (Stand es) (convertArgs I es ts)
  | [], _, _, _, ts => by
    simp only [convertArgs]
    exact .res fun a ha => by cases ha; exact .nil
  | e :: es, hw, hp, ht, ts => by
    simp only [convertArgs]
    have he : Within top e := hw e List.mem_cons_self
    refine (sats_convertArg ht (fun s h => hp s (h ▸ List.mem_cons_self)) ((sats_toRef e he).mono fun _ _ => trivial) (sats_evaluate e he) _).bind fun a ha => ?_
    refine (sats_convertArgs es (fun e h => hw e (List.mem_cons_of_mem _ h)) (fun s h => hp s (List.mem_cons_of_mem _ h)) ht _).bind fun as has => ?_
    exact .res fun x hx => by cases hx; exact .cons ha has
end

end
end Rudy.Ask

namespace Rudy.Whole
open Rudy Rudy.Server Rudy.Ask Rudy.Listing Rudy.Layout
open Rudy.Expr (Expr parseExpression joinWith)

/-! ### C87 -/

/-- What the command may ask of the debugger: `eval` and `print` what evaluating their expression may ask, `methods` the same and whether a
name is the name of a variable, other commands nothing. -/
def Asks (b : Binary) (cmd : Str) (args : List Str) (ev : Event) : Prop :=
  ∃ e, parseExpression (joinWith (chars! " ") args) = .ok e ∧
    (((cmd = chars! "eval" ∨ cmd = chars! "print" ∨ cmd = chars! "methods") ∧ May b.info e ev) ∨
      (cmd = chars! "methods" ∧ ∃ x, e = .var x ∧ ev = .getVariableType x))

theorem only_respond {P : Event → Prop} {c : Conv Str} (h : Only P c) : Only P (respond c) :=
  Sat.handle h (fun _ _ => trivial) trivial

theorem only_typeOnly {P : Event → Prop} (B : Backend) (n : Str) : Only P (typeOnly B n) := by
  unfold typeOnly
  split
  · exact only_lift _
  · trivial

/-- C87: whatever the debugger answers, a command asks nothing else. -/
theorem C87_command (b : Binary) (cmd : Str) (args : List Str) : Only (Asks b cmd args) (handleCommand b.program.backend cmd args) := by
  have lift : ∀ {α : Type} {e : Expr} {x : Conv α}, parseExpression (joinWith (chars! " ") args) = .ok e →
      (cmd = chars! "eval" ∨ cmd = chars! "print" ∨ cmd = chars! "methods") → Only (May b.info e) x → Only (Asks b cmd args) x := by
    intro α e x hp hc h
    induction x with
    | ok a => trivial
    | err => trivial
    | panic => trivial
    | ask ev k ih => exact ⟨⟨e, hp, .inl ⟨hc, h.1⟩⟩, fun a => ih a (h.2 a)⟩
  unfold handleCommand
  by_cases h1 : cmd = chars! "eval" ∨ cmd = chars! "print"
  · rw [if_pos h1]
    refine Sat.ite trivial ?_
    cases hp : parseExpression (joinWith (chars! " ") args) with
    | err => trivial
    | panic => trivial
    | ok e =>
      refine only_respond (Sat.bind (Q := fun _ => True) (lift hp (by rcases h1 with h | h <;> simp [h]) ?_) fun _ _ => trivial)
      exact (sats_evaluate e (.self e)).run
  rw [if_neg h1]
  by_cases h2 : cmd = chars! "methods"
  · rw [if_pos h2]
    refine Sat.ite trivial (only_respond ?_)
    unfold handleMethods
    cases hp : parseExpression (joinWith (chars! " ") args) with
    | err => exact only_typeOnly _ _
    | panic => trivial
    | ok e =>
      have hr : Only (Asks b cmd args) (b.program.backend.toRef e) :=
        Sat.bind (Q := fun _ => True) (Sat.bind (Q := fun _ => True)
          (lift hp (by simp [h2]) ((sats_toRef e (.self e)).run.mono fun _ _ => trivial)) fun _ _ => trivial)
          fun _ _ => (only_lift _).bind fun _ _ => trivial
      cases e with
      | var x =>
        refine Sat.bind (Q := fun _ => True) ⟨⟨_, hp, .inr ⟨h2, x, rfl, rfl⟩⟩, fun _ => trivial⟩ fun v _ => ?_
        exact Sat.ite hr (only_typeOnly _ _)
      | path => exact only_typeOnly _ _
      | generic => exact only_typeOnly _ _
      | _ => exact hr
  rw [if_neg h2]
  refine Sat.ite ?_ (Sat.ite trivial trivial)
  cases args with
  | nil => exact only_respond (only_lift _)
  | cons p ps => exact only_respond (only_lift _)

theorem runConv_sent {α : Type} {P : Event → Prop} {c : Conv α} (h : Only P c) (ls : List Line) :
    ∀ m, .sent m ∈ (runConv c ls).1 → ∃ ev, m = .event ev ∧ P ev := by
  induction c generalizing ls with
  | ok a => simp [runConv]
  | err => simp [runConv]
  | panic => simp [runConv]
  | ask e k ih =>
    intro m hm
    cases ls with
    | nil =>
      simp only [runConv, List.mem_cons, Step.sent.injEq] at hm
      rcases hm with rfl | hm
      · exact ⟨e, rfl, h.1⟩
      · exact ih _ (h.2 _) _ _ hm
    | cons l ls =>
      simp only [runConv, List.mem_cons, Step.sent.injEq, reduceCtorEq, false_or] at hm
      rcases hm with rfl | hm
      · exact ⟨e, rfl, h.1⟩
      · exact ih _ (h.2 _) _ _ hm

/-- The event is sent while the server works on the command: the last line it read as a command, which it has not answered yet. -/
def During (steps : List Step) (cmd : Str) (args : List Str) (ev : Event) : Prop :=
  ∃ before mid after, steps = before ++ .got (.msg (.command cmd args)) :: mid ++ .sent (.event ev) :: after ∧
    ∀ m, .sent m ∈ mid → ∃ e, m = .event e

theorem during_cons {steps : List Step} {cmd : Str} {args : List Str} {ev : Event} (pre : List Step) (h : During steps cmd args ev) :
    During (pre ++ steps) cmd args ev := by
  obtain ⟨x, y, z, rfl, h⟩ := h
  exact ⟨pre ++ x, y, z, by simp, h⟩

theorem loop_sent (b : Binary) (n : Nat) (ls : List Line) (ev : Event) (h : .sent (.event ev) ∈ (sessionLoop b.program.backend n ls).1) :
    ∃ cmd args, .msg (.command cmd args) ∈ ls ∧ During (sessionLoop b.program.backend n ls).1 cmd args ev ∧ Asks b cmd args ev := by
  induction n generalizing ls with
  | zero => simp [sessionLoop] at h
  | succ n ih =>
    cases ls with
    | nil => simp [sessionLoop] at h
    | cons l ls =>
      cases l with
      | bad =>
        simp only [sessionLoop, List.mem_cons, reduceCtorEq, Step.sent.injEq, false_or] at h ⊢
        obtain ⟨cmd, args, h1, h2, h3⟩ := ih _ h
        exact ⟨cmd, args, by simp [h1], during_cons [_, _] h2, h3⟩
      | msg m =>
        cases m with
        | init p => simp [sessionLoop] at h
        | answer a => simp [sessionLoop] at h
        | command cmd args =>
          have hc := C87_command b cmd args
          generalize hcc : handleCommand b.program.backend cmd args = c at hc
          have hs := runConv_sent hc ls
          have hl : ∀ l ∈ (runConv c ls).2.2, l ∈ ls := by
            obtain ⟨es, us, -, -, h3, -⟩ := runConv_shape c ls
            intro l hl
            rw [← h3]
            exact List.mem_append_right _ hl
          have now : ∀ rest, .sent (.event ev) ∈ (runConv c ls).1 →
              ∃ cmd' args', Line.msg (.command cmd' args') ∈ Line.msg (.command cmd args) :: ls ∧
                During (.got (.msg (.command cmd args)) :: ((runConv c ls).1 ++ rest)) cmd' args' ev ∧ Asks b cmd' args' ev := by
            intro rest hm
            obtain ⟨e, he, ha⟩ := hs _ hm
            cases he
            obtain ⟨x, y, hxy⟩ := List.append_of_mem hm
            refine ⟨cmd, args, List.mem_cons_self, ⟨[], x, y ++ rest, by simp [hxy], fun m hm => ?_⟩, ha⟩
            obtain ⟨e, he, -⟩ := hs m (by rw [hxy]; exact List.mem_append_left _ hm)
            exact ⟨e, he⟩
          have hc' : sessionLoop b.program.backend (n + 1) (.msg (.command cmd args) :: ls) =
              match (runConv c ls).2.1 with
              | .panic => (.got (.msg (.command cmd args)) :: (runConv c ls).1, .crashed)
              | .err => (.got (.msg (.command cmd args)) :: (runConv c ls).1, .failed)
              | .ok m =>
                if cmd = chars! "shutdown" then (.got (.msg (.command cmd args)) :: ((runConv c ls).1 ++ [.sent m]), .exit)
                else
                  let r := sessionLoop b.program.backend n (runConv c ls).2.2
                  (.got (.msg (.command cmd args)) :: ((runConv c ls).1 ++ .sent m :: r.1), r.2) := by rw [← hcc]; rfl
          rw [hc'] at h ⊢
          cases hr : (runConv c ls).2.1 with
          | panic =>
            simp only [hr, List.mem_cons, reduceCtorEq, false_or] at h ⊢
            simpa using now [] h
          | err =>
            simp only [hr, List.mem_cons, reduceCtorEq, false_or] at h ⊢
            simpa using now [] h
          | ok m =>
            have hm : m ≠ .event ev := by
              rintro rfl
              have := (runConv_ends (ends_handleCommand b.program.backend cmd args) ls).2 (.event ev) (by rw [hcc]; exact hr)
              exact this
            simp only [hr] at h ⊢
            split at h
            · rename_i hs
              simp only [hs, if_true, List.mem_cons, reduceCtorEq, false_or, List.mem_append, Step.sent.injEq, List.not_mem_nil, or_false] at h ⊢
              simpa [hs] using now _ (h.resolve_right fun h => hm h.symm)
            · rename_i hs
              simp only [hs, if_false, List.mem_cons, reduceCtorEq, false_or, List.mem_append, Step.sent.injEq] at h ⊢
              rcases h with h | h | h
              · simpa using now _ h
              · exact absurd h.symm hm
              · obtain ⟨cmd', args', h1, h2, h3⟩ := ih _ h
                refine ⟨cmd', args', .inr (hl _ h1), ?_, h3⟩
                have := during_cons (.got (.msg (.command cmd args)) :: ((runConv c ls).1 ++ [.sent m])) h2
                simpa using this


/-- C87: in a session - whatever lines the client sends, answers that are wrong or missing among them - every event the server sends is one
the command it is working on may ask for, of the binary the session was started for. -/
theorem C87_session (binaries : Str → Option Binary) (ls : List Line) (ev : Event)
    (h : .sent (.event ev) ∈ (session (fun p => (binaries p).map fun b => b.program.backend) ls).1) :
    ∃ path b cmd args, ls.head? = some (.msg (.init path)) ∧ binaries path = some b ∧ .msg (.command cmd args) ∈ ls ∧
      During (session (fun p => (binaries p).map fun b => b.program.backend) ls).1 cmd args ev ∧ Asks b cmd args ev := by
  cases ls with
  | nil => simp [session] at h
  | cons l ls =>
    cases l with
    | bad => simp [session] at h
    | msg m =>
      cases m with
      | answer a => simp [session] at h
      | command cmd args =>
        simp only [session] at h
        split at h <;> simp at h
      | init path =>
        simp only [session] at h ⊢
        cases hb : binaries path with
        | none => simp [hb] at h
        | some b =>
          simp only [hb, Option.map_some, List.mem_cons, reduceCtorEq, false_or] at h ⊢
          obtain ⟨cmd, args, h1, h2, h3⟩ := loop_sent b _ ls ev h
          exact ⟨path, b, cmd, args, rfl, hb, .inr h1, during_cons [_] h2, h3⟩

/-! ### Without calls -/

/-- Nothing is called in the expression. -/
def Calls (e : Expr) : Prop := (∃ b m as, Within e (.method b m as)) ∨ (∃ f as, Within e (.call f as))

theorem may_looks {I : Info} {e : Expr} (h : ¬ Calls e) {ev : Event} (hm : May I e ev) : Remote.Looks ev := by
  cases hm with
  | memory => trivial
  | register => trivial
  | frame => trivial
  | method hw => exact absurd (.inl ⟨_, _, _, hw⟩) h
  | function hw => exact absurd (.inr ⟨_, _, hw⟩) h
  | allocate hp => rcases hp with ⟨b, m, as, hw, -⟩ | ⟨f, as, hw, -⟩ <;> exact absurd (by first | exact .inl ⟨_, _, _, hw⟩ | exact .inr ⟨_, _, hw⟩) h
  | write hp => rcases hp with ⟨b, m, as, hw, -⟩ | ⟨f, as, hw, -⟩ <;> exact absurd (by first | exact .inl ⟨_, _, _, hw⟩ | exact .inr ⟨_, _, hw⟩) h

/-- A conversation of looks leaves the process as it is. -/
theorem talk_looks {σ α : Type} (L : Remote.Lldb σ) {c : Conv α} (h : Only Remote.Looks c) (s : σ) : (Remote.talk L c s).2 = s := by
  induction c generalizing s with
  | ok a => rfl
  | err => rfl
  | panic => rfl
  | ask e k ih =>
    have h1 := Remote.C77_looking L s e h.1
    simp only [Remote.talk]
    rw [ih _ (h.2 _), h1]

theorem Only.mono' {α : Type} {P P' : Event → Prop} {c : Conv α} (h : Only P c) (hp : ∀ e, P e → P' e) : Only P' c := by
  induction c with
  | ok a => trivial
  | err => trivial
  | panic => trivial
  | ask e k ih => exact ⟨hp e h.1, fun a => ih a (h.2 a)⟩

/-- C87: whatever is typed after `rd`, the process is left as it was, unless it is an expression with a method or function called in it. -/
theorem C87_undisturbed {σ : Type} (L : Remote.Lldb σ) (other : Wire.Json → Str) (b : Binary) (s s' : σ) (text : Str) (out : Printed)
    (h : rd L other b.program.backend s text = some (out, s'))
    (hc : ∀ sub args e, Front.words text = sub :: args → parseExpression (joinWith (chars! " ") args) = .ok e → ¬ Calls e) : s' = s := by
  unfold rd at h
  cases hw : Front.words text with
  | nil => rw [hw] at h; cases h
  | cons sub args =>
    simp only [hw, sent_back] at h
    split at h
    · cases h
    · have hl : Only Remote.Looks (handleCommand b.program.backend (Front.expand sub) args) := by
        refine Only.mono' (C87_command b _ args) ?_
        rintro ev ⟨e, hp, ⟨-, hm⟩ | ⟨-, x, -, rfl⟩⟩
        · exact may_looks (hc sub args e hw hp) hm
        · trivial
      have ht := talk_looks L hl s
      split at h
      · rename_i ht'
        rw [ht'] at ht
        split at h <;> (cases h; exact ht)
      · rename_i ht'
        rw [ht'] at ht
        cases h
        exact ht

/-! ### Examples -/

/-- The binary of the example of C86 with the function `f` of the example of C40. -/
def callBinary : Binary := { mapBinary 9 with world := Discovery.untypedParam }

/-- A session with the binary above: the user prints `f(3)`, and the client goes away. -/
def callSession : List Line := [.msg (.init (chars! "a.out")), .msg (.command (chars! "print") [chars! "f(3)"])]

/-- `C87_session` is about something: the server asks for the call of `f`, at 16, with 3. -/
theorem call_sent : .sent (.event (.executeFunction 16 [⟨chars! "3", .integer, none⟩] none)) ∈
    (session (fun p => (some callBinary).map fun b => b.program.backend) callSession).1 := by
  have : (session (fun p => (some callBinary).map fun b => b.program.backend) callSession).1 =
      [.got (.msg (.init (chars! "a.out"))), .got (.msg (.command (chars! "print") [chars! "f(3)"])),
        .sent (.event (.executeFunction 16 [⟨chars! "3", .integer, none⟩] none)), .sent .error] := by with_unfolding_all rfl
  rw [this]
  simp

/-- … and `C87_session` says that the user called a function `f` with one argument, 3, found at 16. -/
example : ∃ b cmd args e, b = callBinary ∧ .msg (.command cmd args) ∈ callSession ∧ parseExpression (joinWith (chars! " ") args) = .ok e ∧
    ∃ f as, Within e (.call f as) ∧ ∃ c rest, b.info.functions f = .ok (c :: rest) ∧ c.address = 16 ∧ Stand as [⟨chars! "3", .integer, none⟩] := by
  obtain ⟨path, b, cmd, args, -, hb, hm, -, e, hp, ⟨-, hmay⟩ | ⟨-, x, -, h⟩⟩ := C87_session (fun _ => some callBinary) callSession _ call_sent
  · cases hb
    generalize hev : Event.executeFunction 16 [⟨chars! "3", .integer, none⟩] none = ev at hmay
    cases hmay with
    | function hw hf h0 hn hs hz =>
      simp only [Event.executeFunction.injEq] at hev
      obtain ⟨h1, rfl, h3⟩ := hev
      exact ⟨_, cmd, args, e, rfl, hm, hp, _, _, hw, _, _, hf, h1.symm, hs⟩
    | _ => cases hev
  · cases h

/-- `rd p m` leaves the process of the example alone. -/
example (other : Wire.Json → Str) (N : Nat) (out : Printed) (s' : Remote.Toy)
    (h : rd Remote.toy other (mapBinary N).program.backend mapProcess (chars! "p m") = some (out, s')) : s' = mapProcess := by
  refine C87_undisturbed Remote.toy other (mapBinary N) mapProcess s' (chars! "p m") out h ?_
  intro sub args e hw hp
  cases hw
  cases (show parseExpression (joinWith (chars! " ") [chars! "m"]) = .ok (.var (chars! "m")) by with_unfolding_all rfl).symm.trans hp
  rintro (⟨b, m, as, h⟩ | ⟨f, as, h⟩) <;> cases h

end Rudy.Whole
