import Verif.Proof.Eval
import Verif.Props.Eval
import Verif.Props.Calls
/-
C72: the calls an evaluation makes.
-/
namespace Rudy.Eval
open Rudy Rudy.Expr Rudy.Data Rudy.Layout Rudy.Server
open Rudy.Calls (Plain hexStr_plain)

variable {σ α β : Type}

mutual
/-- The expressions that occur in an expression. -/
def within : Expr → List Expr
  | .field b f => .field b f :: within b
  | .index b i => .index b i :: (within b ++ within i)
  | .deref e => .deref e :: within e
  | .addrOf m e => .addrOf m e :: within e
  | .paren e => .paren e :: within e
  | .method b m as => .method b m as :: (within b ++ withinAll as)
  | .call f as => .call f as :: withinAll as
  | e => [e]
/-- The expressions that occur in the expressions of a list. -/
def withinAll : List Expr → List Expr
  | [] => []
  | e :: es => within e ++ withinAll es
end

/-- What may be said about an argument: an address, as a pointer, with the size of what is there; or a number or a truth
value, without a size. -/
def ArgOk (W : World σ) (a : Arg) : Prop :=
  match a.ty with
  | .pointer => ∃ addr, a.value = hexStr addr
  | .bool => a.size = none ∧ (a.value = chars! "1" ∨ a.value = chars! "0")
  | .integer => a.size = none ∧ ((∃ n, a.value = natStr n) ∨ W.isFloat a.value = true)
  | .float => a.size = none ∧ W.isFloat a.value = true

/-- The event executes a call that occurs in one of the expressions `es`: what the debug information has for its name,
which has an address, with one argument for each argument written, and with the size of the type returned. A function has
as many parameters as there are arguments. -/
def SentFor (W : World σ) (es : List Expr) : Event → Prop
  | .executeFunction addr args sz => ∃ f as c fs, Expr.call f as ∈ es ∧ W.functions f = .ok (c :: fs) ∧ c.address = addr ∧ addr ≠ 0 ∧
      args.length = as.length ∧ as.length = c.params.length ∧ sizeOpt c.ret = .ok sz ∧ ∀ a ∈ args, ArgOk W a
  | .executeMethod addr base args sz => ∃ b m as p ms c, Expr.method b m as ∈ es ∧ W.methods p = .ok ms ∧ c ∈ ms ∧ c.name = m ∧
      c.address = addr ∧ addr ≠ 0 ∧ p.1 = base ∧ args.length = as.length ∧ sizeOpt c.ret = .ok sz ∧ ∀ a ∈ args, ArgOk W a
  | _ => False

/-- The evaluation only makes calls of which `P` holds; if it succeeds, `Q` holds of the result. -/
def Sends (P : Event → Prop) (Q : α → Prop) (x : Ev σ α) : Prop :=
  ∀ s, (∃ evs, (x s).2.calls = s.calls ++ evs ∧ ∀ e ∈ evs, P e) ∧ ∀ a, (x s).1 = .ok a → Q a

theorem sends_lift {P : Event → Prop} {Q : α → Prop} {r : Res α} (h : ∀ a, r = .ok a → Q a) : Sends P Q (Ev.lift r : Ev σ α) :=
  fun _ => ⟨⟨[], by simp [Ev.lift], by simp⟩, fun a ha => h a ha⟩

theorem sends_reading {P : Event → Prop} (f : σ → Res α) : Sends P (fun _ => True) (Ev.reading f) :=
  fun _ => ⟨⟨[], by simp [Ev.reading], by simp⟩, fun _ _ => trivial⟩

theorem sends_bind {P : Event → Prop} {Q : α → Prop} {R : β → Prop} {x : Ev σ α} {f : α → Ev σ β} (hx : Sends P Q x)
    (hf : ∀ a, Q a → Sends P R (f a)) : Sends P R (x.bind f) := by
  intro s
  obtain ⟨⟨evs, h1, h2⟩, h3⟩ := hx s
  unfold Ev.bind
  cases hxs : x s with
  | mk r s' =>
    rw [hxs] at h1 h3
    cases r with
    | ok a =>
      obtain ⟨⟨evs', k1, k2⟩, k3⟩ := hf a (h3 a rfl) s'
      refine ⟨⟨evs ++ evs', ?_, ?_⟩, k3⟩
      · show (f a s').2.calls = _
        rw [k1, h1, List.append_assoc]
      · intro e he
        rcases List.mem_append.1 he with he | he
        · exact h2 e he
        · exact k2 e he
    | err => exact ⟨⟨evs, h1, h2⟩, fun _ h => by simp at h⟩
    | panic => exact ⟨⟨evs, h1, h2⟩, fun _ h => by simp at h⟩

theorem sends_orElse {P : Event → Prop} {Q : α → Prop} {R : β → Prop} {x : Ev σ α} {f : α → Ev σ β} {g : Ev σ β} (hx : Sends P Q x)
    (hf : ∀ a, Q a → Sends P R (f a)) (hg : Sends P R g) : Sends P R (x.orElse f g) := by
  intro s
  obtain ⟨⟨evs, h1, h2⟩, h3⟩ := hx s
  unfold Ev.orElse
  have app : ∀ {y : Ev σ β} {s' : St σ}, s'.calls = s.calls ++ evs → Sends P R y →
      (∃ evs, (y s').2.calls = s.calls ++ evs ∧ ∀ e ∈ evs, P e) ∧ ∀ a, (y s').1 = .ok a → R a := by
    intro y s' h hy
    obtain ⟨⟨evs', k1, k2⟩, k3⟩ := hy s'
    refine ⟨⟨evs ++ evs', by rw [k1, h, List.append_assoc], ?_⟩, k3⟩
    intro e he
    rcases List.mem_append.1 he with he | he
    · exact h2 e he
    · exact k2 e he
  cases hxs : x s with
  | mk r s' =>
    rw [hxs] at h1 h3
    cases r with
    | ok a => exact app h1 (hf a (h3 a rfl))
    | err => exact app h1 hg
    | panic => exact ⟨⟨evs, h1, h2⟩, fun _ h => by simp at h⟩

theorem sends_mono {P P' : Event → Prop} {Q : α → Prop} {x : Ev σ α} (h : Sends P Q x) (hp : ∀ e, P e → P' e) : Sends P' Q x :=
  fun s => ⟨(h s).1.imp fun _ ⟨h1, h2⟩ => ⟨h1, fun e he => hp e (h2 e he)⟩, (h s).2⟩

theorem sends_true {P : Event → Prop} {Q : α → Prop} {x : Ev σ α} (h : Sends P Q x) : Sends P (fun _ => True) x :=
  fun s => ⟨(h s).1, fun _ _ => trivial⟩

theorem sends_quiet {P : Event → Prop} {x : Ev σ α} (h : Quiet x) : Sends P (fun _ => True) x :=
  fun s => ⟨⟨[], by simp [(h s).1], by simp⟩, fun _ _ => trivial⟩

abbrev Any {α : Type} : α → Prop := fun _ => True

theorem sends_err {P : Event → Prop} {Q : α → Prop} : Sends P Q (Ev.lift .err : Ev σ α) := sends_lift fun _ h => by simp at h

theorem sends_execute {P : Event → Prop} (W : World σ) {e : Event} (h : P e) : Sends P Any (execute W e) := by
  intro s
  unfold execute
  refine ⟨⟨[e], ?_, by simpa using h⟩, fun _ _ => trivial⟩
  cases W.execute e s.proc with
  | mk r p => cases r <;> rfl

theorem sizes_ok {α : Type} {r : Res (Option Nat)} {f : Option Nat → Res α} {a : α} (h : r.bind f = .ok a) : ∃ sz, r = .ok sz ∧ f sz = .ok a := by
  cases r with
  | ok sz => exact ⟨sz, rfl, h⟩
  | err => simp at h
  | panic => simp at h

theorem refArg_ok (W : World σ) {p : Ptr} {a : Arg} (h : refArg p = .ok a) : ArgOk W a := by
  obtain ⟨sz, _, h2⟩ := sizes_ok h
  simp only [Res.ok.injEq] at h2
  subst h2
  exact ⟨p.1, rfl⟩

theorem fallbackArg_ok (W : World σ) {r : Shown} {a : Arg} (h : fallbackArg W r = .ok a) : ArgOk W a := by
  unfold fallbackArg at h
  split at h
  · simp only [Res.ok.injEq] at h
    subst h
    refine ⟨rfl, ?_⟩
    simp only
    split <;> simp
  · split at h
    · rename_i hf
      split at h <;> simp only [Res.ok.injEq] at h <;> subst h
      · exact ⟨rfl, hf⟩
      · exact ⟨rfl, .inr hf⟩
    · simp at h

theorem sends_stringArg {P : Event → Prop} (W : World σ) (text : Str) (t : Option TypeDef) : Sends P (ArgOk W) (stringArg W text t) := by
  intro s
  unfold stringArg
  cases t with
  | none => exact ⟨⟨[], by simp, by simp⟩, fun _ h => by simp at h⟩
  | some t =>
    simp only
    rcases createTyped W.remote text t s.proc with ⟨r, p⟩
    cases r with
    | ok x =>
      refine ⟨⟨[], by simp, by simp⟩, fun a h => ?_⟩
      obtain ⟨sz, _, h2⟩ := sizes_ok h
      simp only [Res.ok.injEq] at h2
      subst h2
      exact ⟨x, rfl⟩
    | err => exact ⟨⟨[], by simp, by simp⟩, fun _ h => by simp at h⟩
    | panic => exact ⟨⟨[], by simp, by simp⟩, fun _ h => by simp at h⟩

theorem sends_convertArg {P : Event → Prop} (W : World σ) (e : Expr) (t : Option TypeDef) (hr : Sends P Any (toRef W e))
    (hv : Sends P Any (evaluate W e)) : Sends P (ArgOk W) (convertArg W e t (toRef W e) (evaluate W e)) := by
  have ho : Sends P (ArgOk W) ((toRef W e).orElse (fun p => Ev.lift (refArg p)) ((evaluate W e).bind fun r => .lift (fallbackArg W r))) :=
    sends_orElse hr (fun p _ => sends_lift fun a h => refArg_ok W h) (sends_bind hv fun r _ => sends_lift fun a h => fallbackArg_ok W h)
  unfold convertArg
  split
  · refine sends_lift fun a h => ?_
    simp only [Res.ok.injEq] at h
    subst h
    exact ⟨rfl, .inl ⟨_, rfl⟩⟩
  · exact sends_stringArg W _ t
  · exact ho
  · exact ho
  · exact ho
  · exact ho
  · exact ho
  · exact sends_err

/-- The result of a conversion of `n` arguments. -/
def ArgsOk (W : World σ) (n : Nat) (as : List Arg) : Prop := as.length = n ∧ ∀ a ∈ as, ArgOk W a

theorem ofOption_ok {α : Type} {o : Option α} {a : α} (h : Res.ofOption o = .ok a) : o = some a := by
  cases o with
  | none => simp [Res.ofOption] at h
  | some b => simpa [Res.ofOption] using h

theorem sends_method (W : World σ) (es : List Expr) {b : Expr} {m : Str} {as : List Expr} (hm : Expr.method b m as ∈ es) (p : Ptr)
    {args : List TypeDef → Ev σ (List Arg)} (ha : ∀ ts, Sends (SentFor W es) (ArgsOk W as.length) (args ts)) :
    Sends (SentFor W es) Any (executeMethod W p m args) := by
  refine sends_bind (Q := fun ms => W.methods p = .ok ms) (sends_lift fun ms h => h) fun ms hms => ?_
  refine sends_bind (Q := fun c => c ∈ ms ∧ c.name = m) (sends_lift fun c h => ?_) fun c hc => ?_
  · have h := ofOption_ok h
    exact ⟨List.mem_of_find?_eq_some h, by simpa using List.find?_some h⟩
  · split
    · exact sends_err
    · rename_i haddr
      refine sends_bind (ha _) fun args hargs => ?_
      refine sends_bind (Q := fun sz => sizeOpt c.ret = .ok sz) (sends_lift fun sz h => h) fun sz hsz => ?_
      refine sends_bind (sends_execute W ⟨b, m, as, p, ms, c, hm, hms, hc.1, hc.2, rfl, haddr, rfl, hargs.1, hsz, hargs.2⟩) fun r _ => ?_
      exact sends_lift fun _ _ => trivial

theorem sends_function (W : World σ) (es : List Expr) {f : Str} {as : List Expr} (hm : Expr.call f as ∈ es)
    {args : List TypeDef → Ev σ (List Arg)} (ha : ∀ ts, Sends (SentFor W es) (ArgsOk W as.length) (args ts)) :
    Sends (SentFor W es) Any (executeFunction W f as.length args) := by
  refine sends_bind (Q := fun fs => W.functions f = .ok fs) (sends_lift fun fs h => h) fun fs hfs => ?_
  refine sends_bind (Q := fun c => fs.head? = some c) (sends_lift fun c h => ofOption_ok h) fun c hc => ?_
  obtain ⟨rest, rfl⟩ : ∃ rest, fs = c :: rest := by
    cases fs with
    | nil => simp at hc
    | cons d rest => exact ⟨rest, by simp at hc; rw [hc]⟩
  split
  · exact sends_err
  · split
    · exact sends_err
    · rename_i haddr hn
      refine sends_bind (ha _) fun args hargs => ?_
      refine sends_bind (Q := fun sz => sizeOpt c.ret = .ok sz) (sends_lift fun sz h => h) fun sz hsz => ?_
      refine sends_bind (sends_execute W ⟨f, as, c, rest, hm, hfs, rfl, haddr, hargs.1, Decidable.not_not.1 hn, hsz, hargs.2⟩) fun r _ => ?_
      exact sends_lift fun _ _ => trivial

theorem sends_variable {P : Event → Prop} (W : World σ) (n : Str) : Sends P Any (variableRef W n) := sends_quiet (quiet_variableRef W n)

theorem sends_index {P : Event → Prop} (W : World σ) (p : Ptr) {k : Ev σ Str} {i : Ev σ Nat} (hk : Sends P Any k) (hi : Sends P Any i) :
    Sends P Any (indexRef W p k i) := by
  unfold indexRef
  split
  · exact sends_bind hk fun _ _ => sends_reading _
  · exact sends_bind hi fun _ _ => sends_reading _

theorem sends_shown {P : Event → Prop} (W : World σ) (r : CallResult × Option TypeDef) : Sends P Any (callShown W r) := by
  unfold callShown
  split
  · exact sends_lift fun _ _ => trivial
  · exact sends_reading _
  · exact sends_lift fun _ _ => trivial

mutual
theorem sends_all (W : World σ) (es : List Expr) (e : Expr) (h : ∀ x ∈ within e, x ∈ es) :
    Sends (SentFor W es) Any (toRef W e) ∧ Sends (SentFor W es) Any (toInt W e) ∧ Sends (SentFor W es) Any (toStr W e) ∧
      Sends (SentFor W es) Any (evaluate W e) := by
  have L : ∀ {α : Type} (r : Res α), Sends (SentFor W es) Any (Ev.lift r : Ev σ α) := fun r => sends_lift fun _ _ => trivial
  match e with
  | .var n =>
    have hv : Sends (SentFor W es) Any (variableRef W n) := sends_variable W n
    exact ⟨hv, sends_bind hv fun _ _ => sends_reading _, sends_bind hv fun _ _ => sends_reading _, sends_bind hv fun _ _ => sends_reading _⟩
  | .path _ => exact ⟨L _, L _, L _, L _⟩
  | .generic _ _ => exact ⟨L _, L _, L _, L _⟩
  | .field b f =>
    have hb := (sends_all W es b fun x hx => h x (by simp [within, hx])).1
    exact ⟨sends_bind hb fun _ _ => L _, sends_bind hb fun _ _ => sends_bind (L _) fun _ _ => sends_reading _,
      sends_bind hb fun _ _ => sends_bind (L _) fun _ _ => sends_reading _,
      sends_bind hb fun _ _ => sends_bind (L _) fun _ _ => sends_reading _⟩
  | .index b i =>
    have hb := (sends_all W es b fun x hx => h x (by simp [within, hx])).1
    have hi := sends_all W es i fun x hx => h x (by simp [within, hx])
    have hr := fun p => sends_index W p hi.2.2.1 hi.2.1
    exact ⟨sends_bind hb fun _ _ => hr _, sends_bind hb fun _ _ => sends_bind (hr _) fun _ _ => sends_reading _,
      sends_bind hb fun _ _ => sends_bind (hr _) fun _ _ => sends_reading _,
      sends_bind hb fun _ _ => sends_bind (hr _) fun _ _ => sends_reading _⟩
  | .deref _ => exact ⟨L _, L _, L _, L _⟩
  | .addrOf _ _ => exact ⟨L _, L _, L _, L _⟩
  | .num _ => exact ⟨L _, L _, L _, L _⟩
  | .str _ => exact ⟨L _, L _, L _, L _⟩
  | .paren e =>
    have he := sends_all W es e fun x hx => h x (by simp [within, hx])
    exact ⟨L _, he.2.1, he.2.2.1, he.2.2.2⟩
  | .method b m as =>
    have hb := (sends_all W es b fun x hx => h x (by simp [within, hx])).1
    have ha := sends_args W es as fun x hx => h x (by simp [within, hx])
    have hm : Expr.method b m as ∈ es := h _ (by simp [within])
    refine ⟨sends_bind hb fun p _ => ?_, L _, L _, sends_bind hb fun p _ => ?_⟩
    · unfold methodRef
      split
      · exact L _
      · exact sends_bind (sends_method W es hm p ha) fun _ _ => L _
    · unfold methodShown
      split
      · split
        · exact L _
        · exact sends_reading _
      · exact sends_bind (sends_method W es hm p ha) fun _ _ => sends_shown W _
  | .call f as =>
    have ha := sends_args W es as fun x hx => h x (by simp [within, hx])
    have hm : Expr.call f as ∈ es := h _ (by simp [within])
    have hx := sends_function W es hm ha
    exact ⟨sends_bind hx fun _ _ => L _, L _, L _, sends_bind hx fun _ _ => sends_shown W _⟩
termination_by sizeOf e
theorem sends_args (W : World σ) (es : List Expr) (as : List Expr) (h : ∀ x ∈ withinAll as, x ∈ es) (ts : List TypeDef) :
    Sends (SentFor W es) (ArgsOk W as.length) (convertArgs W as ts) := by
  match as with
  | [] =>
    refine sends_lift fun l hl => ?_
    simp only [Res.ok.injEq] at hl
    subst hl
    exact ⟨rfl, by simp⟩
  | a :: as =>
    have ha := sends_all W es a fun x hx => h x (by simp [withinAll, hx])
    have hs := sends_args W es as (fun x hx => h x (by simp [withinAll, hx])) ts.tail
    refine sends_bind (sends_convertArg W a ts.head? ha.1 ha.2.2.2) fun x hx => sends_bind hs fun xs hxs => sends_lift fun l hl => ?_
    simp only [Res.ok.injEq] at hl
    subst hl
    refine ⟨by simp [hxs.1], fun y hy => ?_⟩
    rcases List.mem_cons.1 hy with rfl | hy
    · exact hx
    · exact hxs.2 y hy
termination_by sizeOf as
end

/-- C72: whatever is evaluated, in whatever state of the process, every call made is a call written in the expression: of
what the debug information has for that name, with one argument for each argument written, and with the size of the
type it returns. Functions get as many arguments as they have parameters. -/
theorem C72_sent_partial (W : World σ) (e : Expr) (s : St σ) :
    ∃ evs, (evaluate W e s).2.calls = s.calls ++ evs ∧ ∀ ev ∈ evs, SentFor W (within e) ev :=
  ((sends_all W (within e) e fun _ h => h).2.2.2 s).1

theorem ArgOk.plain {W : World σ} (hW : ∀ t, W.isFloat t = true → Plain t) {a : Arg} (h : ArgOk W a) : Plain a.value := by
  have nat : ∀ n, Plain (natStr n) := by
    intro n c hc
    have := natStr_digits n c hc
    refine ⟨?_, ?_, ?_, ?_⟩ <;> (rintro rfl; exact absurd this (by decide))
  unfold ArgOk at h
  split at h
  · obtain ⟨n, h⟩ := h
    rw [h]; exact hexStr_plain n
  · rcases h.2 with h | h <;> rw [h] <;> unfold Plain <;> decide
  · rcases h.2 with ⟨n, h⟩ | h
    · rw [h]; exact nat n
    · exact hW _ h
  · exact hW _ h.2

/-- C72 with C71: what LLDB evaluates for a call determines the address, the types and the values; nothing in the values
can be taken for something else, as long as the texts of numbers have no commas, parentheses or stars. -/
theorem C72_plain (W : World σ) (hW : ∀ t, W.isFloat t = true → Plain t) (e : Expr) (s : St σ) (addr : Nat) (args : List Arg)
    (sz : Option Nat) (new : List Event) (hnew : (evaluate W e s).2.calls = s.calls ++ new) :
    (Event.executeFunction addr args sz ∈ new → ∀ a ∈ args, Plain a.value) ∧
      ∀ base, Event.executeMethod addr base args sz ∈ new → ∀ a ∈ args, Plain a.value := by
  obtain ⟨evs, h1, h2⟩ := C72_sent_partial W e s
  have : new = evs := List.append_cancel_left (hnew.symm.trans h1)
  subst this
  constructor
  · intro hm a ha
    obtain ⟨_, _, _, _, _, _, _, _, _, _, _, h⟩ := h2 _ hm
    exact (h a ha).plain hW
  · intro base hm a ha
    obtain ⟨_, _, _, _, _, _, _, _, _, _, _, _, _, _, _, h⟩ := h2 _ hm
    exact (h a ha).plain hW

/-- Number literals as arguments. -/
def literalArg (n : Nat) : Arg := ⟨natStr n, .integer, none⟩

theorem convert_literals (W : World σ) (ns : List Nat) (ts : List TypeDef) (s : St σ) :
    convertArgs W (ns.map .num) ts s = (.ok (ns.map literalArg), s) := by
  induction ns generalizing ts with
  | nil => rfl
  | cons n ns ih =>
    have := ih ts.tail
    show (Ev.bind (convertArg W (.num n) ts.head? _ _) fun a => (convertArgs W (ns.map .num) ts.tail).bind fun as => Ev.lift (.ok (a :: as))) s = _
    simp only [Ev.bind, convertArg, Ev.lift, this]
    rfl

theorem calls_execute (W : World σ) (ev : Event) (g : CallResult → Ev σ (CallResult × Option TypeDef))
    (k : CallResult × Option TypeDef → Ev σ Shown) (hg : ∀ r s, (g r s).2 = s) (hk : ∀ r s, (k r s).2.calls = s.calls) (s : St σ) :
    ((((execute W ev).bind g).bind k) s).2.calls = s.calls ++ [ev] := by
  simp only [Ev.bind, execute]
  rcases hW : W.execute ev s.proc with ⟨r, p⟩
  cases r with
  | none => rfl
  | some r =>
    simp only
    have := hg r { s with calls := s.calls ++ [ev], proc := p }
    rcases hgr : g r { s with calls := s.calls ++ [ev], proc := p } with ⟨x, s'⟩
    rw [hgr] at this
    cases this
    cases x with
    | ok y => simp only [hk]
    | err => rfl
    | panic => rfl

theorem calls_shown (W : World σ) (r : CallResult × Option TypeDef) (s : St σ) : (callShown W r s).2.calls = s.calls := by
  unfold callShown
  split <;> rfl

/-- C72 is false of the code as to types: number literals are sent as integers, whatever the types of the parameters
are: floating point numbers, text or structures. -/
theorem C72_types_fail (W : World σ) (f : Str) (c : Callee) (fs : List Callee) (ns : List Nat) (s : St σ) (sz : Option Nat)
    (hf : W.functions f = .ok (c :: fs)) (ha : c.address ≠ 0) (hn : ns.length = c.params.length) (hsz : sizeOpt c.ret = .ok sz) :
    (evaluate W (.call f (ns.map .num)) s).2.calls = s.calls ++ [.executeFunction c.address (ns.map literalArg) sz] := by
  have hl : (ns.map Expr.num).length = c.params.length := by simpa using hn
  have he : evaluate W (.call f (ns.map .num)) s =
      (((execute W (.executeFunction c.address (ns.map literalArg) sz)).bind fun r => Ev.lift (.ok (r, c.ret))).bind (callShown W)) s := by
    show ((executeFunction W f (ns.map Expr.num).length (convertArgs W (ns.map .num))).bind (callShown W)) s = _
    simp only [executeFunction, Ev.bind, Ev.lift, hf, List.head?_cons, Res.ofOption, ha, hl, if_false, ne_eq, not_true_eq_false,
      convert_literals, hsz]
  rw [he]
  exact calls_execute W _ _ _ (fun r s => rfl) (calls_shown W) s

/-- C72 is false of the code as to methods: a method is called with as many arguments as are written, whatever the number
of its parameters is. -/
theorem C72_method_count_fails (W : World σ) (b : Expr) (m : Str) (p : Ptr) (c : Callee) (ms : List Callee) (ns : List Nat) (s s' : St σ)
    (sz : Option Nat) (hb : toRef W b s = (.ok p, s')) (hsyn : m ∉ syntheticMethods p.2.layout) (hf : W.methods p = .ok (c :: ms))
    (hc : c.name = m) (ha : c.address ≠ 0) (hsz : sizeOpt c.ret = .ok sz) :
    (evaluate W (.method b m (ns.map .num)) s).2.calls = s'.calls ++ [.executeMethod c.address p.1 (ns.map literalArg) sz] := by
  have hs : (syntheticMethods p.2.layout).contains m = false := by simpa using hsyn
  have he : evaluate W (.method b m (ns.map .num)) s =
      (((execute W (.executeMethod c.address p.1 (ns.map literalArg) sz)).bind fun r => Ev.lift (.ok (r, c.ret))).bind (callShown W)) s' := by
    show ((toRef W b).bind fun p => methodShown W p m _ (convertArgs W (ns.map .num))) s = _
    have hfind : (c :: ms).find? (fun x => x.name == m) = some c := by simp [hc]
    simp only [Ev.bind, hb, methodShown, hs, Bool.false_eq_true, if_false, executeMethod, Ev.lift, hf, hfind, Res.ofOption, ha,
      convert_literals, hsz]
  rw [he]
  exact calls_execute W _ _ _ (fun r s => rfl) (calls_shown W) s'

/-! ### What exactly is passed -/

/-- Expressions that may stand for a place in memory: variables, fields, elements, calls. -/
def MayBePlace : Expr → Prop
  | .var _ | .field _ _ | .index _ _ | .method _ _ _ | .call _ _ => True
  | _ => False

/-- What is passed for an argument, for a parameter of the type `t` (if there is one), in the state `s` of the evaluation, which
then is `s'`. -/
inductive Passes (W : World σ) : Expr → Option TypeDef → St σ → Arg → St σ → Prop
  /-- A number, as itself. -/
  | number {n : Nat} {t : Option TypeDef} {s : St σ} : Passes W (.num n) t s ⟨(toString n).toList, .integer, none⟩ s
  /-- A text, as a value of the parameter's type made of it in the memory of the process. -/
  | text {text : Str} {t : TypeDef} {s : St σ} {a : Nat} {p : σ} {sz : Option Nat} : createTyped W.remote text t s.proc = (.ok a, p) →
      t.size = .ok sz → Passes W (.str text) (some t) s ⟨hexStr a, .pointer, sz⟩ { s with proc := p }
  /-- A place, by its address and the size of what is there. -/
  | place {e : Expr} {t : Option TypeDef} {s s' : St σ} {a : Nat} {t' : TypeDef} {sz : Option Nat} : MayBePlace e →
      toRef W e s = (.ok (a, t'), s') → t'.size = .ok sz → Passes W e t s ⟨hexStr a, .pointer, sz⟩ s'
  /-- Anything else that is a truth value, as one or zero. -/
  | truth {e : Expr} {t : Option TypeDef} {s s1 s' : St σ} {b : Bool} : MayBePlace e → toRef W e s = (.err, s1) →
      evaluate W e s1 = (.ok ((toString b).toList, chars! "bool"), s') → Passes W e t s ⟨if b then chars! "1" else chars! "0", .bool, none⟩ s'
  /-- Anything else that is a floating point number. -/
  | float {e : Expr} {t : Option TypeDef} {s s1 s' : St σ} {x ty : Str} : MayBePlace e → toRef W e s = (.err, s1) →
      evaluate W e s1 = (.ok (x, ty), s') → W.isFloat x = true → (∀ b : Bool, (x, ty) ≠ ((toString b).toList, chars! "bool")) →
      (∃ u v, ty = u ++ chars! "f32" ++ v ∨ ty = u ++ chars! "f64" ++ v) → Passes W e t s ⟨x, .float, none⟩ s'
  /-- Anything else that is a number. -/
  | integer {e : Expr} {t : Option TypeDef} {s s1 s' : St σ} {x ty : Str} : MayBePlace e → toRef W e s = (.err, s1) →
      evaluate W e s1 = (.ok (x, ty), s') → W.isFloat x = true → (∀ b : Bool, (x, ty) ≠ ((toString b).toList, chars! "bool")) →
      (¬ ∃ u v, ty = u ++ chars! "f32" ++ v ∨ ty = u ++ chars! "f64" ++ v) → Passes W e t s ⟨x, .integer, none⟩ s'

/-- What is passed for the arguments, from left to right, for parameters of these types. -/
inductive PassesAll (W : World σ) : List Expr → List TypeDef → St σ → List Arg → St σ → Prop
  | nil {ts : List TypeDef} {s : St σ} : PassesAll W [] ts s [] s
  | cons {e : Expr} {es : List Expr} {ts : List TypeDef} {s s1 s' : St σ} {a : Arg} {as : List Arg} : Passes W e ts.head? s a s1 →
      PassesAll W es ts.tail s1 as s' → PassesAll W (e :: es) ts s (a :: as) s'

theorem contains_iff (a b : Str) : containsStr a b = true ↔ ∃ u v, a = u ++ b ++ v := by
  induction a with
  | nil =>
    simp only [containsStr]
    constructor
    · intro h
      have : b = [] := by cases b <;> simp_all
      exact ⟨[], [], by simp [this]⟩
    · rintro ⟨u, v, h⟩
      have : b = [] := by
        have := h.symm
        simp only [List.append_eq_nil_iff] at this
        exact this.1.2
      simp [this]
  | cons c a ih =>
    simp only [containsStr, Bool.or_eq_true, ih, List.isPrefixOf_iff_prefix]
    constructor
    · rintro (⟨v, h⟩ | ⟨u, v, h⟩)
      · exact ⟨[], v, by simpa using h.symm⟩
      · exact ⟨c :: u, v, by simp [h]⟩
    · rintro ⟨u, v, h⟩
      cases u with
      | nil => exact .inl ⟨v, by simpa using h.symm⟩
      | cons x u =>
        simp only [List.cons_append, List.cons.injEq] at h
        exact .inr ⟨u, v, h.2⟩

theorem floaty (ty : Str) : (containsStr ty (chars! "f32") || containsStr ty (chars! "f64")) = true ↔
    ∃ u v, ty = u ++ chars! "f32" ++ v ∨ ty = u ++ chars! "f64" ++ v := by
  rw [Bool.or_eq_true, contains_iff, contains_iff]
  constructor
  · rintro (⟨u, v, h⟩ | ⟨u, v, h⟩)
    · exact ⟨u, v, .inl h⟩
    · exact ⟨u, v, .inr h⟩
  · rintro ⟨u, v, h | h⟩
    · exact .inl ⟨u, v, h⟩
    · exact .inr ⟨u, v, h⟩

theorem truths (x ty : Str) : (ty = chars! "bool" ∧ (x = chars! "true" ∨ x = chars! "false")) ↔
    ∃ b : Bool, (x, ty) = ((toString b).toList, chars! "bool") := by
  constructor
  · rintro ⟨rfl, rfl | rfl⟩
    · exact ⟨true, rfl⟩
    · exact ⟨false, rfl⟩
  · rintro ⟨b, h⟩
    cases h
    cases b
    · exact ⟨rfl, .inr rfl⟩
    · exact ⟨rfl, .inl rfl⟩

theorem sizes_arg {r : Res (Option Nat)} {f : Option Nat → Arg} {a : Arg} :
    r.bind (fun sz => .ok (f sz)) = .ok a ↔ ∃ sz, r = .ok sz ∧ a = f sz := by
  cases r <;> simp [Res.bind, eq_comm]

theorem place_ok (W : World σ) {e : Expr} (hp : MayBePlace e) (t : Option TypeDef) (s : St σ) (a : Arg) (s' : St σ) :
    ((toRef W e).orElse (fun p => Ev.lift (refArg p)) ((evaluate W e).bind fun r => .lift (fallbackArg W r))) s = (.ok a, s') ↔
      Passes W e t s a s' := by
  constructor
  · intro h
    unfold Ev.orElse at h
    rcases hr : toRef W e s with ⟨r, s1⟩
    rw [hr] at h
    cases r with
    | panic => simp at h
    | ok p =>
      simp only [Ev.lift, Prod.mk.injEq, refArg, sizes_arg] at h
      obtain ⟨⟨sz, h1, rfl⟩, rfl⟩ := h
      exact .place hp hr h1
    | err =>
      simp only [Ev.bind] at h
      rcases hv : evaluate W e s1 with ⟨r, s2⟩
      rw [hv] at h
      cases r with
      | panic => simp at h
      | err => simp at h
      | ok r =>
        obtain ⟨x, ty⟩ := r
        simp only [Ev.lift, Prod.mk.injEq, fallbackArg] at h
        obtain ⟨h, rfl⟩ := h
        split at h
        · rename_i hb
          obtain ⟨b, hb⟩ := (truths x ty).1 hb
          cases hb
          simp only [Res.ok.injEq] at h
          subst h
          have := Passes.truth (W := W) (t := t) hp hr hv
          cases b <;> exact this
        · rename_i hb
          have hb : ∀ b : Bool, (x, ty) ≠ ((toString b).toList, chars! "bool") := fun b hb' => hb ((truths x ty).2 ⟨b, hb'⟩)
          split at h
          · rename_i hf
            split at h
            · rename_i hfl
              simp only [Res.ok.injEq] at h; subst h
              exact .float hp hr hv hf hb ((floaty ty).1 hfl)
            · rename_i hfl
              simp only [Res.ok.injEq] at h; subst h
              exact .integer hp hr hv hf hb fun h => hfl ((floaty ty).2 h)
          · simp at h
  · intro h
    unfold Ev.orElse
    cases h with
    | number => exact hp.elim
    | text => exact hp.elim
    | place _ h1 h2 => rw [h1]; simp [Ev.lift, refArg, h2]
    | truth _ h1 h2 =>
      rw [h1]
      simp only [Ev.bind, h2, Ev.lift]
      rename_i b _
      cases b <;> rfl
    | float _ h1 h2 h3 h4 h5 =>
      rw [h1]
      simp only [Ev.bind, h2, Ev.lift, fallbackArg]
      rw [if_neg (fun h => ((truths _ _).1 h).elim h4), if_pos h3, if_pos ((floaty _).2 h5)]
    | integer _ h1 h2 h3 h4 h5 =>
      rw [h1]
      simp only [Ev.bind, h2, Ev.lift, fallbackArg]
      rw [if_neg (fun h => ((truths _ _).1 h).elim h4), if_pos h3, if_neg (fun h => h5 ((floaty _).1 h))]

theorem convertArg_ok (W : World σ) (e : Expr) (t : Option TypeDef) (s : St σ) (a : Arg) (s' : St σ) :
    convertArg W e t (toRef W e) (evaluate W e) s = (.ok a, s') ↔ Passes W e t s a s' := by
  cases e with
  | num n =>
    simp only [convertArg, Ev.lift, Prod.mk.injEq, Res.ok.injEq]
    constructor
    · rintro ⟨rfl, rfl⟩; rw [natStr_toString]; exact .number
    · intro h
      cases h with
      | number => exact ⟨by rw [natStr_toString], rfl⟩
      | place h _ _ => exact h.elim
      | truth h _ _ => exact h.elim
      | float h _ _ _ _ _ => exact h.elim
      | integer h _ _ _ _ _ => exact h.elim
  | str x =>
    simp only [convertArg, stringArg]
    constructor
    · intro h
      cases t with
      | none => simp at h
      | some t =>
        simp only at h
        rcases hc : createTyped W.remote x t s.proc with ⟨r, p⟩
        rw [hc] at h
        cases r with
        | ok r =>
          simp only [Prod.mk.injEq, sizes_arg] at h
          obtain ⟨⟨sz, h1, rfl⟩, rfl⟩ := h
          exact .text hc h1
        | err => simp at h
        | panic => simp at h
    · intro h
      cases h with
      | text h1 h2 => simp [h1, h2]
      | place h _ _ => exact h.elim
      | truth h _ _ => exact h.elim
      | float h _ _ _ _ _ => exact h.elim
      | integer h _ _ _ _ _ => exact h.elim
  | var n => exact place_ok W (by trivial) t s a s'
  | field b f => exact place_ok W (by trivial) t s a s'
  | index b i => exact place_ok W (by trivial) t s a s'
  | method b m as => exact place_ok W (by trivial) t s a s'
  | call f as => exact place_ok W (by trivial) t s a s'
  | _ =>
    constructor
    · intro h; simp [convertArg, Ev.lift] at h
    · intro h
      cases h with
      | place h _ _ => exact h.elim
      | truth h _ _ => exact h.elim
      | float h _ _ _ _ _ => exact h.elim
      | integer h _ _ _ _ _ => exact h.elim

theorem convertArgs_ok (W : World σ) (es : List Expr) (ts : List TypeDef) (s : St σ) (as : List Arg) (s' : St σ) :
    convertArgs W es ts s = (.ok as, s') ↔ PassesAll W es ts s as s' := by
  induction es generalizing ts s as with
  | nil =>
    simp only [convertArgs, Ev.lift, Prod.mk.injEq, Res.ok.injEq]
    constructor
    · rintro ⟨rfl, rfl⟩; exact .nil
    · intro h; cases h; exact ⟨rfl, rfl⟩
  | cons e es ih =>
    simp only [convertArgs, Ev.bind]
    constructor
    · intro h
      rcases hc : convertArg W e ts.head? (toRef W e) (evaluate W e) s with ⟨r, s1⟩
      rw [hc] at h
      cases r with
      | ok a =>
        simp only at h
        rcases hcs : convertArgs W es ts.tail s1 with ⟨r, s2⟩
        rw [hcs] at h
        cases r with
        | ok xs =>
          simp only [Ev.lift, Prod.mk.injEq, Res.ok.injEq] at h
          obtain ⟨rfl, rfl⟩ := h
          exact .cons ((convertArg_ok W e _ s a s1).1 hc) ((ih _ _ _).1 hcs)
        | err => simp at h
        | panic => simp at h
      | err => simp at h
      | panic => simp at h
    · intro h
      cases h with
      | cons h1 h2 =>
        rw [(convertArg_ok W e _ s _ _).2 h1]
        simp only
        rw [(ih _ _ _).2 h2]
        rfl

/-- C72: a call of a function sends one call, of the first function the debug information has for the name, with what is
passed for each argument. -/
theorem C72_function (W : World σ) (f : Str) (c : Callee) (fs : List Callee) (es : List Expr) (s s' : St σ) (as : List Arg) (sz : Option Nat)
    (hf : W.functions f = .ok (c :: fs)) (ha : c.address ≠ 0) (hn : es.length = c.params.length)
    (hp : PassesAll W es c.params s as s') (hsz : sizeOpt c.ret = .ok sz) :
    (evaluate W (.call f es) s).2.calls = s'.calls ++ [.executeFunction c.address as sz] := by
  have he : evaluate W (.call f es) s =
      (((execute W (.executeFunction c.address as sz)).bind fun r => Ev.lift (.ok (r, c.ret))).bind (callShown W)) s' := by
    show ((executeFunction W f es.length (convertArgs W es)).bind (callShown W)) s = _
    simp only [executeFunction, Ev.bind, Ev.lift, hf, List.head?_cons, Res.ofOption, ha, hn, if_false, ne_eq, not_true_eq_false,
      (convertArgs_ok W es c.params s as s').2 hp, hsz]
  rw [he]
  exact calls_execute W _ _ _ (fun r s => rfl) (calls_shown W) s'

/-- If an argument cannot be passed, the call fails. -/
theorem C72_refused (W : World σ) (f : Str) (c : Callee) (fs : List Callee) (es : List Expr) (s : St σ)
    (hf : W.functions f = .ok (c :: fs)) (hp : ¬ ∃ as s', PassesAll W es c.params s as s') (x : Shown) :
    (evaluate W (.call f es) s).1 ≠ .ok x := by
  intro h
  change (((executeFunction W f es.length (convertArgs W es)).bind (callShown W)) s).1 = _ at h
  simp only [executeFunction, Ev.bind, Ev.lift, hf, List.head?_cons, Res.ofOption] at h
  by_cases ha : c.address = 0
  · simp [ha, Ev.lift] at h
  by_cases hn : es.length = c.params.length
  · simp only [ha, hn, if_false, ne_eq, not_true_eq_false, Ev.bind] at h
    rcases hc : convertArgs W es c.params s with ⟨r, s1⟩
    rw [hc] at h
    cases r with
    | ok as => exact hp ⟨as, s1, (convertArgs_ok W es c.params s as s1).1 hc⟩
    | err => simp at h
    | panic => simp at h
  · simp [ha, hn, Ev.lift] at h

/-- C72: a call of a method that is not one of the built-in ones sends one call, of the first method of that name the debug
information has for the type, with the address of the base and with what is passed for each argument. -/
theorem C72_method (W : World σ) (b : Expr) (m : Str) (p : Ptr) (ms ms' : List Callee) (c : Callee) (es : List Expr) (s s1 s' : St σ) (as : List Arg)
    (sz : Option Nat) (hb : toRef W b s = (.ok p, s1)) (hsyn : m ∉ syntheticMethods p.2.layout) (hf : W.methods p = .ok (ms ++ c :: ms'))
    (hbefore : ∀ d ∈ ms, d.name ≠ m) (hc : c.name = m) (ha : c.address ≠ 0)
    (hp : PassesAll W es c.params s1 as s') (hsz : sizeOpt c.ret = .ok sz) :
    (evaluate W (.method b m es) s).2.calls = s'.calls ++ [.executeMethod c.address p.1 as sz] := by
  have hs : (syntheticMethods p.2.layout).contains m = false := by simpa using hsyn
  have hfind : (ms ++ c :: ms').find? (fun x => x.name == m) = some c := by
    rw [List.find?_eq_some_iff_append]
    exact ⟨by simpa using hc, ms, ms', rfl, fun d hd => by simpa using hbefore d hd⟩
  have he : evaluate W (.method b m es) s =
      (((execute W (.executeMethod c.address p.1 as sz)).bind fun r => Ev.lift (.ok (r, c.ret))).bind (callShown W)) s' := by
    show ((toRef W b).bind fun p => methodShown W p m _ (convertArgs W es)) s = _
    simp only [Ev.bind, hb, methodShown, hs, Bool.false_eq_true, if_false, executeMethod, Ev.lift, hf, hfind, Res.ofOption, ha,
      (convertArgs_ok W es c.params s1 as s').2 hp, hsz]
  rw [he]
  exact calls_execute W _ _ _ (fun r s => rfl) (calls_shown W) s'

/-- A process with a variable `x`, a function `f` of one `f64` and a method `m` without parameters. -/
def argWorld : World Unit where
  target _ := demoTarget (demoMem 16 [5, 0, 0, 0, 0, 0, 0, 0])
  frame _ := some 64
  variableAt _ _ n := .ok (if n = chars! "x" then some (some (16, .mk none (.uint 8))) else none)
  methods _ := .ok [⟨chars! "m", 512, [], none⟩]
  functions n := if n = chars! "f" then .ok [⟨chars! "f", 128, [.mk none (.float 8)], none⟩] else .ok []
  execute _ s := (some (.simple 7 (chars! "usize")), s)
  remote := ⟨fun _ s => (none, s), fun _ _ s => (none, s), fun _ _ _ => none, fun _ => []⟩
  isFloat t := t.all isDigit
  stack := 4

example : (evaluate argWorld (.call (chars! "f") [.num 3]) (.new ())).2.calls = [.executeFunction 128 [⟨chars! "3", .integer, none⟩] none] :=
  C72_types_fail argWorld (chars! "f") ⟨chars! "f", 128, [.mk none (.float 8)], none⟩ [] [3] (.new ()) none rfl (by decide) rfl rfl

example : (evaluate argWorld (.method (.var (chars! "x")) (chars! "m") [.num 3, .num 4]) (.new ())).2.calls =
    [.executeMethod 512 16 [⟨chars! "3", .integer, none⟩, ⟨chars! "4", .integer, none⟩] none] :=
  C72_method_count_fails argWorld (.var (chars! "x")) (chars! "m") (16, .mk none (.uint 8)) ⟨chars! "m", 512, [], none⟩ [] [3, 4] (.new ())
    ⟨some 64, [], ()⟩ none rfl (by simp [syntheticMethods, TypeDef.layout]) rfl rfl (by decide) rfl

example : ∀ t, argWorld.isFloat t = true → Plain t := by
  intro t ht c hc
  have : isDigit c = true := List.all_eq_true.1 ht c hc
  refine ⟨?_, ?_, ?_, ?_⟩ <;> (rintro rfl; exact absurd this (by decide))

/-- A variable is passed by its address. -/
example : PassesAll argWorld [.var (chars! "x")] [.mk none (.float 8)] (.new ()) [⟨hexStr 16, .pointer, some 8⟩] ⟨some 64, [], ()⟩ :=
  .cons (.place (t' := .mk none (.uint 8)) (by trivial) rfl rfl) .nil

/-- A number literal too many for a function is refused and nothing is sent. -/
example : evaluate argWorld (.call (chars! "f") [.num 3, .num 4]) (.new ()) = (.err, .new ()) := rfl

end Rudy.Eval
