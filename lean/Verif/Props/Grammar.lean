import Verif.Props.Wire
import Verif.Proof.Grammar
/-
C81: only well-formed messages are acted on.
-/
namespace Rudy.Wire
open Rudy Rudy.Server

/-! ### Specification: what the fields of a message say -/

/-- The field `k` holds `v`. -/
def Has (fs : Fields) (k : Str) (v : Json) : Prop := fs.get k = some v

/-- The field `k` holds a number of 64 bits. -/
def HasU64 (fs : Fields) (k : Str) (n : Nat) : Prop := Has fs k (.num n) ∧ n < 2 ^ 64

/-- The field `k` holds a text, or nothing: it is missing or `null`. -/
def HasOpt (fs : Fields) (k : Str) (o : Option Str) : Prop :=
  match o with
  | some s => Has fs k (.str s)
  | none => fs.get k = none ∨ Has fs k .null

/-- The field `k` holds an array of bytes. -/
def HasBytes (fs : Fields) (k : Str) (d : List UInt8) : Prop := ∃ xs, Has fs k (.arr xs) ∧ xs.toList = d.map fun b => .num b.toNat

/-- The result of a call. -/
inductive SaysCall : Json → CallResult → Prop
  | simple {fs v t} : HasU64 fs (chars! "value") v → Has fs (chars! "return_type") (.str t) →
      SaysCall (.obj (.cons (chars! "SimpleValue") (.obj fs) .nil)) (.simple v t)
  | complex {fs a n t} : HasU64 fs (chars! "address") a → HasU64 fs (chars! "size") n → Has fs (chars! "return_type") (.str t) →
      SaysCall (.obj (.cons (chars! "ComplexPointer") (.obj fs) .nil)) (.complex a n t)

/-- The answer to an event. -/
inductive SaysAnswer (fs : Fields) : Answer → Prop
  | memory {d} : Has fs (chars! "event") (.str (chars! "MemoryData")) → HasBytes fs (chars! "data") d → SaysAnswer fs (.memory d)
  | register {v} : Has fs (chars! "event") (.str (chars! "RegisterData")) → HasU64 fs (chars! "value") v → SaysAnswer fs (.register v)
  | frame {pc sp fp} : Has fs (chars! "event") (.str (chars! "FrameInfo")) → HasU64 fs (chars! "pc") pc → HasU64 fs (chars! "sp") sp →
      HasU64 fs (chars! "fp") fp → SaysAnswer fs (.frame pc sp fp)
  | thread {tid name} : Has fs (chars! "event") (.str (chars! "ThreadInfo")) → HasU64 fs (chars! "tid") tid → HasOpt fs (chars! "name") name →
      SaysAnswer fs (.thread tid name)
  | base {a} : Has fs (chars! "event") (.str (chars! "BaseAddress")) → HasU64 fs (chars! "address") a → SaysAnswer fs (.base a)
  | expression {v} : Has fs (chars! "event") (.str (chars! "ExpressionResult")) → Has fs (chars! "value") (.str v) → SaysAnswer fs (.expression v)
  | method {j r} : Has fs (chars! "event") (.str (chars! "MethodResult")) → Has fs (chars! "result") j → SaysCall j r → SaysAnswer fs (.method r)
  | function {j r} : Has fs (chars! "event") (.str (chars! "FunctionResult")) → Has fs (chars! "result") j → SaysCall j r →
      SaysAnswer fs (.function r)
  | variableType {n} : Has fs (chars! "event") (.str (chars! "VariableTypeResult")) → HasOpt fs (chars! "type_name") n →
      SaysAnswer fs (.variableType n)
  | allocated {a} : Has fs (chars! "event") (.str (chars! "MemoryAllocated")) → HasU64 fs (chars! "address") a → SaysAnswer fs (.allocated a)
  | written : Has fs (chars! "event") (.str (chars! "MemoryWritten")) → SaysAnswer fs .written
  | error {m} : Has fs (chars! "event") (.str (chars! "Error")) → Has fs (chars! "message") (.str m) → SaysAnswer fs (.error m)

/-- A message to the server. -/
inductive Says (fs : Fields) : ClientMsg → Prop
  | init {p} : Has fs (chars! "type") (.str (chars! "Init")) → Has fs (chars! "binary_path") (.str p) → Says fs (.init p)
  | command {c xs args} : Has fs (chars! "type") (.str (chars! "Command")) → Has fs (chars! "cmd") (.str c) →
      Has fs (chars! "args") (.arr xs) → xs.toList = args.map .str → Says fs (.command c args)
  | answer {a} : Has fs (chars! "type") (.str (chars! "EventResponse")) → SaysAnswer fs a → Says fs (.answer a)

/-! ### Readers against the specification -/

theorem decU64_iff {fs : Fields} {k : Str} {n : Nat} : decU64 fs k = some n ↔ HasU64 fs k n := by
  unfold decU64 HasU64 Has
  constructor
  · intro h
    split at h
    · rename_i m hm
      split at h
      · rename_i hl; cases h; exact ⟨hm, hl⟩
      · cases h
    · cases h
  · rintro ⟨h, hl⟩
    rw [h]
    exact if_pos hl

theorem decStr_iff {fs : Fields} {k s : Str} : decStr fs k = some s ↔ Has fs k (.str s) := by
  unfold decStr Has
  constructor
  · intro h
    split at h
    · rename_i t ht; cases h; exact ht
    · cases h
  · intro h; rw [h]

theorem decOptStr_iff {fs : Fields} {k : Str} {o : Option Str} : decOptStr fs k = some o ↔ HasOpt fs k o := by
  unfold decOptStr HasOpt Has
  constructor
  · intro h
    split at h
    · rename_i hh; cases h; exact .inl hh
    · rename_i hh; cases h; exact .inr hh
    · rename_i hh; cases h; exact hh
    · cases h
  · intro h
    cases o with
    | none => rcases h with h | h <;> rw [h]
    | some s => simp only at h; rw [h]

theorem allOf_iff {α β : Type} {f : α → Option β} {g : β → α} (h : ∀ a b, f a = some b ↔ a = g b) (l : List α) (bs : List β) :
    allOf f l = some bs ↔ l = bs.map g := by
  induction l generalizing bs with
  | nil => cases bs <;> simp [allOf]
  | cons a l ih =>
    rw [allOf]
    constructor
    · intro e
      split at e
      · rename_i b bs' h1 h2
        cases e
        rw [(h _ _).1 h1, (ih _).1 h2]; rfl
      · cases e
    · intro e
      cases bs with
      | nil => cases e
      | cons b bs =>
        cases e
        rw [(h _ b).2 rfl, (ih bs).2 rfl]

theorem decByte_iff (j : Json) (b : UInt8) : decByte j = some b ↔ j = .num b.toNat := by
  constructor
  · intro h
    unfold decByte at h
    split at h
    · split at h
      · rename_i n hn; cases h; rw [UInt8.toNat_ofNat_of_lt' (by simpa using hn)]
      · cases h
    · cases h
  · rintro rfl; exact byte_back b

theorem pyByte_iff (j : Json) (b : UInt8) : pyByte j = some b ↔ j = .num b.toNat := decByte_iff j b

theorem decText_iff (j : Json) (s : Str) : decText j = some s ↔ j = .str s := by
  constructor
  · intro h
    unfold decText at h
    split at h
    · cases h; rfl
    · cases h
  · rintro rfl; rfl

theorem decCall_iff (o : Option Json) (r : CallResult) : decCallResult o = some r ↔ ∃ j, o = some j ∧ SaysCall j r := by
  constructor
  · intro h
    unfold decCallResult at h
    split at h
    · rename_i k fs
      split at h
      · rename_i hk; subst hk
        split at h
        · rename_i v t hv ht; cases h
          exact ⟨_, rfl, .simple (decU64_iff.1 hv) (decStr_iff.1 ht)⟩
        · cases h
      · split at h
        · rename_i hk; subst hk
          split at h
          · rename_i a n t ha hn ht; cases h
            exact ⟨_, rfl, .complex (decU64_iff.1 ha) (decU64_iff.1 hn) (decStr_iff.1 ht)⟩
          · cases h
        · cases h
    · cases h
  · rintro ⟨j, rfl, h⟩
    cases h with
    | simple hv ht => simp only [decCallResult, if_true, decU64_iff.2 hv, decStr_iff.2 ht]
    | complex ha hn ht =>
      show (match decU64 _ (chars! "address"), decU64 _ (chars! "size"), decStr _ (chars! "return_type") with
        | some a, some n, some t => some (CallResult.complex a n t)
        | _, _, _ => none) = _
      rw [decU64_iff.2 ha, decU64_iff.2 hn, decStr_iff.2 ht]

theorem map_iff {α β : Type} {o : Option α} {f : α → β} {b : β} (h : o.map f = some b) : ∃ a, o = some a ∧ b = f a := by
  cases o with
  | none => cases h
  | some a => cases h; exact ⟨a, rfl, rfl⟩

theorem ite_some {α : Type} {c : Prop} [Decidable c] {a b : Option α} {x : α} (h : (if c then a else b) = some x) :
    (c ∧ a = some x) ∨ b = some x := by
  by_cases hc : c
  · rw [if_pos hc] at h; exact .inl ⟨hc, h⟩
  · rw [if_neg hc] at h; exact .inr h

theorem arr_some {γ : Type} {o : Option Json} {f : Jsons → Option γ} {x : γ}
    (h : (match o with | some (.arr xs) => f xs | _ => none) = some x) : ∃ xs, o = some (.arr xs) ∧ f xs = some x := by
  cases o with
  | none => cases h
  | some v => cases v with
    | arr xs => exact ⟨xs, rfl, h⟩
    | null => cases h
    | bool b => cases h
    | num n => cases h
    | str s => cases h
    | obj fs => cases h

theorem decAnswer_sound {fs : Fields} {a : Answer} (h : decAnswer fs = some a) : SaysAnswer fs a := by
  unfold decAnswer at h
  split at h
  · rename_i e he
    replace h := ite_some h; rcases h with ⟨rfl, h⟩ | h
    · obtain ⟨xs, hx, h⟩ := arr_some (f := fun xs => (allOf decByte xs.toList).map Answer.memory) h
      obtain ⟨d, hd, rfl⟩ := map_iff h
      exact .memory he ⟨xs, hx, (allOf_iff decByte_iff _ _).1 hd⟩
    replace h := ite_some h; rcases h with ⟨rfl, h⟩ | h
    · obtain ⟨v, hv, rfl⟩ := map_iff h; exact .register he (decU64_iff.1 hv)
    replace h := ite_some h; rcases h with ⟨rfl, h⟩ | h
    · split at h
      next x y z hx hy hz => cases h; exact .frame he (decU64_iff.1 hx) (decU64_iff.1 hy) (decU64_iff.1 hz)
      next => cases h
    replace h := ite_some h; rcases h with ⟨rfl, h⟩ | h
    · split at h
      next x y hx hy => cases h; exact .thread he (decU64_iff.1 hx) (decOptStr_iff.1 hy)
      next => cases h
    replace h := ite_some h; rcases h with ⟨rfl, h⟩ | h
    · obtain ⟨v, hv, rfl⟩ := map_iff h; exact .base he (decU64_iff.1 hv)
    replace h := ite_some h; rcases h with ⟨rfl, h⟩ | h
    · obtain ⟨v, hv, rfl⟩ := map_iff h; exact .expression he (decStr_iff.1 hv)
    replace h := ite_some h; rcases h with ⟨rfl, h⟩ | h
    · obtain ⟨v, hv, rfl⟩ := map_iff h
      obtain ⟨j, hj, hs⟩ := (decCall_iff _ _).1 hv
      exact .method he hj hs
    replace h := ite_some h; rcases h with ⟨rfl, h⟩ | h
    · obtain ⟨v, hv, rfl⟩ := map_iff h
      obtain ⟨j, hj, hs⟩ := (decCall_iff _ _).1 hv
      exact .function he hj hs
    replace h := ite_some h; rcases h with ⟨rfl, h⟩ | h
    · obtain ⟨v, hv, rfl⟩ := map_iff h; exact .variableType he (decOptStr_iff.1 hv)
    replace h := ite_some h; rcases h with ⟨rfl, h⟩ | h
    · obtain ⟨v, hv, rfl⟩ := map_iff h; exact .allocated he (decU64_iff.1 hv)
    replace h := ite_some h; rcases h with ⟨rfl, h⟩ | h
    · cases h; exact .written he
    replace h := ite_some h; rcases h with ⟨rfl, h⟩ | h
    · obtain ⟨v, hv, rfl⟩ := map_iff h; exact .error he (decStr_iff.1 hv)
    · cases h
  · cases h



set_option maxRecDepth 8000 in
theorem decAnswer_complete {fs : Fields} {a : Answer} (h : SaysAnswer fs a) : decAnswer fs = some a := by
  unfold decAnswer
  cases h with
  | memory he hd =>
    obtain ⟨xs, hx, hd⟩ := hd
    rw [show fs.get _ = _ from he]
    rw [show fs.get _ = _ from hx]
    show (allOf decByte xs.toList).map Answer.memory = _
    rw [(allOf_iff decByte_iff _ _).2 hd]; rfl
  | register he h => rw [show fs.get _ = _ from he]; rw [decU64_iff.2 h]; rfl
  | frame he h1 h2 h3 => rw [show fs.get _ = _ from he]; rw [decU64_iff.2 h1, decU64_iff.2 h2, decU64_iff.2 h3]; rfl
  | thread he h1 h2 => rw [show fs.get _ = _ from he]; rw [decU64_iff.2 h1, decOptStr_iff.2 h2]; rfl
  | base he h => rw [show fs.get _ = _ from he]; rw [decU64_iff.2 h]; rfl
  | expression he h => rw [show fs.get _ = _ from he]; rw [decStr_iff.2 h]; rfl
  | method he h1 h2 => rw [show fs.get _ = _ from he]; rw [(decCall_iff _ _).2 ⟨_, h1, h2⟩]; rfl
  | function he h1 h2 => rw [show fs.get _ = _ from he]; rw [(decCall_iff _ _).2 ⟨_, h1, h2⟩]; rfl
  | variableType he h => rw [show fs.get _ = _ from he]; rw [decOptStr_iff.2 h]; rfl
  | allocated he h => rw [show fs.get _ = _ from he]; rw [decU64_iff.2 h]; rfl
  | written he => rw [show fs.get _ = _ from he]; rfl
  | error he h => rw [show fs.get _ = _ from he]; rw [decStr_iff.2 h]; rfl

theorem decClient_iff (v : Json) (m : ClientMsg) : decClient v = some m ↔ ∃ fs, v = .obj fs ∧ Says fs m := by
  constructor
  · intro h
    unfold decClient at h
    split at h
    · rename_i fs
      refine ⟨fs, rfl, ?_⟩
      split at h
      · rename_i t ht
        replace h := ite_some h; rcases h with ⟨rfl, h⟩ | h
        · obtain ⟨p, hp, rfl⟩ := map_iff h; exact .init ht (decStr_iff.1 hp)
        replace h := ite_some h; rcases h with ⟨rfl, h⟩ | h
        · split at h
          · rename_i c xs hc hx
            obtain ⟨args, ha, rfl⟩ := map_iff h
            exact .command ht (decStr_iff.1 hc) hx ((allOf_iff decText_iff _ _).1 ha)
          · cases h
        replace h := ite_some h; rcases h with ⟨rfl, h⟩ | h
        · obtain ⟨a, ha, rfl⟩ := map_iff h; exact .answer ht (decAnswer_sound ha)
        · cases h
      · cases h
    · cases h
  · rintro ⟨fs, rfl, h⟩
    unfold decClient
    cases h with
    | init ht hp => simp only; rw [show fs.get _ = _ from ht]; rw [decStr_iff.2 hp]; rfl
    | command ht hc hx ha =>
      simp only; rw [show fs.get _ = _ from ht]; rw [decStr_iff.2 hc, show fs.get _ = _ from hx]
      show (allOf decText _).map (ClientMsg.command _) = _
      rw [(allOf_iff decText_iff _ _).2 ha]; rfl
    | answer ht ha => simp only; rw [show fs.get _ = _ from ht]; rw [decAnswer_complete ha]; rfl

theorem text_ne {v : Json} : ¬ IsText [] v := by
  rintro ⟨a, t, b, e, _, _, h⟩
  obtain ⟨c, r, rfl, _⟩ := value_head h
  simp at e

/-- **C81** JSON: both sides read a text as a value exactly if the grammar of JSON gives it that meaning. -/
theorem C81_json (s : Str) (v : Json) : parse s = some v ↔ IsText s v := parse_iff s v

/-- **C81** A line means at most one message. -/
theorem C81_one_meaning {s : Str} {v w : Json} (h : IsText s v) (h' : IsText s w) : v = w :=
  Option.some.inj (((parse_iff s v).2 h).symm.trans ((parse_iff s w).2 h'))

/-- **C81** Server: a line is taken for a message exactly if it is the text of an object whose fields say that message; every
other line is a bad one (which C36 says is answered with an error). -/
theorem C81_server (l : Str) :
    (∀ m, serverLine l = .msg m ↔ ∃ fs, IsText (Symbols.trim l) (.obj fs) ∧ Says fs m) ∧
    (serverLine l = .bad ↔ ¬ ∃ m fs, IsText (Symbols.trim l) (.obj fs) ∧ Says fs m) := by
  have key : ∀ m, serverLine l = .msg m ↔ ∃ fs, IsText (Symbols.trim l) (.obj fs) ∧ Says fs m := by
    intro m
    unfold serverLine
    split
    · rename_i ht
      rw [ht]
      constructor
      · intro h; cases h
      · rintro ⟨fs, h, _⟩; exact absurd h text_ne
    · constructor
      · intro h
        split at h
        · rename_i m' hm
          cases h
          cases hp : parse (Symbols.trim l) with
          | none => rw [hp] at hm; cases hm
          | some v =>
            rw [hp] at hm
            obtain ⟨fs, rfl, hs⟩ := (decClient_iff _ _).1 hm
            exact ⟨fs, (parse_iff _ _).1 hp, hs⟩
        · cases h
      · rintro ⟨fs, ht, hs⟩
        have hc : (parse (Symbols.trim l)).bind decClient = some m := by
          rw [(parse_iff _ _).2 ht]; exact (decClient_iff _ _).2 ⟨fs, rfl, hs⟩
        rw [hc]
  refine ⟨key, ?_⟩
  constructor
  · rintro h ⟨m, fs, hf⟩
    rw [(key m).2 ⟨fs, hf⟩] at h; cases h
  · intro h
    cases hl : serverLine l with
    | bad => rfl
    | msg m => exact absurd ⟨m, (key m).1 hl⟩ h

/-! ### Client -/

/-- The field `k` holds a number; if it is missing, `dflt` is meant. -/
def NumOr (fs : Fields) (k : Str) (dflt n : Nat) : Prop := Has fs k (.num n) ∨ (fs.get k = none ∧ n = dflt)

/-- The field `k` holds a text; if it is missing, `dflt` is meant. -/
def StrOr (fs : Fields) (k : Str) (dflt s : Str) : Prop := Has fs k (.str s) ∨ (fs.get k = none ∧ s = dflt)

/-- The field `k` holds a number, or nothing. -/
def NumOpt (fs : Fields) (k : Str) (o : Option Nat) : Prop :=
  match o with
  | some n => Has fs k (.num n)
  | none => fs.get k = none ∨ Has fs k .null

/-- Two lists whose elements correspond one by one. -/
inductive Each {α β : Type} (R : α → β → Prop) : List α → List β → Prop
  | nil : Each R [] []
  | cons {a b l m} : R a b → Each R l m → Each R (a :: l) (b :: m)

/-- The field `k` holds an array whose elements mean `l`; if it is missing, nothing is meant. -/
def ListOr {α : Type} (meaning : Json → α → Prop) (fs : Fields) (k : Str) (l : List α) : Prop :=
  (∃ xs, Has fs k (.arr xs) ∧ Each meaning xs.toList l) ∨ (fs.get k = none ∧ l = [])

/-- The kind of argument a word stands for; unknown words stand for integers. -/
inductive Kind : Str → ArgType → Prop
  | pointer : Kind (chars! "Pointer") .pointer
  | bool : Kind (chars! "Bool") .bool
  | float : Kind (chars! "Float") .float
  | integer {t} : t ≠ chars! "Pointer" → t ≠ chars! "Bool" → t ≠ chars! "Float" → Kind t .integer

/-- An argument of a call. -/
inductive SaysArg : Json → Arg → Prop
  | mk {fs t v k n} : StrOr fs (chars! "arg_type") (chars! "Integer") t → Kind t k → StrOr fs (chars! "value") (chars! "0") v →
      NumOpt fs (chars! "arg_type_size") n → SaysArg (.obj fs) ⟨v, k, n⟩

/-- What an event asks for. -/
inductive Asks (fs : Fields) : Event → Prop
  | readMemory {a n} : Has fs (chars! "event") (.str (chars! "ReadMemory")) → NumOr fs (chars! "address") 0 a → NumOr fs (chars! "size") 0 n →
      Asks fs (.readMemory a n)
  | readRegister {n} : Has fs (chars! "event") (.str (chars! "ReadRegister")) → StrOr fs (chars! "name") [] n → Asks fs (.readRegister n)
  | readRegisterByIndex {i} : Has fs (chars! "event") (.str (chars! "ReadRegisterByIndex")) → NumOr fs (chars! "index") 0 i →
      Asks fs (.readRegisterByIndex i)
  | getFrameInfo : Has fs (chars! "event") (.str (chars! "GetFrameInfo")) → Asks fs .getFrameInfo
  | getThreadInfo : Has fs (chars! "event") (.str (chars! "GetThreadInfo")) → Asks fs .getThreadInfo
  | getBaseAddress : Has fs (chars! "event") (.str (chars! "GetBaseAddress")) → Asks fs .getBaseAddress
  | evaluateLldb {e} : Has fs (chars! "event") (.str (chars! "EvaluateLLDBExpression")) → StrOr fs (chars! "expr") [] e →
      Asks fs (.evaluateLldb e)
  | executeMethod {a b args r} : Has fs (chars! "event") (.str (chars! "ExecuteMethod")) → NumOr fs (chars! "method_address") 0 a →
      NumOr fs (chars! "base_address") 0 b → ListOr SaysArg fs (chars! "args") args → NumOpt fs (chars! "return_type_size") r →
      Asks fs (.executeMethod a b args r)
  | executeFunction {a args r} : Has fs (chars! "event") (.str (chars! "ExecuteFunction")) → NumOr fs (chars! "function_address") 0 a →
      ListOr SaysArg fs (chars! "args") args → NumOpt fs (chars! "return_type_size") r → Asks fs (.executeFunction a args r)
  | getVariableType {n} : Has fs (chars! "event") (.str (chars! "GetVariableType")) → StrOr fs (chars! "name") [] n →
      Asks fs (.getVariableType n)
  | allocate {n} : Has fs (chars! "event") (.str (chars! "AllocateMemory")) → NumOr fs (chars! "size") 0 n → Asks fs (.allocate n)
  | write {a d} : Has fs (chars! "event") (.str (chars! "WriteMemory")) → NumOr fs (chars! "address") 0 a →
      ListOr (fun j b => j = .num (UInt8.toNat b)) fs (chars! "data") d → Asks fs (.write a d)

theorem getNum_iff {fs : Fields} {k : Str} {d n : Nat} : getNum fs k d = some n ↔ NumOr fs k d n := by
  unfold getNum NumOr Has
  constructor
  · intro h
    split at h
    · rename_i hh; cases h; exact .inr ⟨hh, rfl⟩
    · rename_i hh; cases h; exact .inl hh
    · cases h
  · rintro (h | ⟨h, rfl⟩) <;> rw [h]

theorem getStr_iff {fs : Fields} {k d s : Str} : getStr fs k d = some s ↔ StrOr fs k d s := by
  unfold getStr StrOr Has
  constructor
  · intro h
    split at h
    · rename_i hh; cases h; exact .inr ⟨hh, rfl⟩
    · rename_i hh; cases h; exact .inl hh
    · cases h
  · rintro (h | ⟨h, rfl⟩) <;> rw [h]

theorem getOptNum_iff {fs : Fields} {k : Str} {o : Option Nat} : getOptNum fs k = some o ↔ NumOpt fs k o := by
  unfold getOptNum NumOpt Has
  constructor
  · intro h
    split at h
    · rename_i hh; cases h; exact .inl hh
    · rename_i hh; cases h; exact .inr hh
    · rename_i hh; cases h; exact hh
    · cases h
  · intro h
    cases o with
    | none => rcases h with h | h <;> rw [h]
    | some s => simp only at h; rw [h]

theorem kind_iff (t : Str) (k : ArgType) :
    (if t = chars! "Pointer" then ArgType.pointer else if t = chars! "Bool" then .bool else if t = chars! "Float" then .float else .integer) = k ↔
    Kind t k := by
  constructor
  · intro h
    by_cases h1 : t = chars! "Pointer"
    · rw [if_pos h1] at h; rw [← h, h1]; exact .pointer
    · rw [if_neg h1] at h
      by_cases h2 : t = chars! "Bool"
      · rw [if_pos h2] at h; rw [← h, h2]; exact .bool
      · rw [if_neg h2] at h
        by_cases h3 : t = chars! "Float"
        · rw [if_pos h3] at h; rw [← h, h3]; exact .float
        · rw [if_neg h3] at h; rw [← h]; exact .integer h1 h2 h3
  · intro h
    cases h with
    | pointer => rfl
    | bool => rfl
    | float => rfl
    | integer h1 h2 h3 => rw [if_neg h1, if_neg h2, if_neg h3]

theorem pyArg_iff (j : Json) (a : Arg) : pyArg j = some a ↔ SaysArg j a := by
  constructor
  · intro h
    unfold pyArg at h
    split at h
    · split at h
      next t v n ht hv hn =>
        cases h
        exact .mk (getStr_iff.1 ht) ((kind_iff _ _).1 rfl) (getStr_iff.1 hv) (getOptNum_iff.1 hn)
      next => cases h
    · cases h
  · intro h
    cases h with
    | mk ht hk hv hn =>
      simp only [pyArg, getStr_iff.2 ht, getStr_iff.2 hv, getOptNum_iff.2 hn]
      rw [(kind_iff _ _).2 hk]

theorem allOf_forall {α β : Type} {f : α → Option β} {R : α → β → Prop} (h : ∀ a b, f a = some b ↔ R a b) (l : List α) (bs : List β) :
    allOf f l = some bs ↔ Each R l bs := by
  induction l generalizing bs with
  | nil =>
    constructor
    · intro e; cases e; exact .nil
    · intro e; cases e; rfl
  | cons a l ih =>
    rw [allOf]
    constructor
    · intro e
      split at e
      · rename_i b bs' h1 h2
        cases e
        exact .cons ((h _ _).1 h1) ((ih _).1 h2)
      · cases e
    · intro e
      cases e with
      | cons h1 h2 => rw [(h _ _).2 h1, (ih _).2 h2]

theorem listOr_iff {α : Type} {f : Json → Option α} {R : Json → α → Prop} (h : ∀ a b, f a = some b ↔ R a b) (fs : Fields) (k : Str) (l : List α) :
    (match fs.get k with | none => some [] | some (.arr xs) => allOf f xs.toList | _ => none) = some l ↔ ListOr R fs k l := by
  unfold ListOr Has
  constructor
  · intro e
    split at e
    · rename_i hh; cases e; exact .inr ⟨hh, rfl⟩
    · rename_i xs hh; exact .inl ⟨xs, hh, (allOf_forall h _ _).1 e⟩
    · cases e
  · rintro (⟨xs, hx, hf⟩ | ⟨hk, rfl⟩)
    · rw [hx]; exact (allOf_forall h _ _).2 hf
    · rw [hk]

theorem pyArgs_iff (fs : Fields) (l : List Arg) : pyArgs fs = some l ↔ ListOr SaysArg fs (chars! "args") l :=
  listOr_iff pyArg_iff fs _ l

theorem pyData_iff (fs : Fields) (l : List UInt8) : pyData fs = some l ↔ ListOr (fun j b => j = .num (UInt8.toNat b)) fs (chars! "data") l :=
  listOr_iff pyByte_iff fs _ l

theorem pyEvent_sound {fs : Fields} {e : Event} (h : pyEvent fs = some e) : Asks fs e := by
  unfold pyEvent at h
  split at h
  · rename_i n he
    replace h := ite_some h; rcases h with ⟨rfl, h⟩ | h
    · split at h
      next a n ha hn => cases h; exact .readMemory he (getNum_iff.1 ha) (getNum_iff.1 hn)
      next => cases h
    replace h := ite_some h; rcases h with ⟨rfl, h⟩ | h
    · obtain ⟨v, hv, rfl⟩ := map_iff h; exact .readRegister he (getStr_iff.1 hv)
    replace h := ite_some h; rcases h with ⟨rfl, h⟩ | h
    · obtain ⟨v, hv, rfl⟩ := map_iff h; exact .readRegisterByIndex he (getNum_iff.1 hv)
    replace h := ite_some h; rcases h with ⟨rfl, h⟩ | h
    · cases h; exact .getFrameInfo he
    replace h := ite_some h; rcases h with ⟨rfl, h⟩ | h
    · cases h; exact .getThreadInfo he
    replace h := ite_some h; rcases h with ⟨rfl, h⟩ | h
    · cases h; exact .getBaseAddress he
    replace h := ite_some h; rcases h with ⟨rfl, h⟩ | h
    · obtain ⟨v, hv, rfl⟩ := map_iff h; exact .evaluateLldb he (getStr_iff.1 hv)
    replace h := ite_some h; rcases h with ⟨rfl, h⟩ | h
    · split at h
      next a b args r ha hb hargs hr =>
        cases h; exact .executeMethod he (getNum_iff.1 ha) (getNum_iff.1 hb) ((pyArgs_iff _ _).1 hargs) (getOptNum_iff.1 hr)
      next => cases h
    replace h := ite_some h; rcases h with ⟨rfl, h⟩ | h
    · split at h
      next a args r ha hargs hr =>
        cases h; exact .executeFunction he (getNum_iff.1 ha) ((pyArgs_iff _ _).1 hargs) (getOptNum_iff.1 hr)
      next => cases h
    replace h := ite_some h; rcases h with ⟨rfl, h⟩ | h
    · obtain ⟨v, hv, rfl⟩ := map_iff h; exact .getVariableType he (getStr_iff.1 hv)
    replace h := ite_some h; rcases h with ⟨rfl, h⟩ | h
    · obtain ⟨v, hv, rfl⟩ := map_iff h; exact .allocate he (getNum_iff.1 hv)
    replace h := ite_some h; rcases h with ⟨rfl, h⟩ | h
    · split at h
      next a d ha hd => cases h; exact .write he (getNum_iff.1 ha) ((pyData_iff _ _).1 hd)
      next => cases h
    · cases h
  · cases h

set_option maxRecDepth 8000 in
theorem pyEvent_complete {fs : Fields} {e : Event} (h : Asks fs e) : pyEvent fs = some e := by
  unfold pyEvent
  cases h with
  | readMemory he ha hn => rw [show fs.get _ = _ from he, getNum_iff.2 ha, getNum_iff.2 hn]; rfl
  | readRegister he h => rw [show fs.get _ = _ from he, getStr_iff.2 h]; rfl
  | readRegisterByIndex he h => rw [show fs.get _ = _ from he, getNum_iff.2 h]; rfl
  | getFrameInfo he => rw [show fs.get _ = _ from he]; rfl
  | getThreadInfo he => rw [show fs.get _ = _ from he]; rfl
  | getBaseAddress he => rw [show fs.get _ = _ from he]; rfl
  | evaluateLldb he h => rw [show fs.get _ = _ from he, getStr_iff.2 h]; rfl
  | executeMethod he ha hb hargs hr =>
    rw [show fs.get _ = _ from he, getNum_iff.2 ha, getNum_iff.2 hb, (pyArgs_iff _ _).2 hargs, getOptNum_iff.2 hr]; rfl
  | executeFunction he ha hargs hr =>
    rw [show fs.get _ = _ from he, getNum_iff.2 ha, (pyArgs_iff _ _).2 hargs, getOptNum_iff.2 hr]; rfl
  | getVariableType he h => rw [show fs.get _ = _ from he, getStr_iff.2 h]; rfl
  | allocate he h => rw [show fs.get _ = _ from he, getNum_iff.2 h]; rfl
  | write he ha hd => rw [show fs.get _ = _ from he, getNum_iff.2 ha, (pyData_iff _ _).2 hd]; rfl

theorem pyEvent_iff (fs : Fields) (e : Event) : pyEvent fs = some e ↔ Asks fs e := ⟨pyEvent_sound, pyEvent_complete⟩

/-- What the client does with a line. -/
inductive Hears (fs : Fields) : Heard → Prop
  | event {e} : Has fs (chars! "type") (.str (chars! "Event")) → Asks fs e → Hears fs (.event (some e))
  | notUnderstood : Has fs (chars! "type") (.str (chars! "Event")) → (∀ e, ¬ Asks fs e) → Hears fs (.event none)
  | complete {r} : Has fs (chars! "type") (.str (chars! "Complete")) → Has fs (chars! "result") r → Hears fs (.complete r)
  | completeEmpty : Has fs (chars! "type") (.str (chars! "Complete")) → fs.get (chars! "result") = none → Hears fs (.complete (.obj .nil))
  | error {t} : Has fs (chars! "type") (.str (chars! "Error")) → StrOr fs (chars! "error") (chars! "Unknown error") t → Hears fs (.error t)

theorem hear_iff (v : Json) (x : Heard) (hx : x ≠ .unknown) : hear v = x ↔ ∃ fs, v = .obj fs ∧ Hears fs x := by
  constructor
  · intro h
    subst h
    cases v with
    | obj fs =>
      refine ⟨fs, rfl, ?_⟩
      rw [hear] at hx ⊢
      revert hx
      split
      · rename_i t ht
        intro hx
        by_cases h1 : t = chars! "Event"
        · rw [if_pos h1]; rw [h1] at ht
          cases he : pyEvent fs with
          | some e => exact .event ht (pyEvent_sound he)
          | none => exact .notUnderstood ht fun e ha => by rw [pyEvent_complete ha] at he; cases he
        · rw [if_neg h1] at hx ⊢
          by_cases h2 : t = chars! "Complete"
          · rw [if_pos h2]; rw [h2] at ht
            cases hr : fs.get (chars! "result") with
            | some r => exact .complete ht hr
            | none => exact .completeEmpty ht hr
          · rw [if_neg h2] at hx ⊢
            by_cases h3 : t = chars! "Error"
            · rw [if_pos h3] at hx ⊢; rw [h3] at ht
              revert hx
              split
              · rename_i hn; exact fun _ => .error ht (.inr ⟨hn, rfl⟩)
              · rename_i e he; exact fun _ => .error ht (.inl he)
              · exact fun hx => absurd rfl hx
            · rw [if_neg h3] at hx; exact absurd rfl hx
      · exact fun hx => absurd rfl hx
    | null => exact absurd rfl hx
    | bool b => exact absurd rfl hx
    | num n => exact absurd rfl hx
    | str s => exact absurd rfl hx
    | arr xs => exact absurd rfl hx
  · rintro ⟨fs, rfl, h⟩
    unfold hear
    cases h with
    | event ht ha => simp only; rw [show fs.get _ = _ from ht, pyEvent_complete ha]; rfl
    | notUnderstood ht hn =>
      have : pyEvent fs = none := by
        cases he : pyEvent fs with
        | none => rfl
        | some e => exact absurd (pyEvent_sound he) (hn e)
      simp only; rw [show fs.get _ = _ from ht, this]; rfl
    | complete ht hr => simp only; rw [show fs.get _ = _ from ht, show fs.get _ = _ from hr]; rfl
    | completeEmpty ht hr => simp only; rw [show fs.get _ = _ from ht, hr]; rfl
    | error ht he =>
      simp only; rw [show fs.get _ = _ from ht]
      rcases he with he | ⟨he, rfl⟩
      · rw [show fs.get _ = _ from he]; rfl
      · rw [he]; rfl

/-- **C81** Client: an event is handled, a result or an error shown exactly if the line is the text of an object that says so. -/
theorem C81_client (l : Str) (x : Heard) (hx : x ≠ .unknown) :
    clientLine l = some x ↔ ∃ fs, IsText (Symbols.trim l) (.obj fs) ∧ Hears fs x := by
  have key : ∀ t, (parse t).map hear = some x ↔ ∃ fs, IsText t (.obj fs) ∧ Hears fs x := by
    intro t
    constructor
    · intro h
      obtain ⟨v, hv, e⟩ := map_iff h
      obtain ⟨fs, rfl, hh⟩ := (hear_iff v x hx).1 e.symm
      exact ⟨fs, (parse_iff _ _).1 hv, hh⟩
    · rintro ⟨fs, ht, hh⟩
      rw [(parse_iff _ _).2 ht]
      exact congrArg some ((hear_iff _ x hx).2 ⟨fs, rfl, hh⟩)
  unfold clientLine
  split
  · rename_i ht
    rw [ht]
    constructor
    · intro h; cases h
    · rintro ⟨fs, h, _⟩; exact absurd h text_ne
  · exact key _

/-! ### Not vacuous -/

set_option maxRecDepth 20000 in
/-- Blanks, escapes and another order of the fields: still the same message. -/
example : serverLine (chars! " {\"binary_path\" :\t\"\\u0061\\/\\uD83D\\uDE00\", \"type\":\"Init\" }\r") = .msg (.init ['a', '/', '😀']) := by
  with_unfolding_all rfl

set_option maxRecDepth 20000 in
/-- A missing field, a number for a text, half of a surrogate pair, an unfinished escape, text after the end, a byte that is
none: bad lines. -/
example : [chars! "{\"type\":\"Init\"}", chars! "{\"type\":\"Init\",\"binary_path\":1}",
    chars! "{\"type\":\"Init\",\"binary_path\":\"\\uD83D\"}", chars! "{\"type\":\"Init\",\"binary_path\":\"\\u00g1\"}",
    chars! "{\"type\":\"Init\",\"binary_path\":\"a\"}}",
    chars! "{\"type\":\"EventResponse\",\"event\":\"MemoryData\",\"data\":[1,256]}"].map serverLine = List.replicate 6 .bad := by
  with_unfolding_all rfl

end Rudy.Wire
