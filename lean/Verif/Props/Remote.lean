import Verif.Model.Remote
import Verif.Props.Wire
import Verif.Props.Create
import Verif.Props.Calls
import Verif.Props.ShownPlaces
/-
C77: what the server learns from the debugger is what the debugger knows, and what it asks for is done or reported as
not done.
-/
namespace Rudy.Remote
open Rudy Rudy.Server Rudy.Calls Rudy.Wire Rudy.Data

variable {σ α : Type}

/-! ### Specification -/

/-- There is a process to talk about. -/
def Live (L : Lldb σ) (s : σ) : Prop := L.target s = true ∧ L.process s = true

/-- `f` is the frame selected in the debugger; its addresses are addresses. -/
def Selected (L : Lldb σ) (s : σ) (f : Frame) : Prop :=
  (∃ t, L.thread s = some t ∧ t.frame = some f) ∧ f.pc < 2 ^ 64 ∧ f.sp < 2 ^ 64 ∧ f.fp < 2 ^ 64

/-- LLDB reads the memory `mem` of the process: it returns the bytes if there are any and all of them are mapped, and no
bytes with success if one is not. What it does when asked for no bytes is left open. -/
def ReadsMemory (L : Lldb σ) (mem : σ → Mem) : Prop :=
  ∀ s a n, 0 < n → match (mem s).slice a n with
    | some bs => L.read s a n = .done (some bs) true
    | none => ∀ bs, L.read s a n ≠ .done (some bs) true

/-- Asked for no bytes, LLDB returns no bytes. -/
def ReadsNothing (L : Lldb σ) : Prop := ∀ s a, L.read s a 0 = .done (some []) true

/-- LLDB writes to the memory `mem` of the process: if all bytes are reported written, exactly they have changed; and they
are if they are mapped. -/
structure WritesMemory (L : Lldb σ) (mem : σ → Mem) : Prop where
  effect : ∀ s a d s', L.write s a d = (.done d.length true, s') → mem s' = (mem s).put a d
  mapped : ∀ s a d, (mem s).Mapped a d.length → (L.write s a d).1 = .done d.length true

/-- Evaluating `(void*)malloc(n)` calls `malloc`: what comes back is the address of a block that is mapped and was not
in use, and nothing else has changed. -/
def Allocates (L : Lldb σ) (mem : σ → Mem) (owned : σ → Nat → Prop) : Prop :=
  ∀ s n a x y t u s', L.evaluate s (chars! "(void*)malloc(" ++ Layout.natStr n ++ chars! ")") = (.value true false a x y t u, s') →
    a + n < 2 ^ 64 ∧ (mem s').Mapped a n ∧ (∀ z, z < a ∨ a + n ≤ z → mem s' z = mem s z) ∧
    (∀ z, a ≤ z → z < a + n → ¬ owned s z) ∧ (∀ z, owned s' z ↔ owned s z ∨ (a ≤ z ∧ z < a + n))

/-- The event only looks at the process. -/
def Looks : Event → Prop
  | .readMemory _ _ | .readRegister _ | .readRegisterByIndex _ | .getFrameInfo | .getThreadInfo | .getBaseAddress
  | .getVariableType _ => True
  | _ => False

/-! ### The exchange -/

theorem receive_text (a : Answer) (h : answerFits a) : receive (clientText (.answer a)) = some a := by
  have := C67_to_server [.answer a] (by simpa [Fits] using h)
  simp only [List.flatMap_cons, List.flatMap_nil, List.append_nil, List.map_cons, List.map_nil] at this
  simp [receive, this]

theorem exchange_eq (L : Lldb σ) (s : σ) (e : Event) :
    exchange L s e = (receive (clientText (.answer (handle L s e).1)), (handle L s e).2) := by
  have := C67_to_client [.event e]
  simp only [List.flatMap_cons, List.flatMap_nil, List.append_nil, List.map_cons, List.map_nil, meant] at this
  unfold exchange
  cases hl : lines (serverText (.event e)) [] with
  | nil => rw [hl] at this; simp at this
  | cons l r =>
    rw [hl] at this
    simp only [List.map_cons, List.cons.injEq] at this
    simp only [clientTurn, this.1]

/-- C77: over the connection, the server gets exactly the answer the client has for the event. -/
theorem C77_answered (L : Lldb σ) (s : σ) (e : Event) (h : answerFits (handle L s e).1) :
    exchange L s e = (some (handle L s e).1, (handle L s e).2) := by
  rw [exchange_eq, receive_text _ h]

theorem talk_ask (L : Lldb σ) (s : σ) (e : Event) (k : Option Answer → Conv α) (h : answerFits (handle L s e).1) :
    talk L (.ask e k) s = talk L (k (some (handle L s e).1)) (handle L s e).2 := by
  simp only [talk, C77_answered L s e h]

theorem handle_live (L : Lldb σ) {s : σ} (h : Live L s) (e : Event) : handle L s e = match e with
    | .readMemory a n => (handleRead L s a n, s)
    | .readRegister name => (handleReadRegister L s name, s)
    | .readRegisterByIndex i => (handleReadRegisterByIndex L s i, s)
    | .getFrameInfo => (handleFrame L s, s)
    | .getThreadInfo => (handleThread L s, s)
    | .getBaseAddress => (handleBase L s, s)
    | .evaluateLldb expr => handleEvaluate L s expr
    | .executeMethod address base args ret => handleMethod L s address base args ret
    | .executeFunction address args ret => handleFunction L s address args ret
    | .getVariableType name => (handleVariable L s name, s)
    | .allocate n => handleAllocate L s n
    | .write a d => handleWrite L s a d := by
  cases e <;> simp [handle, h.1, h.2]

/-! ### Looking -/

/-- C77: looking at the process changes nothing, whatever comes out of it. -/
theorem C77_looking (L : Lldb σ) (s : σ) (e : Event) (h : Looks e) : (exchange L s e).2 = s := by
  rw [exchange_eq]
  show (handle L s e).2 = s
  unfold handle
  split
  · rfl
  · split
    · rfl
    · cases e <;> first | rfl | exact h.elim

/-- C77: without a target or a process, every request of the server is answered with an error, and nothing happens. -/
theorem C77_no_process (L : Lldb σ) (s : σ) (e : Event) (h : ¬ Live L s) : ∃ m, exchange L s e = (some (.error m), s) := by
  have hh : handle L s e = (.error [], s) := by
    unfold handle Live at *
    by_cases h1 : L.target s = false
    · rw [if_pos h1]; rfl
    · by_cases h2 : L.process s = false
      · rw [if_neg h1, if_pos h2]; rfl
      · exact absurd ⟨by simpa using h1, by simpa using h2⟩ h
  exact ⟨[], by rw [C77_answered L s e (by rw [hh]; trivial), hh]⟩

/-- C77: a read of the server returns exactly the bytes of the process, or an error if one of them is not mapped; the
process stays as it is. -/
theorem C77_read (L : Lldb σ) {mem : σ → Mem} (hL : ReadsMemory L mem) {s : σ} (hs : Live L s) (a n : Nat) (hn : 0 < n) :
    talk L (readMemory a n) s = (match (mem s).slice a n with | some bs => .ok bs | none => .err, s) := by
  have h := hL s a n hn
  have hf : answerFits (handleRead L s a n) := by unfold handleRead; split <;> trivial
  rw [readMemory, talk_ask _ _ _ _ (by rw [handle_live L hs]; exact hf), handle_live L hs]
  cases hm : (mem s).slice a n with
  | some bs => rw [hm] at h; simp only at h; simp [handleRead, h, talk]
  | none =>
    rw [hm] at h
    simp only at h
    have hx : handleRead L s a n = failure := by
      unfold handleRead
      split
      · rename_i d hd; exact absurd hd (h d)
      · rfl
    simp only [hx, failure, talk]

/-- C77: an address read by the server is the one the process holds. -/
theorem C77_address (L : Lldb σ) {mem : σ → Mem} (hL : ReadsMemory L mem) {s : σ} (hs : Live L s) (a v : Nat) :
    talk L (readAddress a) s = (.ok v, s) ↔ (mem s).HoldsNat a 8 v := by
  have hb : ∀ (c : Conv (List UInt8)) (k : List UInt8 → Conv Nat) (s : σ), talk L (c.bind k) s = match talk L c s with
      | (.ok b, s') => talk L (k b) s'
      | (.err, s') => (.err, s')
      | (.panic, s') => (.panic, s') := by
    intro c k
    induction c with
    | ok b => intro s; rfl
    | err => intro s; rfl
    | panic => intro s; rfl
    | ask e g ih => intro s; simp only [Conv.bind, talk]; exact ih _ _
  rw [readAddress, hb, C77_read L hL hs a 8 (by omega), Mem.holdsNat_iff]
  cases hm : (mem s).slice a 8 with
  | none => simp
  | some bs =>
    have hl := ((mem s).slice_eq_some a 8 bs).1 hm
    simp [hl.1, talk]

/-- C77: the program counter the server works with is that of the selected frame. -/
theorem C77_pc (L : Lldb σ) {s : σ} (hs : Live L s) {f : Frame} (hf : Selected L s f) :
    talk L getPc s = (.ok f.pc, s) := by
  obtain ⟨⟨t, ht, hft⟩, h1, h2, h3⟩ := hf
  have hh : handle L s .getFrameInfo = (.frame f.pc f.sp f.fp, s) := by
    rw [handle_live L hs]; simp [handleFrame, selectedFrame, ht, hft]
  rw [getPc, talk_ask _ _ _ _ (by rw [hh]; exact ⟨h1, h2, h3⟩), hh]
  rfl

/-- C77: asked for the thread, the client names the selected one, by its number and its name (an empty name is no name). -/
theorem C77_thread (L : Lldb σ) {s : σ} (hs : Live L s) {t : Thread} (ht : L.thread s = some t) (hn : t.tid < 2 ^ 64) :
    exchange L s .getThreadInfo = (some (.thread t.tid (if t.name = some [] then none else t.name)), s) := by
  have hh : handle L s .getThreadInfo = (.thread t.tid (if t.name = some [] then none else t.name), s) := by
    rw [handle_live L hs]
    simp only [handleThread, ht]
    cases hname : t.name with
    | none => rfl
    | some n => cases n <;> simp [Option.filter]
  rw [C77_answered _ _ _ (by rw [hh]; exact hn), hh]

/-- C77: asked where the program is loaded, the client gives the load address of its main module, or reports that there is
none. -/
theorem C77_base (L : Lldb σ) {s : σ} (hs : Live L s) (hn : ∀ a, L.mainModule s = some a → a < 2 ^ 64) :
    exchange L s .getBaseAddress = (some ((L.mainModule s).elim failure .base), s) := by
  have hh : handle L s .getBaseAddress = ((L.mainModule s).elim failure .base, s) := by
    rw [handle_live L hs]
    cases hm : L.mainModule s <;> simp [handleBase, hm]
  rw [C77_answered _ _ _ (by
    rw [hh]
    cases hm : L.mainModule s with
    | none => trivial
    | some a => exact hn a hm), hh]

/-- C77: with no frame selected the server has no program counter to work with, and says so. -/
theorem C77_no_frame (L : Lldb σ) (s : σ) (h : ∀ t f, L.thread s = some t → t.frame ≠ some f) :
    talk L getPc s = (.err, s) := by
  have hh : handle L s .getFrameInfo = (failure, s) := by
    unfold handle
    split <;> [rfl; split] <;> try rfl
    simp only [handleFrame, selectedFrame]
    cases ht : L.thread s with
    | none => rfl
    | some t =>
      cases hf : t.frame with
      | none => simp [hf]
      | some f => exact absurd hf (h t f ht)
  rw [getPc, talk_ask _ _ _ _ (by rw [hh]; trivial), hh]
  rfl

/-- C77: a name is taken for a variable exactly if the selected frame has one of that name (with a type). -/
theorem C77_variable (L : Lldb σ) {s : σ} (hs : Live L s) {f : Frame} (hf : Selected L s f) (name : Str) :
    ∃ b, talk L (isVariable name) s = (.ok b, s) ∧ (b = true ↔ ∃ t, f.find name = some (some t)) := by
  obtain ⟨⟨t, ht, hft⟩, -⟩ := hf
  have hh : handle L s (.getVariableType name) = (.variableType (f.find name).join, s) := by
    rw [handle_live L hs]
    simp only [handleVariable, selectedFrame, ht, Option.bind_some, hft]
    cases f.find name <;> rfl
  rw [isVariable, talk_ask _ _ _ _ (by rw [hh]; trivial), hh]
  refine ⟨_, rfl, ?_⟩
  cases h : f.find name with
  | none => simp
  | some o => cases o <;> simp

/-- C77: a register asked for by number is the one the client picks in the register sets of the selected frame (C73 says
which one that is); the 64 bits arrive as they are. -/
theorem C77_register (L : Lldb σ) {s : σ} (hs : Live L s) {f : Frame} (hf : Selected L s f) (i : Nat) :
    talk L (getRegister i) s = (match readRegisterByIndex f.registers i with | some v => .ok v | none => .err, s) := by
  obtain ⟨⟨t, ht, hft⟩, -⟩ := hf
  have hlt : ∀ sets v, readRegisterByIndex sets i = some v → v < 2 ^ 64 := by
    intro sets
    induction sets with
    | nil => intro v h; cases h
    | cons x xs ih =>
      intro v h
      simp only [readRegisterByIndex] at h
      split at h
      · split at h
        · unfold firstWord at h
          split at h
          · cases h
            refine Nat.lt_of_lt_of_le (leNat_lt _) ?_
            have : ∀ k, k ≤ 8 → 256 ^ k ≤ 2 ^ 64 := by
              intro k hk
              exact Nat.le_trans (Nat.pow_le_pow_right (by omega) hk) (by decide)
            exact this _ (by simp; omega)
          · cases h
        · exact ih v h
      · exact ih v h
  have hh : handle L s (.readRegisterByIndex i) = (match readRegisterByIndex f.registers i with | some v => .register v | none => failure, s) := by
    rw [handle_live L hs]
    simp only [handleReadRegisterByIndex, selectedFrame, ht, Option.bind_some, hft]
    cases readRegisterByIndex f.registers i <;> rfl
  have hfit : answerFits (handle L s (.readRegisterByIndex i)).1 := by
    rw [hh]
    cases hv : readRegisterByIndex f.registers i with
    | none => trivial
    | some v => exact hlt _ v hv
  rw [getRegister, talk_ask _ _ _ _ hfit, hh]
  cases readRegisterByIndex f.registers i <;> rfl

/-- C77: a register asked for by name is the one of that name in the register sets of the selected frame (C73). -/
theorem C77_register_named (L : Lldb σ) {s : σ} (hs : Live L s) {f : Frame} (hf : Selected L s f) (name : Str) :
    talk L (getRegisterNamed name) s = (match readRegister f.registers name with | some v => .ok v | none => .err, s) := by
  obtain ⟨⟨t, ht, hft⟩, -⟩ := hf
  have hlt : ∀ r, asUnsigned r < 2 ^ 64 := by
    intro r
    refine Nat.lt_of_lt_of_le (leNat_lt _) (Nat.le_trans (Nat.pow_le_pow_right (n := 256) (j := 8) (by omega) (by simp; omega)) (by decide))
  have hh : handle L s (.readRegister name) = (match readRegister f.registers name with | some v => .register v | none => failure, s) := by
    rw [handle_live L hs]
    simp only [handleReadRegister, selectedFrame, ht, Option.bind_some, hft]
    cases readRegister f.registers name <;> rfl
  have hfit : answerFits (handle L s (.readRegister name)).1 := by
    rw [hh]
    unfold readRegister
    cases sets : f.registers.flatten.find? fun r => r.name == name with
    | none => trivial
    | some r => exact hlt r
  rw [getRegisterNamed, talk_ask _ _ _ _ hfit, hh]
  cases readRegister f.registers name <;> rfl

/-- C77: an expression of the user's is evaluated once; its text is the value LLDB gives, or the summary if it gives no value,
and an error is reported if there is no result. -/
theorem C77_expression (L : Lldb σ) {s : σ} (hs : Live L s) (e : Str) :
    exchange L s (.evaluateLldb e) = (some (match (L.evaluate s e).1 with
      | .value true _ _ _ _ (some (c :: t)) _ => .expression (c :: t)
      | .value true _ _ _ _ _ (some t) => .expression t
      | .value true _ _ _ _ _ none => .expression []
      | _ => failure), (L.evaluate s e).2) := by
  have hh : handle L s (.evaluateLldb e) = (match (L.evaluate s e).1 with
      | .value true _ _ _ _ (some (c :: t)) _ => .expression (c :: t)
      | .value true _ _ _ _ _ (some t) => .expression t
      | .value true _ _ _ _ _ none => .expression []
      | _ => failure, (L.evaluate s e).2) := by
    rw [handle_live L hs]
    simp only [handleEvaluate]
    cases hr : L.evaluate s e with
    | mk o s' =>
      cases o with
      | raised => rfl
      | value ok fl v lo ad t u =>
        cases ok with
        | false => rfl
        | true => rcases t with _ | (_ | ⟨c, t⟩) <;> rcases u with _ | (_ | ⟨d, u⟩) <;> simp [shownText, Option.filter]
  rw [C77_answered L s _ (by rw [hh]; simp only; split <;> trivial), hh]

/-! ### Changing -/

/-- C77: a write the server is told succeeded has put exactly these bytes there. -/
theorem C77_written (L : Lldb σ) {mem : σ → Mem} (hL : WritesMemory L mem) {s : σ} (hs : Live L s) {a : Nat} {d : List UInt8}
    {s' : σ} (h : talk L (writeMemory a d) s = (.ok (), s')) : mem s' = (mem s).put a d := by
  have hfit : answerFits (handle L s (.write a d)).1 := by
    rw [handle_live L hs]; simp only [handleWrite]; split <;> [(simp only; split) ; skip] <;> trivial
  rw [writeMemory, talk_ask _ _ _ _ hfit, handle_live L hs] at h
  simp only [handleWrite] at h
  cases hw : L.write s a d with
  | mk o s1 =>
    rw [hw] at h
    cases o with
    | raised => simp [failure, talk] at h
    | done k ok =>
      cases ok with
      | false => simp [failure, talk] at h
      | true =>
        simp only at h
        by_cases hk : k = d.length
        · simp only [hk, if_true, talk, Prod.mk.injEq, true_and] at h
          subst hk h
          exact hL.effect _ _ _ _ hw
        · simp [hk, failure, talk] at h

/-- C77: a write to mapped memory succeeds. -/
theorem C77_writes (L : Lldb σ) {mem : σ → Mem} (hL : WritesMemory L mem) {s : σ} (hs : Live L s) {a : Nat} {d : List UInt8}
    (h : (mem s).Mapped a d.length) : ∃ s', talk L (writeMemory a d) s = (.ok (), s') := by
  have hw := hL.mapped s a d h
  have hh : handle L s (.write a d) = (.written, (L.write s a d).2) := by
    rw [handle_live L hs]
    simp only [handleWrite]
    cases hx : L.write s a d with
    | mk o s1 => rw [hx] at hw; cases hw; simp
  exact ⟨_, by rw [writeMemory, talk_ask _ _ _ _ (by rw [hh]; trivial), hh]; rfl⟩

/-- C77: a block the server is told it has is one `malloc` gave it. -/
theorem C77_allocated (L : Lldb σ) {mem : σ → Mem} {owned : σ → Nat → Prop} (hL : Allocates L mem owned) {s : σ} (hs : Live L s)
    {n a : Nat} {s' : σ} (h : talk L (allocateMemory n) s = (.ok a, s')) :
    a + n < 2 ^ 64 ∧ (mem s').Mapped a n ∧ (∀ z, z < a ∨ a + n ≤ z → mem s' z = mem s z) ∧
    (∀ z, a ≤ z → z < a + n → ¬ owned s z) ∧ (∀ z, owned s' z ↔ owned s z ∨ (a ≤ z ∧ z < a + n)) := by
  simp only [allocateMemory, talk, exchange_eq, handle_live L hs, handleAllocate] at h
  cases he : L.evaluate s (mallocExpr n) with
  | mk o s1 =>
    rw [he] at h
    have no : ∀ {x : Res Nat × σ}, x = talk L (α := Nat) (match receive (clientText (.answer failure)) with | some (.allocated a) => .ok a | _ => .err) s1 →
        x ≠ (.ok a, s') := by
      intro x hx; rw [receive_text failure trivial] at hx; rw [hx]; simp [failure, talk]
    cases o with
    | raised => exact absurd h (no rfl)
    | value valid fail v x y t u =>
      cases valid <;> cases fail <;> first | exact absurd h (no rfl) | skip
      have hv := hL s n v x y t u s1 he
      have hfit : answerFits (.allocated v) := by show v < 2 ^ 64; omega
      simp only [receive_text _ hfit, talk, Prod.mk.injEq, Res.ok.injEq] at h
      obtain ⟨rfl, rfl⟩ := h
      exact hv


/-- C77: a call the server asks for is one evaluation, of exactly the text of the call (C71 says what that text means), and
the server gets its value: the value itself if it is returned in a register … -/
theorem C77_called (L : Lldb σ) {s s' : σ} (hs : Live L s) {address base v : Nat} {args : List Arg} {load addr : Option Nat}
    {t u : Option Str} (hv : v < 2 ^ 64) :
    (L.evaluate s (methodExpr address base args none) = (.value true false v load addr t u, s') →
      talk L (callMethod address base args none) s = (.ok (.simple v (chars! "usize")), s')) ∧
    (L.evaluate s (functionExpr address args none) = (.value true false v load addr t u, s') →
      talk L (callFunction address args none) s = (.ok (.simple v (chars! "usize")), s')) := by
  constructor
  · intro h
    have hh : handle L s (.executeMethod address base args none) = (.method (.simple v (chars! "usize")), s') := by
      rw [handle_live L hs]; simp [handleMethod, h, outcome, callResult]
    rw [callMethod, talk_ask _ _ _ _ (by rw [hh]; exact hv), hh]; rfl
  · intro h
    have hh : handle L s (.executeFunction address args none) = (.function (.simple v (chars! "usize")), s') := by
      rw [handle_live L hs]; simp [handleFunction, h, outcome, callResult]
    rw [callFunction, talk_ask _ _ _ _ (by rw [hh]; exact hv), hh]; rfl

/-- … and the address of the `n` bytes returned otherwise. -/
theorem C77_called_at (L : Lldb σ) {s s' : σ} (hs : Live L s) {address base v n : Nat} {args : List Arg} {load addr : Option Nat}
    {t u : Option Str} (hv : v < 2 ^ 64 - 1) (h0 : v ≠ 0) (hn : n < 2 ^ 64) :
    (L.evaluate s (methodExpr address base args (some n)) = (.value true false v load addr t u, s') →
      talk L (callMethod address base args (some n)) s = (.ok (.complex v n (chars! "complex")), s')) ∧
    (L.evaluate s (functionExpr address args (some n)) = (.value true false v load addr t u, s') →
      talk L (callFunction address args (some n)) s = (.ok (.complex v n (chars! "complex")), s')) := by
  have hr : callResult (some n) (.value v load addr) = some (.complex v n (chars! "complex")) := by
    have : v ≠ invalidAddress := by unfold invalidAddress; omega
    simp [callResult, resultAddress, h0, this]
  have hf : callFits (.complex v n (chars! "complex")) := ⟨by omega, hn⟩
  constructor
  · intro h
    have hh : handle L s (.executeMethod address base args (some n)) = (.method (.complex v n (chars! "complex")), s') := by
      rw [handle_live L hs]; simp [handleMethod, h, outcome, hr]
    rw [callMethod, talk_ask _ _ _ _ (by rw [hh]; exact hf), hh]; rfl
  · intro h
    have hh : handle L s (.executeFunction address args (some n)) = (.function (.complex v n (chars! "complex")), s') := by
      rw [handle_live L hs]; simp [handleFunction, h, outcome, hr]
    rw [callFunction, talk_ask _ _ _ _ (by rw [hh]; exact hf), hh]; rfl

/-- C77: a call or an allocation that failed in the debugger fails in the server. -/
theorem C77_failed (L : Lldb σ) {s s' : σ} (hs : Live L s) {address base n : Nat} {args : List Arg} {ret : Option Nat}
    {o : EvalOutcome} (ho : ∀ v load addr t u, o ≠ .value true false v load addr t u) :
    (L.evaluate s (methodExpr address base args ret) = (o, s') → talk L (callMethod address base args ret) s = (.err, s')) ∧
    (L.evaluate s (functionExpr address args ret) = (o, s') → talk L (callFunction address args ret) s = (.err, s')) ∧
    (L.evaluate s (mallocExpr n) = (o, s') → talk L (allocateMemory n) s = (.err, s')) := by
  have hf : outcome o = .failed [] := by
    unfold outcome
    split
    · exact absurd rfl (ho _ _ _ _ _)
    · rfl
  refine ⟨fun h => ?_, fun h => ?_, fun h => ?_⟩
  · have hh : handle L s (.executeMethod address base args ret) = (failure, s') := by
      rw [handle_live L hs]; simp [handleMethod, h, hf, callResult]
    rw [callMethod, talk_ask _ _ _ _ (by rw [hh]; trivial), hh]; rfl
  · have hh : handle L s (.executeFunction address args ret) = (failure, s') := by
      rw [handle_live L hs]; simp [handleFunction, h, hf, callResult]
    rw [callFunction, talk_ask _ _ _ _ (by rw [hh]; trivial), hh]; rfl
  · have hh : handle L s (.allocate n) = (failure, s') := by
      rw [handle_live L hs]
      simp only [handleAllocate, h]
    rw [allocateMemory, talk_ask _ _ _ _ (by rw [hh]; trivial), hh]; rfl

/-! ### The evaluator on top of it -/

/-- What a computation returns, if it is `Ok`. -/
def okOf (r : Res α × σ) : Option α := match r.1 with | .ok a => some a | _ => none

/-- The evaluator's view of the process (`Eval.World`) when its events go to the debugger `L`; what comes from the debug
information stays. -/
def over (L : Lldb σ) (W : Eval.World σ) : Eval.World σ :=
  { W with
    target := fun s => { W.target s with read := fun a n => okOf (talk L (readMemory a n) s) }
    frame := fun s => okOf (talk L getPc s)
    execute := fun e s => match e with
      | .executeMethod address base args ret => let r := talk L (callMethod address base args ret) s; (okOf r, r.2)
      | .executeFunction address args ret => let r := talk L (callFunction address args ret) s; (okOf r, r.2)
      | _ => (none, s)
    remote :=
      { alloc := fun n s => let r := talk L (allocateMemory n) s; (okOf r, r.2)
        write := fun a d s => let r := talk L (writeMemory a d) s; (okOf r, r.2)
        read := fun a n s => okOf (talk L (readMemory a n) s)
        lossy := W.remote.lossy } }

theorem read_over (L : Lldb σ) {mem : σ → Mem} (hL : ReadsMemory L mem) {s : σ} (hs : Live L s) (a n : Nat) (hn : 0 < n) :
    okOf (talk L (readMemory a n) s) = (mem s).slice a n := by
  rw [C77_read L hL hs a n hn]
  cases (mem s).slice a n <;> rfl

theorem read_over' (L : Lldb σ) {mem : σ → Mem} (hL : ReadsMemory L mem) (h0 : ReadsNothing L) {s : σ} (hs : Live L s) (a n : Nat) :
    okOf (talk L (readMemory a n) s) = (mem s).slice a n := by
  cases n with
  | zero =>
    have hh : handle L s (.readMemory a 0) = (.memory [], s) := by
      rw [handle_live L hs]; simp [handleRead, h0 s a]
    rw [readMemory, talk_ask _ _ _ _ (by rw [hh]; trivial), hh]; rfl
  | succ n => exact read_over L hL hs a (n + 1) (by omega)

/-- C77: through the debugger, the evaluator works on the memory of the process (the assumption of C76, C24 and the other
properties about reading), if the debugger answers reads of no bytes. -/
theorem C77_target_partial (L : Lldb σ) (W : Eval.World σ) {mem : σ → Mem} (hL : ReadsMemory L mem) (h0 : ReadsNothing L) {s : σ}
    (hs : Live L s) : ((over L W).target s).Reads (mem s) :=
  fun a n => read_over' L hL h0 hs a n

/-- C77: through the debugger, the strings the evaluator makes are made in the memory of the process (the assumption of
C31), if there is always a process. -/
theorem C77_remote_partial (L : Lldb σ) (W : Eval.World σ) {mem : σ → Mem} {owned : σ → Nat → Prop} (hL : ReadsMemory L mem)
    (h0 : ReadsNothing L) (hw : WritesMemory L mem) (ha : Allocates L mem owned)
    (hown : ∀ s a d s', L.write s a d = (.done d.length true, s') → ∀ x, owned s' x ↔ owned s x) (hs : ∀ s, Live L s) :
    (over L W).remote.Backed mem owned where
  alloc_block := by
    intro n s a s' h
    simp only [over, okOf] at h
    cases ht : talk L (allocateMemory n) s with
    | mk r s1 =>
      rw [ht] at h
      cases r <;> simp at h
      obtain ⟨rfl, rfl⟩ := h
      simpa [u64Max1] using C77_allocated L ha (hs s) ht
  write_effect := by
    intro a d s s' h
    simp only [over, okOf] at h
    cases ht : talk L (writeMemory a d) s with
    | mk r s1 =>
      rw [ht] at h
      cases r <;> simp at h
      subst h
      refine ⟨C77_written L hw (hs s) ht, ?_⟩
      have hfit : answerFits (handle L s (.write a d)).1 := by
        rw [handle_live L (hs s)]; simp only [handleWrite]; split <;> [(simp only; split) ; skip] <;> trivial
      rw [writeMemory, talk_ask _ _ _ _ hfit, handle_live L (hs s)] at ht
      simp only [handleWrite] at ht
      cases hx : L.write s a d with
      | mk o s2 =>
        rw [hx] at ht
        cases o with
        | raised => simp [failure, talk] at ht
        | done k ok =>
          cases ok with
          | false => simp [failure, talk] at ht
          | true =>
            by_cases hk : k = d.length
            · simp only [hk, if_true, talk, Prod.mk.injEq, true_and] at ht
              subst hk
              rw [← ht]
              exact hown _ _ _ _ hx
            · simp [hk, failure, talk] at ht
  write_mapped := by
    intro a d s h
    obtain ⟨s', hs'⟩ := C77_writes L hw (hs s) h
    exact ⟨s', by simp [over, okOf, hs']⟩
  read_slice := fun a n s => read_over' L hL h0 (hs s) a n


/-! ### Where it ends -/

/-- LLDB as its Python interface is: a read of no bytes is refused (`ValueError: Positive integer expected`). -/
def RefusesNothing (L : Lldb σ) : Prop := ∀ s a, L.read s a 0 = .raised

/-- The claim is false of empty strings: their text is read although there is nothing to read, which LLDB refuses. A variable
holding an empty `String` cannot be shown, whatever else the process holds. -/
theorem C77_empty_string_fails (L : Lldb σ) (W : Eval.World σ) {mem : σ → Mem} (hL : ReadsMemory L mem) (hr : RefusesNothing L)
    {s : σ} (hs : Live L s) {f : Frame} (hf : Selected L s f) {x : Str} {a data lenOff dataOff capOff : Nat} {loc : Option Nat} {et : Layout.TypeDef}
    (hv : W.variableAt s f.pc x = .ok (some (some (a, .mk loc (.string lenOff dataOff capOff et)))))
    (hstack : 0 < W.stack)
    (hlen : (mem s).HoldsNat (a + lenOff) 8 0) (hdata : (mem s).HoldsNat (a + dataOff) 8 data)
    (h1 : a + lenOff < u64Max1) (h2 : a + dataOff < u64Max1) :
    (Eval.evaluate (over L W) (.var x) (Eval.St.new s)).1 = .err := by
  have hfr : (over L W).frame s = some f.pc := by simp [over, C77_pc L hs hf, okOf]
  have hp : Eval.toRef (over L W) (.var x) (Eval.St.new s) = (.ok (a, .mk loc (.string lenOff dataOff capOff et)), ⟨some f.pc, [], s⟩) := by
    simp only [Eval.toRef, Eval.variableRef, Eval.Ev.bind, Eval.getPc, Eval.St.new, hfr, Eval.Ev.reading, Eval.Ev.lift]
    have : (over L W).variableAt s f.pc x = W.variableAt s f.pc x := rfl
    rw [this, hv]
  rw [Shown.evaluate_place _ _ _ _ _ hp]
  have hrd : ∀ b n, 0 < n → ((over L W).target s).read b n = (mem s).slice b n := fun b n hn => read_over L hL hs b n hn
  have h8 : ∀ b v, (mem s).HoldsNat b 8 v → ((over L W).target s).readE b 8 = .ok (encNat 8 v) := by
    intro b v hh
    unfold Target.readE
    rw [hrd b 8 (by omega), ((mem s).slice_eq_some b 8 _).2 ⟨encNat_length 8 v, ((mem s).holdsBytes_encNat b 8 v).2 hh.2⟩]
    rfl
  have hval : ∀ v, v < 256 ^ 8 → leNat (encNat 8 v) = v := fun v hv => by rw [leNat_encNat, Nat.mod_eq_of_lt hv]
  have hrefuse : ((over L W).target s).readE data 0 = .err := by
    have hh : handle L s (.readMemory data 0) = (failure, s) := by
      rw [handle_live L hs]; simp [handleRead, hr s data]
    have : talk L (readMemory data 0) s = (.err, s) := by
      rw [readMemory, talk_ask _ _ _ _ (by rw [hh]; trivial), hh]; rfl
    unfold Target.readE
    show Res.ofOption (okOf (talk L (readMemory data 0) s)) = _
    rw [this]; rfl
  have hl : ((over L W).target s).readLen (a + lenOff) = .ok 0 := by
    simp [Target.readLen, Target.readAddress, h8 _ _ hlen, encNat_length, hval 0 hlen.1]
  have hd : ((over L W).target s).readAddress (a + dataOff) = .ok data := by
    simp [Target.readAddress, h8 _ _ hdata, encNat_length, hval data hdata.1]
  have hst : (over L W).stack = W.stack := rfl
  simp only [Eval.pointerToResult, Eval.Ev.reading, hst]
  cases hk : W.stack with
  | zero => omega
  | succ k =>
    have : readMem ((over L W).target s) (k + 1) a (.mk loc (.string lenOff dataOff capOff et)) = .err := by
      simp only [readMem, readLayout, addU_ok h1, addU_ok h2, Res.bind_ok, hl, hd, hrefuse, Res.bind_err]
    rw [this]; rfl


/-! ### A debugger -/

/-- A process: its memory, and the end of what `malloc` has given out. -/
structure Toy where
  mem : Mem
  free : Nat

/-- Memory after allocating `n` bytes at `a`. -/
def grow (m : Mem) (a n : Nat) : Mem := fun z => if a ≤ z ∧ z < a + n then some 0 else m z

/-- A debugger for it, stopped at 4096 with a variable `x`; it evaluates calls of `malloc` only. -/
noncomputable def toy : Lldb Toy where
  target := fun _ => true
  process := fun _ => true
  thread := fun _ => some ⟨1, none, some ⟨4096, 8000, 8100, [[⟨chars! "rax", [1, 0, 0, 0, 0, 0, 0, 0]⟩]],
    fun n => if n = chars! "x" then some (some (chars! "u8")) else none⟩⟩
  mainModule := fun _ => some 4096
  read := fun s a n => match s.mem.slice a n with
    | some bs => .done (some bs) true
    | none => .done none false
  write := fun s a d => match s.mem.slice a d.length with
    | some _ => (.done d.length true, ⟨s.mem.put a d, s.free⟩)
    | none => (.done 0 false, s)
  evaluate := fun s t =>
    open Classical in
    if h : ∃ n, t = chars! "(void*)malloc(" ++ Layout.natStr n ++ chars! ")" then
      if s.free + h.choose < 2 ^ 64 then
        (.value true false s.free none none none none, ⟨grow s.mem s.free h.choose, s.free + h.choose⟩)
      else (.raised, s)
    else (.raised, s)

/-- It meets all that is assumed of a debugger. -/
theorem toy_ok : (∀ s, Live toy s) ∧ ReadsMemory toy Toy.mem ∧ ReadsNothing toy ∧ WritesMemory toy Toy.mem ∧
    Allocates toy Toy.mem (fun s x => x < s.free) := by
  refine ⟨fun s => ⟨rfl, rfl⟩, ?_, fun s a => rfl, ⟨?_, ?_⟩, ?_⟩
  · intro s a n _
    cases h : s.mem.slice a n <;> simp [toy, h]
  · intro s a d s' h
    simp only [toy] at h
    cases hs : s.mem.slice a d.length with
    | some _ => rw [hs] at h; cases h; rfl
    | none => rw [hs] at h; simp at h
  · intro s a d h
    obtain ⟨bs, hb⟩ := s.mem.slice_isSome a d.length h
    simp [toy, hb]
  · intro s n a x y t u s' h
    have he : ∃ k, chars! "(void*)malloc(" ++ Layout.natStr n ++ chars! ")" = chars! "(void*)malloc(" ++ Layout.natStr k ++ chars! ")" := ⟨n, rfl⟩
    have hc : he.choose = n := by
      have := he.choose_spec
      exact (Calls.natStr_inj (List.append_cancel_left (List.append_cancel_right this))).symm
    simp only [toy, dif_pos he] at h
    split at h
    · rename_i hlt
      rw [hc] at h hlt
      cases h
      refine ⟨hlt, ?_, ?_, ?_, ?_⟩
      · intro i hi
        show (grow _ _ _ _).isSome
        rw [grow, if_pos (by omega)]; rfl
      · intro z hz
        show grow _ _ _ _ = _
        rw [grow, if_neg (by omega)]
      · intro z h1 h2; show ¬ z < s.free; omega
      · intro z; show z < s.free + n ↔ z < s.free ∨ _; omega
    · cases h

/-- Through the client and the connection, the server reads what this process holds … -/
example (s : Toy) (h : s.mem.HoldsBytes 100 [1, 2, 3]) : talk toy (readMemory 100 3) s = (.ok [1, 2, 3], s) := by
  rw [C77_read toy toy_ok.2.1 (toy_ok.1 s) 100 3 (by omega), (s.mem.slice_eq_some 100 3 [1, 2, 3]).2 ⟨rfl, h⟩]

/-- … and knows where it is stopped and which variables there are. -/
example (s : Toy) : talk toy getPc s = (.ok 4096, s) ∧ (∃ b, talk toy (isVariable (chars! "x")) s = (.ok b, s) ∧ b = true) ∧
    ∃ b, talk toy (isVariable (chars! "y")) s = (.ok b, s) ∧ b = false := by
  have hsel : Selected toy s ⟨4096, 8000, 8100, [[⟨chars! "rax", [1, 0, 0, 0, 0, 0, 0, 0]⟩]],
      fun n => if n = chars! "x" then some (some (chars! "u8")) else none⟩ := ⟨⟨_, rfl, rfl⟩, by decide, by decide, by decide⟩
  refine ⟨C77_pc toy (toy_ok.1 s) hsel, ?_, ?_⟩
  · obtain ⟨b, h1, h2⟩ := C77_variable toy (toy_ok.1 s) hsel (chars! "x")
    exact ⟨b, h1, h2.2 ⟨_, rfl⟩⟩
  · obtain ⟨b, h1, h2⟩ := C77_variable toy (toy_ok.1 s) hsel (chars! "y")
    refine ⟨b, h1, ?_⟩
    cases b with
    | false => rfl
    | true => obtain ⟨t, ht⟩ := h2.1 rfl; simp at ht

/-- A debugger that reads only three bytes and calls that a success: the client passes them on as if they were all, so the
server gets three bytes for the eight it asked for (and panics if they were to be a number, `C43_short_read_fails`). -/
theorem C77_short_read_fails : ∃ (L : Lldb Unit), Live L () ∧ L.read () 100 8 = .done (some [1, 2, 3]) true ∧
    talk L (readMemory 100 8) () = (.ok [1, 2, 3], ()) := by
  let L : Lldb Unit := ⟨fun _ => true, fun _ => true, fun _ => none, fun _ => none, fun _ _ _ => .done (some [1, 2, 3]) true,
    fun _ _ _ => (.raised, ()), fun _ _ => (.raised, ())⟩
  have hs : Live L () := ⟨rfl, rfl⟩
  have hh : handle L () (.readMemory 100 8) = (.memory [1, 2, 3], ()) := rfl
  exact ⟨L, hs, rfl, by rw [readMemory, talk_ask _ _ _ _ (by rw [hh]; trivial), hh]; rfl⟩

/-- `malloc` that has no memory left returns a null pointer; the client reports it as a block at address 0. -/
theorem C77_out_of_memory_fails (L : Lldb σ) {s s' : σ} (hs : Live L s) {n : Nat} {x y : Option Nat} {t u : Option Str}
    (h : L.evaluate s (mallocExpr n) = (.value true false 0 x y t u, s')) : talk L (allocateMemory n) s = (.ok 0, s') := by
  have hh : handle L s (.allocate n) = (.allocated 0, s') := by
    rw [handle_live L hs]; simp [handleAllocate, h]
  rw [allocateMemory, talk_ask _ _ _ _ (by rw [hh]; show (0 : Nat) < 2 ^ 64; decide), hh]; rfl

/-- An expression of the user's that failed (`fail`) is answered as if it had a result, the empty text, because only
`IsValid()` is looked at. -/
theorem C77_expression_fails (L : Lldb σ) {s s' : σ} (hs : Live L s) {e : Str} {v : Nat} {x y : Option Nat}
    (h : L.evaluate s e = (.value true true v x y none none, s')) : exchange L s (.evaluateLldb e) = (some (.expression []), s') := by
  have hh : handle L s (.evaluateLldb e) = (.expression [], s') := by
    rw [handle_live L hs]; simp [handleEvaluate, h, shownText]
  rw [C77_answered L s _ (by rw [hh]; trivial), hh]

end Rudy.Remote
