import Verif.Model.Client
import Verif.Props.Server
/-
Invariants of a connection.
-/
namespace Rudy.Client
open Rudy Rudy.Server

/-- The rest of a computation after the client has answered these events. -/
inductive After {α : Type} : Conv α → List Exchange → Conv α → Prop where
  | here (c : Conv α) : After c [] c
  | next {e : Event} {k : Option Answer → Conv α} {a : Option Answer} {es : List Exchange} {c : Conv α} :
      After (k a) es c → After (.ask e k) ((e, a) :: es) c

theorem After.snoc {α : Type} {c c' : Conv α} {es : List Exchange} {e : Event} {k : Option Answer → Conv α} (h : After c es c')
    (he : c' = .ask e k) (a : Option Answer) : After c (es ++ [(e, a)]) (k a) := by
  induction h with
  | here c => rw [he]; exact .next (.here _)
  | next h ih => exact .next (ih he)

theorem After.ends {α : Type} {P : α → Prop} {c c' : Conv α} {es : List Exchange} (h : After c es c') (hc : c.Ends P) : c'.Ends P := by
  induction h with
  | here c => exact hc
  | next h ih =>
    cases hc with
    | ask e hk => exact ih (hk _)

theorem After.safe {α : Type} {c c' : Conv α} {es : List Exchange} (h : After c es c') (hc : c.Safe) : c'.Safe := by
  induction h with
  | here c => exact hc
  | next h ih =>
    cases hc with
    | ask e hk => exact ih (hk _)

theorem After.inj {α : Type} {c c' c'' : Conv α} {es : List Exchange} (h : After c es c') (h' : After c es c'') : c' = c'' := by
  induction h with
  | here c => cases h'; rfl
  | next h ih => cases h' with
    | next h' => exact ih h'

/-- Where the computation of a command of the session can be. -/
def At (B : Backend) (c : Call) (r : Conv ServerMsg) : Prop := After (handleCommand B c.cmd c.args) c.exchanges r

/-- Why the server can be gone. -/
inductive Cause (load : Str → Option Backend) (path : Str) (log : List Entry) (call : Option Call) : Prop where
  | refused : load path = none → Cause load path log call
  | shutdown {e : Entry} : e ∈ log → e.call.cmd = chars! "shutdown" → Cause load path log call
  | brokenNow {B : Backend} {c : Call} : load path = some B → call = some c → (At B c .err ∨ At B c .panic) → Cause load path log call
  | brokenBefore {B : Backend} {e : Entry} : load path = some B → e ∈ log → (At B e.call .err ∨ At B e.call .panic) → Cause load path log call

/-- The states of a connection. -/
inductive Shape (load : Str → Option Backend) (path : Str) (log : List Entry) : List Line → List ServerMsg → Srv → Option Call → Prop where
  | start0 : Shape load path log [.msg (.init path)] [] .start none
  | start1 (cmd : Str) (args : List Str) :
      Shape load path log [.msg (.init path), .msg (.command cmd args)] [] .start (some ⟨cmd, args, []⟩)
  | idle {B : Backend} : load path = some B → Shape load path log [] [] (.ready B) none
  | asked {B : Backend} (cmd : Str) (args : List Str) : load path = some B →
      Shape load path log [.msg (.command cmd args)] [] (.ready B) (some ⟨cmd, args, []⟩)
  | run {B : Backend} {c : Call} {r : Conv ServerMsg} : load path = some B → At B c r →
      Shape load path log [] [] (.running B c.cmd r) (some c)
  | wait1 {B : Backend} {c : Call} {e : Event} {k : Option Answer → Conv ServerMsg} : load path = some B → At B c (.ask e k) →
      Shape load path log [] [.event e] (.waiting B c.cmd k) (some c)
  | wait2 {B : Backend} {c : Call} {e : Event} {k : Option Answer → Conv ServerMsg} {l : Line} (a : Option Answer) : load path = some B →
      At B c (.ask e k) → l = answerLine a →
      Shape load path log [l] [] (.waiting B c.cmd k) (some { c with exchanges := c.exchanges ++ [(e, a)] })
  | reply {B : Backend} {c : Call} {m : ServerMsg} : load path = some B → At B c (.ok m) → c.cmd ≠ chars! "shutdown" →
      Shape load path log [] [m] (.ready B) (some c)
  | bye {B : Backend} {c : Call} {m : ServerMsg} : load path = some B → At B c (.ok m) → c.cmd = chars! "shutdown" →
      Shape load path log [] [m] .stopped (some c)
  | gone {ls : List Line} {call : Option Call} : Cause load path log call → Shape load path log ls [] .stopped call

/-- What the log says is so. -/
def LogOk (load : Str → Option Backend) (path : Str) (s : Sys) : Prop :=
  ∀ e ∈ s.log, match e.outcome with
    | some m => ∃ B, load path = some B ∧ At B e.call (.ok m)
    | none => s.srv = .stopped ∧ Cause load path s.log s.call

def Inv (load : Str → Option Backend) (path : Str) (s : Sys) : Prop :=
  Shape load path s.log s.toServer s.toClient s.srv s.call ∧ LogOk load path s

theorem answerOf_answerLine (a : Option Answer) : answerOf (answerLine a) = a := by cases a <;> rfl

theorem at_final {B : Backend} {c : Call} {m : ServerMsg} (h : At B c (.ok m)) : isFinal m = true := by
  have := h.ends (ends_handleCommand B c.cmd c.args)
  cases this with
  | ok h => cases m <;> first | rfl | exact h.elim

theorem Cause.mono {load : Str → Option Backend} {path : Str} {log log' : List Entry} {call call' : Option Call}
    (h : Cause load path log call) (hl : ∀ e ∈ log, e ∈ log')
    (hc : ∀ c, call = some c → call' = some c ∨ ∃ e ∈ log', e.call = c) : Cause load path log' call' := by
  cases h with
  | refused h => exact .refused h
  | shutdown h1 h2 => exact .shutdown (hl _ h1) h2
  | brokenBefore h1 h2 h3 => exact .brokenBefore h1 (hl _ h2) h3
  | brokenNow h1 h2 h3 =>
    rcases hc _ h2 with h | ⟨e, he, rfl⟩
    · exact .brokenNow h1 h h3
    · exact .brokenBefore h1 he h3

theorem inv_initial (load : Str → Option Backend) (path : Str) : Inv load path (initial path) :=
  ⟨.start0, fun e he => by simp [initial] at he⟩

theorem inv_user {load : Str → Option Backend} {path : Str} {s s' : Sys} (h : Inv load path s) (hu : User s s') : Inv load path s' := by
  obtain ⟨hs, hl⟩ := h
  cases hu with
  | give cmd args hc =>
    obtain ⟨ts, tc, srv, call, log, tr⟩ := s
    simp only at hc hs hl
    subst hc
    constructor
    · simp only
      cases hs with
      | start0 => exact .start1 cmd args
      | idle hB => exact .asked cmd args hB
      | gone hg => exact .gone (hg.mono (fun e he => he) (fun c hc => by cases hc))
    · intro e he
      have := hl e he
      cases ho : e.outcome with
      | none =>
        rw [ho] at this
        exact ⟨this.1, this.2.mono (fun e he => he) (fun c hc => by cases hc)⟩
      | some m => rw [ho] at this; exact this

/-- A log without commands that were cut off needs no reason. -/
theorem logOk_of_alive {load : Str → Option Backend} {path : Str} {s : Sys} (h : LogOk load path s) (ha : s.srv ≠ .stopped) :
    ∀ e ∈ s.log, ∃ m, e.outcome = some m ∧ ∃ B, load path = some B ∧ At B e.call (.ok m) := by
  intro e he
  have := h e he
  cases ho : e.outcome with
  | none => rw [ho] at this; exact absurd this.1 ha
  | some m => rw [ho] at this; exact ⟨m, rfl, this⟩

theorem logOk_same {load : Str → Option Backend} {path : Str} {s s' : Sys} (h : LogOk load path s) (ha : s.srv ≠ .stopped)
    (hl : s'.log = s.log) : LogOk load path s' := by
  intro e he
  rw [hl] at he
  obtain ⟨m, h1, h2⟩ := logOk_of_alive h ha e he
  rw [h1]
  exact h2

theorem inv_internal {load : Str → Option Backend} {path : Str} {s s' : Sys} (h : Inv load path s) (hi : Internal load s s') :
    Inv load path s' := by
  obtain ⟨hs, hl⟩ := h
  obtain ⟨ts, tc, srv, call, log, tr⟩ := s
  simp only at hs
  cases hi with
  | event a hc ht =>
    simp only at hc ht
    subst hc ht
    cases hs with
    | wait1 hB hat => exact ⟨.wait2 a hB hat rfl, logOk_same hl (by simp) rfl⟩
    | reply hB hat hn => exact absurd (at_final hat) (by simp [isFinal])
    | bye hB hat hn => exact absurd (at_final hat) (by simp [isFinal])
  | @final m r c hc ht hf =>
    simp only at hc ht
    subst hc ht
    cases hs with
    | wait1 hB hat => exact absurd hf (by simp [isFinal])
    | reply hB hat hn =>
      refine ⟨.idle hB, ?_⟩
      intro e he
      rcases List.mem_append.mp he with he | he
      · obtain ⟨m, h1, h2⟩ := logOk_of_alive hl (by simp) e he
        rw [h1]; exact h2
      · simp at he; subst he; exact ⟨_, hB, hat⟩
    | bye hB hat hn =>
      have hg : ∀ call, Cause load path (log ++ [⟨c, some m⟩]) call := fun call =>
        .shutdown (e := ⟨c, some m⟩) (List.mem_append_right _ (List.mem_singleton.mpr rfl)) hn
      refine ⟨.gone (hg _), ?_⟩
      intro e he
      rcases List.mem_append.mp he with he | he
      · have := hl e he
        cases ho : e.outcome with
        | none => exact ⟨rfl, hg _⟩
        | some m => rw [ho] at this; exact this
      · simp at he; subst he; exact ⟨_, hB, hat⟩
  | @closed c hc ht hd =>
    simp only at hc ht hd
    subst hc ht hd
    cases hs with
    | gone hg =>
      have hg' : Cause load path (log ++ [⟨c, none⟩]) none :=
        hg.mono (fun e he => List.mem_append_left _ he) (fun c' hc' => by
          cases hc'; exact .inr ⟨_, List.mem_append_right _ (List.mem_singleton.mpr rfl), rfl⟩)
      refine ⟨.gone hg', ?_⟩
      intro e he
      rcases List.mem_append.mp he with he | he
      · have := hl e he
        cases ho : e.outcome with
        | none => exact ⟨rfl, hg'⟩
        | some m => rw [ho] at this; exact this
      · simp at he; subst he; exact ⟨rfl, hg'⟩
  | opened hd ht hB =>
    simp only at hd ht
    subst hd ht
    cases hs with
    | start0 => exact ⟨.idle hB, logOk_same hl (by simp) rfl⟩
    | start1 cmd args => exact ⟨.asked cmd args hB, logOk_same hl (by simp) rfl⟩
  | refused hd ht hB =>
    simp only at hd ht
    subst hd ht
    cases hs with
    | start0 => exact ⟨.gone (.refused hB), logOk_same hl (by simp) rfl⟩
    | start1 cmd args => exact ⟨.gone (.refused hB), logOk_same hl (by simp) rfl⟩
  | shutdownFirst hd ht hc =>
    simp only at hd ht
    subst hd ht
    cases hs
  | badFirst hd ht h1 h2 =>
    simp only at hd ht
    subst hd ht
    cases hs with
    | start0 => exact absurd rfl (h1 _)
    | start1 cmd args => exact absurd rfl (h1 _)
  | command hd ht =>
    simp only at hd ht
    subst hd ht
    cases hs with
    | asked _ _ hB => exact ⟨.run (c := ⟨_, _, []⟩) hB (.here _), logOk_same hl (by simp) rfl⟩
  | unreadable hd ht =>
    simp only at hd ht
    subst hd ht
    cases hs
  | misplaced hd ht hm =>
    simp only at hd ht
    subst hd ht
    cases hs with
    | asked cmd args hB => exact absurd rfl (hm _ _)
  | asks hd =>
    simp only at hd
    subst hd
    cases hs with
    | run hB hat => exact ⟨.wait1 hB hat, logOk_same hl (by simp) rfl⟩
  | answered hd ht =>
    simp only at hd ht
    subst hd ht
    cases hs with
    | @wait2 _ c e _ _ a hB hat hla =>
      refine ⟨?_, logOk_same hl (by simp) rfl⟩
      simp only [hla, answerOf_answerLine]
      exact .run (c := { c with exchanges := c.exchanges ++ [(e, a)] }) hB (After.snoc hat rfl a)
  | responds hd hn =>
    simp only at hd
    subst hd
    cases hs with
    | run hB hat => exact ⟨.reply hB hat hn, logOk_same hl (by simp) rfl⟩
  | exits hd hn =>
    simp only at hd
    subst hd
    cases hs with
    | run hB hat => exact ⟨.bye hB hat hn, logOk_same hl (by simp) rfl⟩
  | fails hd =>
    simp only at hd
    subst hd
    cases hs with
    | run hB hat => exact ⟨.gone (.brokenNow hB rfl (.inl hat)), logOk_same hl (by simp) rfl⟩
  | panics hd =>
    simp only at hd
    subst hd
    cases hs with
    | run hB hat => exact ⟨.gone (.brokenNow hB rfl (.inr hat)), logOk_same hl (by simp) rfl⟩

theorem inv_reach {load : Str → Option Backend} {path : Str} {s : Sys} (h : Reach load path s) : Inv load path s := by
  induction h with
  | init => exact inv_initial load path
  | user _ hu ih => exact inv_user ih hu
  | step _ hi ih => exact inv_internal ih hi

/-! ### The server's side alone -/

/-- What the server will read and write from where it is, on the lines it will get. -/
def future (load : Str → Option Backend) : Srv → List Line → List Server.Step
  | .start, ls => (session load ls).1
  | .ready B, ls => (sessionLoop B (ls.length + 1) ls).1
  | .running B cmd c, ls =>
    match (runConv c ls).2.1 with
    | .ok m => (runConv c ls).1 ++ .sent m ::
        (if cmd = chars! "shutdown" then [] else (sessionLoop B ((runConv c ls).2.2.length + 1) (runConv c ls).2.2).1)
    | _ => (runConv c ls).1
  | .waiting B cmd k, [] => future load (.running B cmd (k none)) []
  | .waiting B cmd k, l :: ls => .got l :: future load (.running B cmd (k (answerOf l))) ls
  | .stopped, _ => []
termination_by s => match s with | .waiting _ _ _ => 1 | _ => 0

theorem future_ask (load : Str → Option Backend) (B : Backend) (cmd : Str) (e : Event) (k : Option Answer → Conv ServerMsg) (ls : List Line) :
    future load (.running B cmd (.ask e k)) ls = .sent (.event e) :: future load (.waiting B cmd k) ls := by
  cases ls with
  | nil =>
    rw [future, future, future]
    simp only [runConv]
    split <;> rfl
  | cons l ls =>
    rw [future, future, future]
    have hr : runConv (.ask e k) (l :: ls) =
        (.sent (.event e) :: .got l :: (runConv (k (answerOf l)) ls).1, (runConv (k (answerOf l)) ls).2) := by
      cases l with
      | bad => rfl
      | msg m => cases m <;> rfl
    rw [hr]
    simp only
    split <;> rfl

theorem future_command (load : Str → Option Backend) (B : Backend) (cmd : Str) (args : List Str) (ls : List Line) :
    future load (.ready B) (.msg (.command cmd args) :: ls) =
      .got (.msg (.command cmd args)) :: future load (.running B cmd (handleCommand B cmd args)) ls := by
  rw [future, future, sessionLoop]
  simp only
  have hlen := runConv_length (handleCommand B cmd args) ls
  cases hr : (runConv (handleCommand B cmd args) ls).2.1 with
  | panic => rfl
  | err => rfl
  | ok m =>
    simp only
    split
    · rfl
    · simp only [List.length_cons]
      rw [loop_fuel B (ls.length + 1) ((runConv (handleCommand B cmd args) ls).2.2.length + 1) _ (by omega) (by omega)]

/-- What the server has read and written so far, and what it will. -/
def Follows (load : Str → Option Backend) (s : Sys) : Prop :=
  ∀ ls, (session load (consumed s.trace ++ ls)).1 = s.trace ++ future load s.srv ls

theorem follows_step {load : Str → Option Backend} {s : Sys} (h : Follows load s) {srv' : Srv} {new : List Server.Step}
    (hf : ∀ ls, future load s.srv (consumed new ++ ls) = new ++ future load srv' ls) {ts tc call log} :
    Follows load ⟨ts, tc, srv', call, log, s.trace ++ new⟩ := by
  intro ls
  simp only
  rw [consumed_append, List.append_assoc, h, hf, List.append_assoc]

theorem follows_internal {load : Str → Option Backend} {s s' : Sys} (h : Follows load s) (hi : Internal load s s') : Follows load s' := by
  cases hi with
  | event a hc ht => exact h
  | final hc ht hf => exact h
  | closed hc ht hd => exact h
  | opened hd ht hB =>
    refine follows_step h fun ls => ?_
    rw [hd, future, future]
    simp only [consumed, List.cons_append, List.nil_append, session, hB]
  | refused hd ht hB =>
    refine follows_step h fun ls => ?_
    rw [hd, future, future]
    simp only [consumed, List.cons_append, List.nil_append, session, hB]
  | shutdownFirst hd ht hc =>
    refine follows_step h fun ls => ?_
    rw [hd, future, future]
    simp only [consumed, List.cons_append, List.nil_append, session]
    rw [if_pos hc]
  | @badFirst l r hd ht h1 h2 =>
    refine follows_step h fun ls => ?_
    rw [hd, future, future]
    simp only [consumed, List.cons_append, List.nil_append]
    cases l with
    | bad => rfl
    | msg m =>
      cases m with
      | init p => exact absurd rfl (h1 p)
      | answer a => rfl
      | command cmd args =>
        simp only [session]
        rw [if_neg]
        rintro rfl
        exact h2 args rfl
  | command hd ht =>
    refine follows_step h fun ls => ?_
    rw [hd]
    exact future_command load _ _ _ ls
  | unreadable hd ht =>
    refine follows_step h fun ls => ?_
    rw [hd, future, future]
    rfl
  | @misplaced B m r hd ht hm =>
    refine follows_step h fun ls => ?_
    rw [hd, future, future]
    simp only [consumed, List.cons_append, List.nil_append]
    cases m with
    | init p => rfl
    | answer a => rfl
    | command cmd args => exact absurd rfl (hm cmd args)
  | asks hd =>
    refine follows_step h fun ls => ?_
    rw [hd]
    exact future_ask load _ _ _ _ ls
  | answered hd ht =>
    refine follows_step h fun ls => ?_
    rw [hd]
    simp only [consumed, List.cons_append, List.nil_append, future]
  | responds hd hn =>
    refine follows_step h fun ls => ?_
    rw [hd, future, future]
    simp only [consumed, List.nil_append, runConv, if_neg hn, List.singleton_append]
  | exits hd hn =>
    refine follows_step h fun ls => ?_
    rw [hd, future, future]
    simp only [consumed, List.nil_append, runConv, if_pos hn, List.singleton_append]
  | fails hd =>
    have := follows_step h (srv' := .stopped) (new := []) (fun ls => by rw [hd, future, future]; rfl)
      (ts := s.toServer) (tc := s.toClient) (call := s.call) (log := s.log)
    rwa [List.append_nil] at this
  | panics hd =>
    have := follows_step h (srv' := .stopped) (new := []) (fun ls => by rw [hd, future, future]; rfl)
      (ts := s.toServer) (tc := s.toClient) (call := s.call) (log := s.log)
    rwa [List.append_nil] at this

theorem follows_reach {load : Str → Option Backend} {path : Str} {s : Sys} (h : ReachI load path s) : Follows load s := by
  induction h with
  | init => intro ls; simp [initial, consumed, future]
  | user _ hu ih => cases hu; exact ih
  | step _ hi ih => exact follows_internal ih hi
  | stop _ hs ih => cases hs; exact ih

/-! ### Every run of the two sides ends -/

/-- The steps the two sides take by themselves, backwards. -/
def Back (load : Str → Option Backend) (s' s : Sys) : Prop := Internal load s s'

section
variable {load : Str → Option Backend}

theorem acc_idle {log tr} {B : Backend} : Acc (Back load) ⟨[], [], .ready B, none, log, tr⟩ := by
  constructor
  intro s' h
  cases h with
  | event _ h _ => simp at h
  | final h _ _ => simp at h
  | closed h _ _ => simp at h
  | opened h _ _ => simp at h
  | refused h _ _ => simp at h
  | shutdownFirst h _ _ => simp at h
  | badFirst h _ _ _ => simp at h
  | command _ h => simp at h
  | unreadable _ h => simp at h
  | misplaced _ h _ => simp at h
  | asks h => simp at h
  | answered h _ => simp at h
  | responds h _ => simp at h
  | exits h _ => simp at h
  | fails h => simp at h
  | panics h => simp at h

theorem acc_gone0 {ls log tr} : Acc (Back load) ⟨ls, [], .stopped, none, log, tr⟩ := by
  constructor
  intro s' h
  cases h with
  | event _ h _ => simp at h
  | final h _ _ => simp at h
  | closed h _ _ => simp at h
  | opened h _ _ => simp at h
  | refused h _ _ => simp at h
  | shutdownFirst h _ _ => simp at h
  | badFirst h _ _ _ => simp at h
  | command h _ => simp at h
  | unreadable h _ => simp at h
  | misplaced h _ _ => simp at h
  | asks h => simp at h
  | answered h _ => simp at h
  | responds h _ => simp at h
  | exits h _ => simp at h
  | fails h => simp at h
  | panics h => simp at h

theorem acc_gone {ls call log tr} : Acc (Back load) ⟨ls, [], .stopped, call, log, tr⟩ := by
  constructor
  intro s' h
  cases h with
  | event _ _ h => simp at h
  | final _ h _ => simp at h
  | closed _ _ _ => exact acc_gone0
  | opened h _ _ => simp at h
  | refused h _ _ => simp at h
  | shutdownFirst h _ _ => simp at h
  | badFirst h _ _ _ => simp at h
  | command h _ => simp at h
  | unreadable h _ => simp at h
  | misplaced h _ _ => simp at h
  | asks h => simp at h
  | answered h _ => simp at h
  | responds h _ => simp at h
  | exits h _ => simp at h
  | fails h => simp at h
  | panics h => simp at h

theorem acc_bye {m call log tr} (hm : isFinal m = true) : Acc (Back load) ⟨[], [m], .stopped, call, log, tr⟩ := by
  constructor
  intro s' h
  cases h with
  | event _ _ h => simp at h; rw [h.1] at hm; simp [isFinal] at hm
  | final _ h _ => simp only [List.cons.injEq] at h; have hr := h.2; subst hr; exact acc_gone0
  | closed _ h _ => simp at h
  | opened h _ _ => simp at h
  | refused h _ _ => simp at h
  | shutdownFirst h _ _ => simp at h
  | badFirst h _ _ _ => simp at h
  | command h _ => simp at h
  | unreadable h _ => simp at h
  | misplaced h _ _ => simp at h
  | asks h => simp at h
  | answered h _ => simp at h
  | responds h _ => simp at h
  | exits h _ => simp at h
  | fails h => simp at h
  | panics h => simp at h

theorem acc_reply {m B call log tr} (hm : isFinal m = true) : Acc (Back load) ⟨[], [m], .ready B, call, log, tr⟩ := by
  constructor
  intro s' h
  cases h with
  | event _ _ h => simp at h; rw [h.1] at hm; simp [isFinal] at hm
  | final _ h _ => simp only [List.cons.injEq] at h; have hr := h.2; subst hr; exact acc_idle
  | closed _ h _ => simp at h
  | opened h _ _ => simp at h
  | refused h _ _ => simp at h
  | shutdownFirst h _ _ => simp at h
  | badFirst h _ _ _ => simp at h
  | command _ h => simp at h
  | unreadable _ h => simp at h
  | misplaced _ h _ => simp at h
  | asks h => simp at h
  | answered h _ => simp at h
  | responds h _ => simp at h
  | exits h _ => simp at h
  | fails h => simp at h
  | panics h => simp at h

/-- The steps of a computation whose answers are awaited. -/
theorem acc_wait2 {B cmd k l call log tr} (ih : ∀ a call log tr, Acc (Back load) ⟨[], [], .running B cmd (k a), call, log, tr⟩) :
    Acc (Back load) ⟨[l], [], .waiting B cmd k, call, log, tr⟩ := by
  constructor
  intro s' h
  cases h with
  | event _ _ h => simp at h
  | final _ h _ => simp at h
  | closed _ _ h => simp at h
  | opened h _ _ => simp at h
  | refused h _ _ => simp at h
  | shutdownFirst h _ _ => simp at h
  | badFirst h _ _ _ => simp at h
  | command h _ => simp at h
  | unreadable h _ => simp at h
  | misplaced h _ _ => simp at h
  | asks h => simp at h
  | answered h h2 =>
    simp only [Srv.waiting.injEq] at h
    simp only [List.cons.injEq] at h2
    obtain ⟨rfl, rfl, rfl⟩ := h
    obtain ⟨rfl, rfl⟩ := h2
    exact ih _ _ _ _
  | responds h _ => simp at h
  | exits h _ => simp at h
  | fails h => simp at h
  | panics h => simp at h

theorem acc_wait1 {B cmd k e call log tr} (ih : ∀ a call log tr, Acc (Back load) ⟨[], [], .running B cmd (k a), call, log, tr⟩) :
    Acc (Back load) ⟨[], [.event e], .waiting B cmd k, call, log, tr⟩ := by
  constructor
  intro s' h
  cases h with
  | event _ _ h => simp only [List.cons.injEq] at h; have hr := h.2; subst hr; exact acc_wait2 ih
  | final _ h hf => simp at h; rw [← h.1] at hf; simp [isFinal] at hf
  | closed _ _ h => simp at h
  | opened h _ _ => simp at h
  | refused h _ _ => simp at h
  | shutdownFirst h _ _ => simp at h
  | badFirst h _ _ _ => simp at h
  | command h _ => simp at h
  | unreadable h _ => simp at h
  | misplaced h _ _ => simp at h
  | asks h => simp at h
  | answered _ h => simp at h
  | responds h _ => simp at h
  | exits h _ => simp at h
  | fails h => simp at h
  | panics h => simp at h

theorem acc_run {B cmd} (c : Conv ServerMsg) (hc : c.Ends ServerMsg.Terminal) :
    ∀ call log tr, Acc (Back load) ⟨[], [], .running B cmd c, call, log, tr⟩ := by
  induction c with
  | ok m =>
    intro call log tr
    have hm : isFinal m = true := by
      cases hc with
      | ok h => cases m <;> first | rfl | exact h.elim
    constructor
    intro s' h
    cases h with
    | event _ _ h => simp at h
    | final _ h _ => simp at h
    | closed _ _ h => simp at h
    | opened h _ _ => simp at h
    | refused h _ _ => simp at h
    | shutdownFirst h _ _ => simp at h
    | badFirst h _ _ _ => simp at h
    | command h _ => simp at h
    | unreadable h _ => simp at h
    | misplaced h _ _ => simp at h
    | asks h => simp at h
    | answered h _ => simp at h
    | responds h _ =>
      simp only [Srv.running.injEq, Conv.ok.injEq] at h
      obtain ⟨rfl, rfl, rfl⟩ := h
      exact acc_reply hm
    | exits h _ =>
      simp only [Srv.running.injEq, Conv.ok.injEq] at h
      obtain ⟨rfl, rfl, rfl⟩ := h
      exact acc_bye hm
    | fails h => simp at h
    | panics h => simp at h
  | err => cases hc
  | panic =>
    intro call log tr
    constructor
    intro s' h
    cases h with
    | event _ _ h => simp at h
    | final _ h _ => simp at h
    | closed _ _ h => simp at h
    | opened h _ _ => simp at h
    | refused h _ _ => simp at h
    | shutdownFirst h _ _ => simp at h
    | badFirst h _ _ _ => simp at h
    | command h _ => simp at h
    | unreadable h _ => simp at h
    | misplaced h _ _ => simp at h
    | asks h => simp at h
    | answered h _ => simp at h
    | responds h _ => simp at h
    | exits h _ => simp at h
    | fails h => simp at h
    | panics h => exact acc_gone
  | ask e k ih =>
    intro call log tr
    cases hc with
    | ask _ hk =>
      constructor
      intro s' h
      cases h with
      | event _ _ h => simp at h
      | final _ h _ => simp at h
      | closed _ _ h => simp at h
      | opened h _ _ => simp at h
      | refused h _ _ => simp at h
      | shutdownFirst h _ _ => simp at h
      | badFirst h _ _ _ => simp at h
      | command h _ => simp at h
      | unreadable h _ => simp at h
      | misplaced h _ _ => simp at h
      | asks h =>
        simp only [Srv.running.injEq, Conv.ask.injEq] at h
        obtain ⟨rfl, rfl, rfl, rfl⟩ := h
        exact acc_wait1 fun a => ih a (hk a)
      | answered h _ => simp at h
      | responds h _ => simp at h
      | exits h _ => simp at h
      | fails h => simp at h
      | panics h => simp at h

theorem acc_asked {B cmd args call log tr} : Acc (Back load) ⟨[.msg (.command cmd args)], [], .ready B, call, log, tr⟩ := by
  constructor
  intro s' h
  cases h with
  | event _ _ h => simp at h
  | final _ h _ => simp at h
  | closed _ _ h => simp at h
  | opened h _ _ => simp at h
  | refused h _ _ => simp at h
  | shutdownFirst h _ _ => simp at h
  | badFirst h _ _ _ => simp at h
  | command h h2 =>
    simp only [Srv.ready.injEq] at h
    simp only [List.cons.injEq, Line.msg.injEq, ClientMsg.command.injEq] at h2
    obtain ⟨⟨rfl, rfl⟩, rfl⟩ := h2
    subst h
    exact acc_run _ (ends_handleCommand _ _ _) _ _ _
  | unreadable _ h => simp at h
  | misplaced _ h hm => simp at h; exact absurd h.1.symm (hm _ _)
  | asks h => simp at h
  | answered h _ => simp at h
  | responds h _ => simp at h
  | exits h _ => simp at h
  | fails h => simp at h
  | panics h => simp at h

theorem acc_inv {path : Str} {s : Sys} (h : Inv load path s) : Acc (Back load) s := by
  obtain ⟨hs, -⟩ := h
  obtain ⟨ts, tc, srv, call, log, tr⟩ := s
  simp only at hs
  cases hs with
  | start0 =>
    constructor
    intro s' h
    cases h with
    | event _ _ h => simp at h
    | final _ h _ => simp at h
    | closed _ _ h => simp at h
    | opened _ h _ => simp only [List.cons.injEq] at h; have hr := h.2; subst hr; exact acc_idle
    | refused _ h _ => exact acc_gone
    | shutdownFirst _ h _ => simp at h
    | badFirst _ h h2 _ => simp at h; exact absurd h.1.symm (h2 _)
    | command h _ => simp at h
    | unreadable h _ => simp at h
    | misplaced h _ _ => simp at h
    | asks h => simp at h
    | answered h _ => simp at h
    | responds h _ => simp at h
    | exits h _ => simp at h
    | fails h => simp at h
    | panics h => simp at h
  | start1 cmd args =>
    constructor
    intro s' h
    cases h with
    | event _ _ h => simp at h
    | final _ h _ => simp at h
    | closed _ _ h => simp at h
    | opened _ h _ => simp only [List.cons.injEq] at h; have hr := h.2; subst hr; exact acc_asked
    | refused _ h _ => exact acc_gone
    | shutdownFirst _ h _ => simp at h
    | badFirst _ h h2 _ => simp at h; exact absurd h.1.symm (h2 _)
    | command h _ => simp at h
    | unreadable h _ => simp at h
    | misplaced h _ _ => simp at h
    | asks h => simp at h
    | answered h _ => simp at h
    | responds h _ => simp at h
    | exits h _ => simp at h
    | fails h => simp at h
    | panics h => simp at h
  | idle hB => exact acc_idle
  | asked cmd args hB => exact acc_asked
  | run hB hat => exact acc_run _ (hat.ends (ends_handleCommand _ _ _)) _ _ _
  | wait1 hB hat =>
    have := hat.ends (ends_handleCommand _ _ _)
    cases this with
    | ask _ hk => exact acc_wait1 fun a => acc_run _ (hk a)
  | wait2 a hB hat hl =>
    have := hat.ends (ends_handleCommand _ _ _)
    cases this with
    | ask _ hk => exact acc_wait2 fun a => acc_run _ (hk a)
  | reply hB hat hn => exact acc_reply (at_final hat)
  | bye hB hat hn => exact acc_bye (at_final hat)
  | gone hg => exact acc_gone

end

end Rudy.Client
