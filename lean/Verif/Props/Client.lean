import Verif.Proof.Client
/-
C68: the command in LLDB and the server, running together, under every interleaving of their steps and whatever LLDB
answers.
-/
namespace Rudy.Client
open Rudy Rudy.Server

/-! ### Specification -/

/-- The commands the user has given so far, in every interleaving. -/
inductive Given (load : Str → Option Backend) (path : Str) : List (Str × List Str) → Sys → Prop where
  | init : Given load path [] (initial path)
  | user {gs : List (Str × List Str)} {s : Sys} (cmd : Str) (args : List Str) {s' : Sys} : Given load path gs s → User s s' →
      s'.call = some ⟨cmd, args, []⟩ → Given load path (gs ++ [(cmd, args)]) s'
  | step {gs : List (Str × List Str)} {s s' : Sys} : Given load path gs s → Internal load s s' → Given load path gs s'

/-- The words of a command. -/
def Call.words (c : Call) : Str × List Str := (c.cmd, c.args)

/-! ### C68 -/

/-- The response the user sees for a command is the one the server computes for that very command, with the answers
LLDB gave while it was running: responses are never mixed up, cut off or made up. -/
theorem C68_response {load : Str → Option Backend} {path : Str} {s : Sys} (h : Reach load path s) {e : Entry} (he : e ∈ s.log)
    {m : ServerMsg} (hm : e.outcome = some m) :
    ∃ B, load path = some B ∧ After (handleCommand B e.call.cmd e.call.args) e.call.exchanges (.ok m) := by
  have := (inv_reach h).2 e he
  rw [hm] at this
  exact this

/-- The commands are answered in the order they were given, each exactly once; at most the last one is still open. -/
theorem C68_order {load : Str → Option Backend} {path : Str} {gs : List (Str × List Str)} {s : Sys} (h : Given load path gs s) :
    gs = s.log.map (fun e => e.call.words) ++ s.call.toList.map Call.words := by
  induction h with
  | init => rfl
  | user cmd args _ hu hc ih =>
    cases hu with
    | give cmd' args' hn =>
      rw [hn] at ih
      simp only [Option.some.injEq, Call.mk.injEq, and_true] at hc
      obtain ⟨rfl, rfl⟩ := hc
      rw [ih]
      simp [Call.words]
  | step _ hi ih =>
    cases hi with
    | event a hc ht => rw [hc] at ih; rw [ih]; rfl
    | final hc ht hf => rw [hc] at ih; rw [ih]; simp
    | closed hc ht hd => rw [hc] at ih; rw [ih]; simp
    | _ => exact ih

/-- Once the session is open at most one message is under way, whichever way it goes: the two sides never talk at the
same time. -/
theorem C68_one_in_flight {load : Str → Option Backend} {path : Str} {s : Sys} (h : Reach load path s) (h1 : s.srv ≠ .start)
    (h2 : s.srv ≠ .stopped) : s.toServer.length + s.toClient.length ≤ 1 := by
  have hs := (inv_reach h).1
  obtain ⟨ts, tc, srv, call, log, tr⟩ := s
  simp only at hs h1 h2 ⊢
  cases hs with
  | start0 => exact absurd rfl h1
  | start1 _ _ => exact absurd rfl h1
  | bye => exact absurd rfl h2
  | gone => exact absurd rfl h2
  | _ => simp

/-- There is no deadlock: while a command is open, one of the sides can take a step. -/
theorem C68_progress {load : Str → Option Backend} {path : Str} {s : Sys} (h : Reach load path s) (hc : s.call ≠ none) :
    ∃ s', Internal load s s' := by
  have hs := (inv_reach h).1
  obtain ⟨ts, tc, srv, call, log, tr⟩ := s
  simp only at hs hc
  cases hs with
  | start0 => exact absurd rfl hc
  | start1 cmd args =>
    cases hB : load path with
    | none => exact ⟨_, .refused rfl rfl hB⟩
    | some B => exact ⟨_, .opened rfl rfl hB⟩
  | idle hB => exact absurd rfl hc
  | asked cmd args hB => exact ⟨_, .command rfl rfl⟩
  | @run B c r hB hat =>
    cases r with
    | ok m =>
      by_cases hn : c.cmd = chars! "shutdown"
      · exact ⟨_, .exits rfl hn⟩
      · exact ⟨_, .responds rfl hn⟩
    | err => exact ⟨_, .fails rfl⟩
    | panic => exact ⟨_, .panics rfl⟩
    | ask e k => exact ⟨_, .asks rfl⟩
  | wait1 hB hat => exact ⟨_, .event none rfl rfl⟩
  | wait2 a hB hat hl => exact ⟨_, .answered rfl rfl⟩
  | reply hB hat hn => exact ⟨_, .final rfl rfl (at_final hat)⟩
  | bye hB hat hn => exact ⟨_, .final rfl rfl (at_final hat)⟩
  | gone hg =>
    cases call with
    | none => exact absurd rfl hc
    | some c => exact ⟨_, .closed rfl rfl rfl⟩

/-- No run goes on for ever: from every state the steps of the two sides come to an end, so with `C68_progress` every
command is answered (or reported as failed) after finitely many steps, in every interleaving. -/
theorem C68_terminates {load : Str → Option Backend} {path : Str} {s : Sys} (h : Reach load path s) :
    ¬ ∃ f : Nat → Sys, f 0 = s ∧ ∀ n, Internal load (f n) (f (n + 1)) := by
  rintro ⟨f, h0, hf⟩
  have hacc := acc_inv (inv_reach h)
  have key : ∀ t, Acc (Back load) t → ∀ g : Nat → Sys, g 0 = t → (∀ n, Internal load (g n) (g (n + 1))) → False := by
    intro t ht
    induction ht with
    | intro t _ ih =>
      intro g hg hs
      exact ih (g 1) (hg ▸ hs 0) (fun n => g (n + 1)) rfl (fun n => hs (n + 1))
  exact key s hacc f h0 hf

/-- Steps of the two sides. -/
inductive Steps (load : Str → Option Backend) : Sys → Sys → Prop where
  | refl (s : Sys) : Steps load s s
  | head {s s' t : Sys} : Internal load s s' → Steps load s' t → Steps load s t

theorem Reach.steps {load : Str → Option Backend} {path : Str} {s t : Sys} (h : Reach load path s) (ht : Steps load s t) :
    Reach load path t := by
  induction ht with
  | refl => exact h
  | head h1 _ ih => exact ih (.step h h1)

/-- Every open command can be carried through to its end. -/
theorem C68_answered {load : Str → Option Backend} {path : Str} {s : Sys} (h : Reach load path s) :
    ∃ t, Steps load s t ∧ t.call = none := by
  have hacc := acc_inv (inv_reach h)
  induction hacc with
  | intro s _ ih =>
    cases hc : s.call with
    | none => exact ⟨s, .refl s, hc⟩
    | some c =>
      obtain ⟨s', hs'⟩ := C68_progress h (by rw [hc]; simp)
      obtain ⟨t, ht, hn⟩ := ih s' hs' (.step h hs')
      exact ⟨t, .head hs' ht, hn⟩

/-- If the rest of the program does not panic and the user does not shut the server down, no command is ever reported as
failed because the connection is gone. -/
theorem C68_alive_partial {load : Str → Option Backend} {path : Str} {B : Backend} (hload : load path = some B) (hB : B.Safe) {s : Sys}
    (h : Reach load path s) (hs : ∀ e ∈ s.log, e.call.cmd ≠ chars! "shutdown")
    (ha : ∀ e ∈ s.log, ∀ t ∈ e.call.args, ∀ c ∈ t, Rudy.Expr.Ascii c)
    (hca : ∀ c, s.call = some c → ∀ t ∈ c.args, ∀ ch ∈ t, Rudy.Expr.Ascii ch) :
    ∀ e ∈ s.log, e.outcome ≠ none := by
  intro e he ho
  have hl := (inv_reach h).2 e he
  rw [ho] at hl
  have no : ∀ c : Call, (∀ t ∈ c.args, ∀ ch ∈ t, Rudy.Expr.Ascii ch) → ¬ (At B c .err ∨ At B c .panic) := by
    intro c hc hd
    rcases hd with hd | hd
    · have := After.ends hd (ends_handleCommand B c.cmd c.args)
      cases this
    · have := After.safe hd (safe_handleCommand hB c.cmd c.args (by exact hc))
      cases this
  cases hl.2 with
  | refused h => rw [hload] at h; cases h
  | shutdown h1 h2 => exact hs _ h1 h2
  | brokenNow h1 h2 h3 =>
    rw [hload] at h1
    cases h1
    exact no _ (hca _ h2) h3
  | brokenBefore h1 h2 h3 =>
    rw [hload] at h1
    cases h1
    exact no _ (ha _ h2) h3

/-- The server's side of every interleaving, even with interrupts, is what `session` (C35, C36) does on the lines it has
read: whatever further lines come, what it has done so far is the beginning of what it does. -/
theorem C68_server_side {load : Str → Option Backend} {path : Str} {s : Sys} (h : ReachI load path s) (ls : List Line) :
    s.trace <+: (session load (consumed s.trace ++ ls)).1 :=
  ⟨_, (follows_reach h ls).symm⟩

/-- The messages a list of steps has sent. -/
def produced : List Server.Step → List ServerMsg
  | [] => []
  | .got _ :: t => produced t
  | .sent m :: t => m :: produced t

theorem produced_append (a b : List Server.Step) : produced (a ++ b) = produced a ++ produced b := by
  induction a with
  | nil => rfl
  | cons x t ih => cases x <;> simp [produced, ih]

/-- C68: nothing is lost or reordered between the two sides, even with interrupts: in every step, what the server has read
and has yet to read only grows at its end, and what it has written is what the client has taken followed by what it has
yet to take. -/
theorem C68_fifo {load : Str → Option Backend} {s s' : Sys} (h : User s s' ∨ Internal load s s' ∨ Interrupt s s') :
    consumed s.trace ++ s.toServer <+: consumed s'.trace ++ s'.toServer ∧
      ∀ taken, produced s.trace = taken ++ s.toClient → ∃ more, produced s'.trace = taken ++ more ++ s'.toClient := by
  obtain ⟨ts, tc, srv, call, log, tr⟩ := s
  rcases h with h | h | h
  · cases h with
    | give cmd args hn => exact ⟨⟨[.msg (.command cmd args)], by simp⟩, fun t ht => ⟨[], by simpa using ht⟩⟩
  · cases h with
    | event a hc ht => exact ⟨⟨[answerLine a], by simp⟩, fun t h => ⟨tc.take 1, by simp only at ht h ⊢; rw [h, ht]; simp⟩⟩
    | final hc ht hm => exact ⟨⟨[], by simp⟩, fun t h => ⟨tc.take 1, by simp only at ht h ⊢; rw [h, ht]; simp⟩⟩
    | closed hc ht hs => exact ⟨⟨[], by simp⟩, fun t h => ⟨[], by simpa using h⟩⟩
    | asks hs => exact ⟨⟨[], by simp [consumed_append, consumed]⟩, fun t h => ⟨[], by simp only at h ⊢; rw [produced_append, h]; simp [produced]⟩⟩
    | responds hs hc => exact ⟨⟨[], by simp [consumed_append, consumed]⟩, fun t h => ⟨[], by simp only at h ⊢; rw [produced_append, h]; simp [produced]⟩⟩
    | exits hs hc => exact ⟨⟨[], by simp [consumed_append, consumed]⟩, fun t h => ⟨[], by simp only at h ⊢; rw [produced_append, h]; simp [produced]⟩⟩
    | fails hs => exact ⟨⟨[], by simp⟩, fun t h => ⟨[], by simpa using h⟩⟩
    | panics hs => exact ⟨⟨[], by simp⟩, fun t h => ⟨[], by simpa using h⟩⟩
    | opened h1 h2 h3 => exact ⟨⟨[], by simp only at h2 ⊢; rw [h2]; simp [consumed_append, consumed]⟩, fun t h => ⟨[], by simp only at h ⊢; rw [produced_append, h]; simp [produced]⟩⟩
    | refused h1 h2 h3 => exact ⟨⟨[], by simp only at h2 ⊢; rw [h2]; simp [consumed_append, consumed]⟩, fun t h => ⟨[], by simp only at h ⊢; rw [produced_append, h]; simp [produced]⟩⟩
    | shutdownFirst h1 h2 h3 => exact ⟨⟨[], by simp only at h2 ⊢; rw [h2]; simp [consumed_append, consumed]⟩, fun t h => ⟨[], by simp only at h ⊢; rw [produced_append, h]; simp [produced]⟩⟩
    | badFirst h1 h2 h3 h4 => exact ⟨⟨[], by simp only at h2 ⊢; rw [h2]; simp [consumed_append, consumed]⟩, fun t h => ⟨[], by simp only at h ⊢; rw [produced_append, h]; simp [produced]⟩⟩
    | command h1 h2 => exact ⟨⟨[], by simp only at h2 ⊢; rw [h2]; simp [consumed_append, consumed]⟩, fun t h => ⟨[], by simp only at h ⊢; rw [produced_append, h]; simp [produced]⟩⟩
    | unreadable h1 h2 => exact ⟨⟨[], by simp only at h2 ⊢; rw [h2]; simp [consumed_append, consumed]⟩, fun t h => ⟨[], by simp only at h ⊢; rw [produced_append, h]; simp [produced]⟩⟩
    | misplaced h1 h2 h3 => exact ⟨⟨[], by simp only at h2 ⊢; rw [h2]; simp [consumed_append, consumed]⟩, fun t h => ⟨[], by simp only at h ⊢; rw [produced_append, h]; simp [produced]⟩⟩
    | answered h1 h2 => exact ⟨⟨[], by simp only at h2 ⊢; rw [h2]; simp [consumed_append, consumed]⟩, fun t h => ⟨[], by simp only at h ⊢; rw [produced_append, h]; simp [produced]⟩⟩
  · cases h with
    | stop hc => exact ⟨⟨[], by simp⟩, fun t h => ⟨[], by simpa using h⟩⟩

/-! ### Cases -/

/-- A connection on which two commands were given; the first one read memory. -/
def twoCommands : Sys :=
  ⟨[], [], .ready demoBackend, none,
    [⟨⟨chars! "eval", [chars! "x"], [(.readMemory 16 8, some (.memory [1]))]⟩, some (.complete (chars! "{}"))⟩,
     ⟨⟨chars! "foo", [], []⟩, some .error⟩],
    [.got (.msg (.init [])), .got (.msg (.command (chars! "eval") [chars! "x"])), .sent (.event (.readMemory 16 8)),
     .got (.msg (.answer (.memory [1]))), .sent (.complete (chars! "{}")), .got (.msg (.command (chars! "foo") [])), .sent .error]⟩

/-- What `eval` does with the answer. -/
def evalRest (a : Option Answer) : Conv ServerMsg :=
  match a with
  | some (.memory _) => .ok (.complete (chars! "{}"))
  | _ => .ok .error

theorem eval_demo : handleCommand demoBackend (chars! "eval") [chars! "x"] = .ask (.readMemory 16 8) evalRest := by
  show respond (demoBackend.eval (.var (chars! "x"))) = _
  show Conv.ask _ _ = _
  congr 1
  funext a
  cases a with
  | none => rfl
  | some a => cases a <;> rfl

theorem reach_two : Reach (fun _ => some demoBackend) [] twoCommands := by
  have h1 : Reach (fun _ => some demoBackend) [] ⟨[.msg (.init []), .msg (.command (chars! "eval") [chars! "x"])], [], .start, (some ⟨chars! "eval", [chars! "x"], []⟩), [], []⟩ := .user .init (.give (chars! "eval") [chars! "x"] rfl)
  have h2 : Reach (fun _ => some demoBackend) [] ⟨[.msg (.command (chars! "eval") [chars! "x"])], [], .ready demoBackend, (some ⟨chars! "eval", [chars! "x"], []⟩), [], [.got (.msg (.init []))]⟩ := .step h1 (.opened rfl rfl rfl)
  have h3 : Reach (fun _ => some demoBackend) [] ⟨[], [], .running demoBackend (chars! "eval") (.ask (.readMemory 16 8) evalRest), (some ⟨chars! "eval", [chars! "x"], []⟩), [], [.got (.msg (.init [])), .got (.msg (.command (chars! "eval") [chars! "x"]))]⟩ := eval_demo ▸ .step h2 (.command rfl rfl)
  have h4 : Reach (fun _ => some demoBackend) [] ⟨[], [.event (.readMemory 16 8)], .waiting demoBackend (chars! "eval") evalRest, (some ⟨chars! "eval", [chars! "x"], []⟩), [], [.got (.msg (.init [])), .got (.msg (.command (chars! "eval") [chars! "x"])), .sent (.event (.readMemory 16 8))]⟩ := .step h3 (.asks rfl)
  have h5 : Reach (fun _ => some demoBackend) [] ⟨[.msg (.answer (.memory [1]))], [], .waiting demoBackend (chars! "eval") evalRest, (some ⟨chars! "eval", [chars! "x"], [(.readMemory 16 8, some (.memory [1]))]⟩), [], [.got (.msg (.init [])), .got (.msg (.command (chars! "eval") [chars! "x"])), .sent (.event (.readMemory 16 8))]⟩ := .step h4 (.event (c := ⟨chars! "eval", [chars! "x"], []⟩) (e := .readMemory 16 8) (some (.memory [1])) rfl rfl)
  have h6 : Reach (fun _ => some demoBackend) [] ⟨[], [], .running demoBackend (chars! "eval") (.ok (.complete (chars! "{}"))), (some ⟨chars! "eval", [chars! "x"], [(.readMemory 16 8, some (.memory [1]))]⟩), [], [.got (.msg (.init [])), .got (.msg (.command (chars! "eval") [chars! "x"])), .sent (.event (.readMemory 16 8)), .got (.msg (.answer (.memory [1])))]⟩ := .step h5 (.answered (B := demoBackend) (k := evalRest) (l := .msg (.answer (.memory [1]))) rfl rfl)
  have h7 : Reach (fun _ => some demoBackend) [] ⟨[], [.complete (chars! "{}")], .ready demoBackend, (some ⟨chars! "eval", [chars! "x"], [(.readMemory 16 8, some (.memory [1]))]⟩), [], [.got (.msg (.init [])), .got (.msg (.command (chars! "eval") [chars! "x"])), .sent (.event (.readMemory 16 8)), .got (.msg (.answer (.memory [1]))), .sent (.complete (chars! "{}"))]⟩ := .step h6 (.responds rfl (by decide))
  have h8 : Reach (fun _ => some demoBackend) [] ⟨[], [], .ready demoBackend, none, [⟨⟨chars! "eval", [chars! "x"], [(.readMemory 16 8, some (.memory [1]))]⟩, some (.complete (chars! "{}"))⟩], [.got (.msg (.init [])), .got (.msg (.command (chars! "eval") [chars! "x"])), .sent (.event (.readMemory 16 8)), .got (.msg (.answer (.memory [1]))), .sent (.complete (chars! "{}"))]⟩ := .step h7 (.final rfl rfl rfl)
  have h9 : Reach (fun _ => some demoBackend) [] ⟨[.msg (.command (chars! "foo") [])], [], .ready demoBackend, (some ⟨chars! "foo", [], []⟩), [⟨⟨chars! "eval", [chars! "x"], [(.readMemory 16 8, some (.memory [1]))]⟩, some (.complete (chars! "{}"))⟩], [.got (.msg (.init [])), .got (.msg (.command (chars! "eval") [chars! "x"])), .sent (.event (.readMemory 16 8)), .got (.msg (.answer (.memory [1]))), .sent (.complete (chars! "{}"))]⟩ := .user h8 (.give (chars! "foo") [] rfl)
  have h10 : Reach (fun _ => some demoBackend) [] ⟨[], [], .running demoBackend (chars! "foo") (.ok .error), (some ⟨chars! "foo", [], []⟩), [⟨⟨chars! "eval", [chars! "x"], [(.readMemory 16 8, some (.memory [1]))]⟩, some (.complete (chars! "{}"))⟩], [.got (.msg (.init [])), .got (.msg (.command (chars! "eval") [chars! "x"])), .sent (.event (.readMemory 16 8)), .got (.msg (.answer (.memory [1]))), .sent (.complete (chars! "{}")), .got (.msg (.command (chars! "foo") []))]⟩ := .step h9 (.command (B := demoBackend) (cmd := chars! "foo") (args := []) rfl rfl)
  have h11 : Reach (fun _ => some demoBackend) [] ⟨[], [.error], .ready demoBackend, (some ⟨chars! "foo", [], []⟩), [⟨⟨chars! "eval", [chars! "x"], [(.readMemory 16 8, some (.memory [1]))]⟩, some (.complete (chars! "{}"))⟩], [.got (.msg (.init [])), .got (.msg (.command (chars! "eval") [chars! "x"])), .sent (.event (.readMemory 16 8)), .got (.msg (.answer (.memory [1]))), .sent (.complete (chars! "{}")), .got (.msg (.command (chars! "foo") [])), .sent .error]⟩ := .step h10 (.responds rfl (by decide))
  exact .step h11 (.final rfl rfl rfl)

example : Reach (fun _ => some demoBackend) [] twoCommands ∧ twoCommands.log.length = 2 ∧
    (∃ e ∈ twoCommands.log, e.outcome = some (.complete (chars! "{}")) ∧ e.call.exchanges ≠ []) :=
  ⟨reach_two, rfl, _, List.mem_cons_self, rfl, by simp⟩

/-! ### Interrupts -/

/-- C68 fails once the user interrupts a command: the connection is kept, and the next command is answered with the
message meant for the interrupted one. Here `functions` is interrupted and the unknown command `foo`, for which the
server's only response is an error, is shown the list of functions instead. -/
theorem C68_interrupt_fails : ∃ load path s e, ReachI load path s ∧ e ∈ s.log ∧ e.call = ⟨chars! "foo", [], []⟩ ∧
    e.outcome = some (.complete (chars! "[]")) ∧
    ∀ B es m, After (handleCommand B (chars! "foo") []) es (.ok m) → m = .error := by
  have h1 : ReachI (fun _ => some demoBackend) [] ⟨[.msg (.init []), .msg (.command (chars! "functions") [])], [], .start, (some ⟨chars! "functions", [], []⟩), [], []⟩ := .user .init (.give (chars! "functions") [] rfl)
  have h2 : ReachI (fun _ => some demoBackend) [] ⟨[.msg (.command (chars! "functions") [])], [], .ready demoBackend, (some ⟨chars! "functions", [], []⟩), [], [.got (.msg (.init []))]⟩ := .step h1 (.opened rfl rfl rfl)
  have h3 : ReachI (fun _ => some demoBackend) [] ⟨[], [], .running demoBackend (chars! "functions") (.ok (.complete (chars! "[]"))), (some ⟨chars! "functions", [], []⟩), [], [.got (.msg (.init [])), .got (.msg (.command (chars! "functions") []))]⟩ := .step h2 (.command (B := demoBackend) (cmd := chars! "functions") (args := []) rfl rfl)
  have h4 : ReachI (fun _ => some demoBackend) [] ⟨[], [.complete (chars! "[]")], .ready demoBackend, (some ⟨chars! "functions", [], []⟩), [], [.got (.msg (.init [])), .got (.msg (.command (chars! "functions") [])), .sent (.complete (chars! "[]"))]⟩ := .step h3 (.responds rfl (by decide))
  have h5 : ReachI (fun _ => some demoBackend) [] ⟨[], [.complete (chars! "[]")], .ready demoBackend, none, [], [.got (.msg (.init [])), .got (.msg (.command (chars! "functions") [])), .sent (.complete (chars! "[]"))]⟩ := .stop h4 (.stop rfl)
  have h6 : ReachI (fun _ => some demoBackend) [] ⟨[.msg (.command (chars! "foo") [])], [.complete (chars! "[]")], .ready demoBackend, (some ⟨chars! "foo", [], []⟩), [], [.got (.msg (.init [])), .got (.msg (.command (chars! "functions") [])), .sent (.complete (chars! "[]"))]⟩ := .user h5 (.give (chars! "foo") [] rfl)
  have h7 : ReachI (fun _ => some demoBackend) [] ⟨[.msg (.command (chars! "foo") [])], [], .ready demoBackend, none, [⟨⟨chars! "foo", [], []⟩, some (.complete (chars! "[]"))⟩], [.got (.msg (.init [])), .got (.msg (.command (chars! "functions") [])), .sent (.complete (chars! "[]"))]⟩ := .step h6 (.final rfl rfl rfl)
  refine ⟨_, _, _, _, h7, List.mem_cons_self, rfl, rfl, ?_⟩
  · intro B es m h
    have hf : handleCommand B (chars! "foo") [] = .ok .error := rfl
    rw [hf] at h
    cases h
    rfl

/-- Interrupting a command whose memory read is under way ends the session: the server takes the next command for the
answer it waits for, and the client's late answer for a message out of place.  Nothing panicked and nobody asked for a
shutdown, but the server thread is gone. -/
theorem C68_interrupt_ends_fails : ∃ path s, ReachI (fun _ => some demoBackend) path s ∧ s.srv = .stopped ∧ demoBackend.Safe ∧
    ∀ l ∈ consumed s.trace, ∀ args, l ≠ .msg (.command (chars! "shutdown") args) := by
  have h1 : ReachI (fun _ => some demoBackend) [] ⟨[.msg (.init []), .msg (.command (chars! "eval") [chars! "x"])], [], .start, (some ⟨chars! "eval", [chars! "x"], []⟩), [], []⟩ := .user .init (.give (chars! "eval") [chars! "x"] rfl)
  have h2 : ReachI (fun _ => some demoBackend) [] ⟨[.msg (.command (chars! "eval") [chars! "x"])], [], .ready demoBackend, (some ⟨chars! "eval", [chars! "x"], []⟩), [], [.got (.msg (.init []))]⟩ := .step h1 (.opened rfl rfl rfl)
  have h3 : ReachI (fun _ => some demoBackend) [] ⟨[], [], .running demoBackend (chars! "eval") (.ask (.readMemory 16 8) evalRest), (some ⟨chars! "eval", [chars! "x"], []⟩), [], [.got (.msg (.init [])), .got (.msg (.command (chars! "eval") [chars! "x"]))]⟩ := eval_demo ▸ .step h2 (.command rfl rfl)
  have h4 : ReachI (fun _ => some demoBackend) [] ⟨[], [.event (.readMemory 16 8)], .waiting demoBackend (chars! "eval") evalRest, (some ⟨chars! "eval", [chars! "x"], []⟩), [], [.got (.msg (.init [])), .got (.msg (.command (chars! "eval") [chars! "x"])), .sent (.event (.readMemory 16 8))]⟩ := .step h3 (.asks rfl)
  have h5 : ReachI (fun _ => some demoBackend) [] ⟨[], [.event (.readMemory 16 8)], .waiting demoBackend (chars! "eval") evalRest, none, [], [.got (.msg (.init [])), .got (.msg (.command (chars! "eval") [chars! "x"])), .sent (.event (.readMemory 16 8))]⟩ := .stop h4 (.stop rfl)
  have h6 : ReachI (fun _ => some demoBackend) [] ⟨[.msg (.command (chars! "foo") [])], [.event (.readMemory 16 8)], .waiting demoBackend (chars! "eval") evalRest, (some ⟨chars! "foo", [], []⟩), [], [.got (.msg (.init [])), .got (.msg (.command (chars! "eval") [chars! "x"])), .sent (.event (.readMemory 16 8))]⟩ := .user h5 (.give (chars! "foo") [] rfl)
  have h7 : ReachI (fun _ => some demoBackend) [] ⟨[], [.event (.readMemory 16 8)], .running demoBackend (chars! "eval") (.ok .error), (some ⟨chars! "foo", [], []⟩), [], [.got (.msg (.init [])), .got (.msg (.command (chars! "eval") [chars! "x"])), .sent (.event (.readMemory 16 8)), .got (.msg (.command (chars! "foo") []))]⟩ := .step h6 (.answered (B := demoBackend) (k := evalRest) (l := .msg (.command (chars! "foo") [])) rfl rfl)
  have h8 : ReachI (fun _ => some demoBackend) [] ⟨[], [.event (.readMemory 16 8), .error], .ready demoBackend, (some ⟨chars! "foo", [], []⟩), [], [.got (.msg (.init [])), .got (.msg (.command (chars! "eval") [chars! "x"])), .sent (.event (.readMemory 16 8)), .got (.msg (.command (chars! "foo") [])), .sent .error]⟩ := .step h7 (.responds rfl (by decide))
  have h9 : ReachI (fun _ => some demoBackend) [] ⟨[.msg (.answer (.memory [1]))], [.error], .ready demoBackend, (some ⟨chars! "foo", [], [(.readMemory 16 8, some (.memory [1]))]⟩), [], [.got (.msg (.init [])), .got (.msg (.command (chars! "eval") [chars! "x"])), .sent (.event (.readMemory 16 8)), .got (.msg (.command (chars! "foo") [])), .sent .error]⟩ := .step h8 (.event (c := ⟨chars! "foo", [], []⟩) (e := .readMemory 16 8) (some (.memory [1])) rfl rfl)
  have h10 : ReachI (fun _ => some demoBackend) [] ⟨[], [.error], .stopped, (some ⟨chars! "foo", [], [(.readMemory 16 8, some (.memory [1]))]⟩), [], [.got (.msg (.init [])), .got (.msg (.command (chars! "eval") [chars! "x"])), .sent (.event (.readMemory 16 8)), .got (.msg (.command (chars! "foo") [])), .sent .error, .got (.msg (.answer (.memory [1])))]⟩ := .step h9 (.misplaced rfl rfl (by intro _ _ h; cases h))
  refine ⟨_, _, h10, rfl, demoBackend_safe, ?_⟩
  intro l hl args
  simp only [consumed, List.mem_cons, List.not_mem_nil, or_false] at hl
  rcases hl with rfl | rfl | rfl | rfl <;> simp

end Rudy.Client
