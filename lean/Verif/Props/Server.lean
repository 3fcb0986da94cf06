import Verif.Model.Server
import Verif.Props.Expr
/-
C35, C36: debug sessions.
-/
set_option linter.unusedSimpArgs false
namespace Rudy.Server
open Rudy Rudy.Expr

/-! ### Vocabulary -/

/-- A message that ends a command. -/
def ServerMsg.Terminal : ServerMsg → Prop
  | .complete _ => True
  | .error => True
  | .event _ => False

/-- Event exchanges: each event is followed by the line that is taken as its answer. -/
inductive Exchanges : List Step → Prop where
  | none : Exchanges []
  | more (e : Event) (l : Line) {t : List Step} : Exchanges t → Exchanges (.sent (.event e) :: .got l :: t)

/-- Events sent to a client that has left. -/
def unanswered (es : List Event) : List Step := es.map fun e => .sent (.event e)

/-- The dialogue of a session after its initialization, as C35 describes it: line by line, every
undecodable line has one error, every command has its event exchanges and then exactly one terminal
message, before the next line is looked at. `R` is the input that is never looked at. -/
inductive Dialogue : List Step → List Line → Stop → Prop where
  /-- The client has left between two commands. -/
  | eof : Dialogue [] [] .closed
  | bad {t R s} : Dialogue t R s → Dialogue (.got .bad :: .sent .error :: t) R s
  | command {c a ev m t R s} (hc : c ≠ chars! "shutdown") : Exchanges ev → m.Terminal → Dialogue t R s →
      Dialogue (.got (.msg (.command c a)) :: (ev ++ .sent m :: t)) R s
  /-- The client has left in the middle of the events of a command. -/
  | left {c a ev us m} : Exchanges ev → m.Terminal →
      Dialogue (.got (.msg (.command c a)) :: (ev ++ unanswered us ++ [.sent m])) [] .closed
  | shutdown {a m R} : m.Terminal →
      Dialogue [.got (.msg (.command (chars! "shutdown") a)), .sent m] R .exit
  /-- A protocol violation: initialization twice, or an answer without a question. -/
  | violation {m R} (h : ∀ c a, m ≠ .command c a) : Dialogue [.got (.msg m)] R .failed

/-- No panic can be reached in the computation, whatever the client answers. -/
inductive Conv.Safe {α : Type} : Conv α → Prop where
  | ok (a : α) : Safe (.ok a)
  | err : Safe .err
  | ask (e : Event) {k : Option Answer → Conv α} (h : ∀ a, Safe (k a)) : Safe (.ask e k)

/-- The rest of the program does not panic. -/
structure Backend.Safe (B : Backend) : Prop where
  eval : ∀ e, (B.eval e).Safe
  toRef : ∀ e, (B.toRef e).Safe
  typeMethods : ∀ n r, B.typeMethods n = some r → r.NoPanic
  functions : ∀ p, (B.functions p).NoPanic
  allFunctions : B.allFunctions.NoPanic

/-- A line whose text the expression parser is known to handle (C15). -/
def Line.Ascii : Line → Prop
  | .msg (.command _ args) => ∀ s ∈ args, ∀ c ∈ s, Rudy.Expr.Ascii c
  | _ => True

/-- The lines a list of steps has consumed. -/
def consumed : List Step → List Line
  | [] => []
  | .got l :: t => l :: consumed t
  | .sent _ :: t => consumed t

/-- The terminal messages of a list of steps. -/
def terminals : List Step → List ServerMsg
  | [] => []
  | .got _ :: t => terminals t
  | .sent (.event _) :: t => terminals t
  | .sent m :: t => m :: terminals t

/-! ### Running a computation -/

theorem consumed_append (a b : List Step) : consumed (a ++ b) = consumed a ++ consumed b := by
  induction a with
  | nil => rfl
  | cons x a ih => cases x <;> simp [consumed, ih]

theorem runConv_shape {α : Type} (c : Conv α) (ls : List Line) :
    ∃ ev us, (runConv c ls).1 = ev ++ unanswered us ∧ Exchanges ev ∧ consumed ev ++ (runConv c ls).2.2 = ls ∧
      (us = [] ∨ (runConv c ls).2.2 = []) := by
  induction c generalizing ls with
  | ok a => exact ⟨[], [], rfl, .none, rfl, .inl rfl⟩
  | err => exact ⟨[], [], rfl, .none, rfl, .inl rfl⟩
  | panic => exact ⟨[], [], rfl, .none, rfl, .inl rfl⟩
  | ask e k ih =>
    cases ls with
    | nil =>
      obtain ⟨ev, us, h1, h2, h3, _⟩ := ih none []
      have hev : ev = [] := by
        cases h2 with
        | none => rfl
        | more e l h => simp [consumed] at h3
      subst hev
      refine ⟨[], e :: us, ?_, .none, ?_, .inr ?_⟩
      · simp [runConv, h1, unanswered]
      · simpa [runConv] using h3
      · simpa [runConv, consumed] using h3
    | cons l ls =>
      simp only [runConv]
      obtain ⟨ev, us, h1, h2, h3, h4⟩ := ih _ ls
      refine ⟨.sent (.event e) :: .got l :: ev, us, ?_, .more e l h2, ?_, h4⟩
      · rw [h1]; rfl
      · simp only [consumed, List.cons_append]
        rw [h3]

theorem runConv_safe {α : Type} {c : Conv α} (h : c.Safe) (ls : List Line) : (runConv c ls).2.1.NoPanic := by
  induction h generalizing ls with
  | ok a => trivial
  | err => trivial
  | ask e h ih => cases ls <;> exact ih _ _

theorem runConv_length {α : Type} (c : Conv α) (ls : List Line) : (runConv c ls).2.2.length ≤ ls.length := by
  obtain ⟨ev, us, _, _, h, _⟩ := runConv_shape c ls
  conv => rhs; rw [← h]
  simp

/-! ### Safety of the commands -/

theorem safe_bind {α β : Type} {c : Conv α} {f : α → Conv β} (hc : c.Safe) (hf : ∀ a, (f a).Safe) :
    (c.bind f).Safe := by
  induction hc with
  | ok a => exact hf a
  | err => exact .err
  | ask e h ih => exact .ask e fun a => ih a

theorem safe_handle {α β : Type} {c : Conv α} {f : α → Conv β} {g : Conv β} (hc : c.Safe) (hf : ∀ a, (f a).Safe)
    (hg : g.Safe) : (c.handle f g).Safe := by
  induction hc with
  | ok a => exact hf a
  | err => exact hg
  | ask e h ih => exact .ask e fun a => ih a

theorem safe_ofRes {α : Type} {r : Res α} (h : r.NoPanic) : (Conv.ofRes r).Safe := by
  cases r with
  | ok a => exact .ok a
  | err => exact .err
  | panic => exact h.elim

theorem safe_respond {c : Conv Str} (h : c.Safe) : (respond c).Safe :=
  safe_handle h (fun _ => .ok _) (.ok _)

theorem safe_typeOnly {B : Backend} (hB : B.Safe) (n : Str) : (typeOnly B n).Safe := by
  unfold typeOnly
  split
  · rename_i r h
    exact safe_ofRes (hB.typeMethods n r h)
  · exact .err

theorem safe_handleMethods {B : Backend} (hB : B.Safe) (s : Str) (hs : ∀ c ∈ s, Rudy.Expr.Ascii c) :
    (handleMethods B s).Safe := by
  have hp := C15_no_panic_partial s (.inl hs)
  unfold handleMethods
  split
  · rename_i h; rw [h] at hp; exact hp.elim
  · exact safe_typeOnly hB _
  · split
    · refine safe_bind (.ask _ fun a => .ok _) fun b => ?_
      split
      · exact hB.toRef _
      · exact safe_typeOnly hB _
    · exact safe_typeOnly hB _
    · exact safe_typeOnly hB _
    · exact hB.toRef _

theorem safe_handleCommand {B : Backend} (hB : B.Safe) (cmd : Str) (args : List Str)
    (ha : ∀ s ∈ args, ∀ c ∈ s, Rudy.Expr.Ascii c) : (handleCommand B cmd args).Safe := by
  have hj : ∀ c ∈ joinWith (chars! " ") args, Rudy.Expr.Ascii c :=
    joinWith_ascii (by intro c hc; simp at hc; subst hc; decide) ha
  unfold handleCommand
  split
  · split
    · exact .ok _
    · have hp := C15_no_panic_partial _ (.inl hj)
      split
      · exact safe_respond (hB.eval _)
      · exact .ok _
      · rename_i h; rw [h] at hp; exact hp.elim
  · split
    · split
      · exact .ok _
      · exact safe_respond (safe_handleMethods hB _ hj)
    · split
      · split
        · exact safe_respond (safe_ofRes hB.allFunctions)
        · exact safe_respond (safe_ofRes (hB.functions _))
      · split <;> exact .ok _

/-- The answer of a computation, whatever the client answers, satisfies `P`, and it is never an error. -/
inductive Conv.Ends {α : Type} (P : α → Prop) : Conv α → Prop where
  | ok {a : α} (h : P a) : Ends P (.ok a)
  | panic : Ends P .panic
  | ask (e : Event) {k : Option Answer → Conv α} (h : ∀ a, Ends P (k a)) : Ends P (.ask e k)

theorem ends_respond (c : Conv Str) : (respond c).Ends ServerMsg.Terminal := by
  unfold respond
  induction c with
  | ok a => exact .ok trivial
  | err => exact .ok trivial
  | panic => exact .panic
  | ask e k ih => exact .ask e ih

theorem ends_handleCommand (B : Backend) (cmd : Str) (args : List Str) :
    (handleCommand B cmd args).Ends ServerMsg.Terminal := by
  unfold handleCommand
  split
  · split
    · exact .ok trivial
    · split
      · exact ends_respond _
      · exact .ok trivial
      · exact .panic
  · split
    · split
      · exact .ok trivial
      · exact ends_respond _
    · split
      · split <;> exact ends_respond _
      · split <;> exact .ok trivial

theorem runConv_ends {α : Type} {P : α → Prop} {c : Conv α} (h : c.Ends P) (ls : List Line) :
    (runConv c ls).2.1 ≠ .err ∧ ∀ a, (runConv c ls).2.1 = .ok a → P a := by
  induction h generalizing ls with
  | ok h => exact ⟨by simp [runConv], fun a ha => by simp [runConv] at ha; exact ha ▸ h⟩
  | panic => exact ⟨by simp [runConv], fun a ha => by simp [runConv] at ha⟩
  | ask e h ih => cases ls <;> exact ih _ _

theorem handleCommand_shutdown (B : Backend) (args : List Str) :
    handleCommand B (chars! "shutdown") args = .ok (.complete (chars! "{\"status\":\"shutting down\"}")) := rfl

/-! ### The loop -/

theorem loop_dialogue {B : Backend} (hB : B.Safe) (n : Nat) (ls : List Line) (hn : ls.length < n)
    (ha : ∀ l ∈ ls, l.Ascii) :
    ∃ R, Dialogue (sessionLoop B n ls).1 R (sessionLoop B n ls).2 ∧ consumed (sessionLoop B n ls).1 ++ R = ls := by
  induction n generalizing ls with
  | zero => omega
  | succ n ih =>
    cases ls with
    | nil => exact ⟨[], .eof, rfl⟩
    | cons l ls =>
      have hl := ha l (by simp)
      have hls : ∀ x ∈ ls, x.Ascii := fun x hx => ha x (by simp [hx])
      simp only [List.length_cons] at hn
      unfold sessionLoop
      split
      · obtain ⟨R, h1, h2⟩ := ih ls (by omega) hls
        exact ⟨R, .bad h1, by simp [consumed, h2]⟩
      · exact ⟨ls, .violation (by simp), by simp [consumed]⟩
      · exact ⟨ls, .violation (by simp), by simp [consumed]⟩
      · rename_i cmd args
        have hsafe := runConv_safe (safe_handleCommand hB cmd args hl) ls
        obtain ⟨hne, hterm⟩ := runConv_ends (ends_handleCommand B cmd args) ls
        obtain ⟨ev, us, h1, h2, h3, h4⟩ := runConv_shape (handleCommand B cmd args) ls
        simp only
        split
        · rename_i h; rw [h] at hsafe; exact hsafe.elim
        · rename_i h; exact (hne h).elim
        · rename_i m h
          have hm := hterm m h
          split
          · rename_i hcmd
            subst hcmd
            rw [handleCommand_shutdown] at h1 h3 ⊢
            exact ⟨ls, .shutdown hm, by simp [consumed, runConv]⟩
          · rename_i hcmd
            rcases h4 with h4 | h4
            · subst h4
              have hlen := runConv_length (handleCommand B cmd args) ls
              obtain ⟨R, h5, h6⟩ := ih (runConv (handleCommand B cmd args) ls).2.2 (by omega) (by
                intro x hx
                apply hls
                rw [← h3]
                exact List.mem_append_right _ hx)
              refine ⟨R, ?_, ?_⟩
              · rw [h1]
                simpa [unanswered] using Dialogue.command hcmd h2 hm h5
              · rw [h1]
                simp only [consumed, consumed_append, unanswered, List.map_nil, List.append_nil, List.append_assoc,
                  h6, h3, List.cons_append]
            · rw [h4, h1]
              have hloop : sessionLoop B n [] = ([], .closed) := by cases n <;> rfl
              rw [hloop]
              refine ⟨[], .left h2 hm, ?_⟩
              have hu : consumed (unanswered us) = [] := by
                clear h1
                induction us with
                | nil => rfl
                | cons u us ih => simpa [unanswered, consumed] using ih
              rw [h4, List.append_nil] at h3
              simp [consumed, consumed_append, hu, h3]

/-- C35 for sessions in which nothing panics: whatever lines the client sends, and in whatever order, the
session after its initialization is a dialogue in which every line looked at between commands gets exactly
one terminal message, after the event exchanges of its command and before the next line is looked at; and
the lines are looked at in order, none skipped. Missing: panics (`C35_panic_fails`), and the lines that
are taken as the answer of an event (`C36_command_during_event_fails`). -/
theorem C35_dialogue_partial (load : Str → Option Backend) (B : Backend) (hB : B.Safe) (path : Str)
    (hload : load path = some B) (ls : List Line) (ha : ∀ l ∈ ls, l.Ascii) :
    ∃ t R stop, session load (.msg (.init path) :: ls) = (.got (.msg (.init path)) :: t, stop) ∧
      Dialogue t R stop ∧ consumed t ++ R = ls := by
  obtain ⟨R, h1, h2⟩ := loop_dialogue hB (ls.length + 1) ls (by omega) ha
  exact ⟨_, R, _, by simp [session, hload], h1, h2⟩

/-- In a dialogue the number of terminal messages is the number of lines looked at between commands:
all the lines consumed, less one per event that was answered, less a protocol violation at the end. -/
theorem Dialogue.count {t : List Step} {R : List Line} {s : Stop} (h : Dialogue t R s) :
    ∃ answered, (terminals t).length + answered + (if s = .failed then 1 else 0) = (consumed t).length ∧
      ((∀ e, Step.sent (.event e) ∉ t) → answered = 0) := by
  have app : ∀ a b, terminals (a ++ b) = terminals a ++ terminals b := by
    intro a b
    induction a with
    | nil => rfl
    | cons x a ih =>
      cases x with
      | got l => simpa [terminals] using ih
      | sent m => cases m <;> simpa [terminals] using ih
  have ex : ∀ {ev}, Exchanges ev → terminals ev = [] ∧ ∃ n, (consumed ev).length = n ∧
      ((∀ e, Step.sent (.event e) ∉ ev) → n = 0) := by
    intro ev hev
    induction hev with
    | none => exact ⟨rfl, 0, rfl, fun _ => rfl⟩
    | more e l h ih =>
      exact ⟨ih.1, _, rfl, fun hno => ((hno e) (by simp)).elim⟩
  have un : ∀ us, terminals (unanswered us) = [] ∧ consumed (unanswered us) = [] := by
    intro us
    induction us with
    | nil => exact ⟨rfl, rfl⟩
    | cons u us ih => simpa [unanswered, terminals, consumed] using ih
  have tm : ∀ {m : ServerMsg} (t), m.Terminal → terminals (.sent m :: t) = m :: terminals t := by
    intro m t hm
    cases m with
    | event e => exact hm.elim
    | complete r => rfl
    | error => rfl
  induction h with
  | eof => exact ⟨0, rfl, fun _ => rfl⟩
  | bad h ih =>
    obtain ⟨n, h1, h2⟩ := ih
    refine ⟨n, ?_, fun hno => h2 fun e he => hno e (by simp [he])⟩
    simp only [terminals, consumed, List.length_cons]
    omega
  | command hc hev hm h ih =>
    obtain ⟨n, h1, h2⟩ := ih
    obtain ⟨h3, k, h4, h5⟩ := ex hev
    refine ⟨n + k, ?_, fun hno => ?_⟩
    · simp only [terminals, consumed, app, tm _ hm, consumed_append, List.length_cons, List.length_append, h3, h4,
        List.length_nil]
      omega
    · rw [h2 fun e he => hno e (by simp [he]), h5 fun e he => hno e (by simp [he])]
  | @left c a ev us m hev hm =>
    obtain ⟨h3, k, h4, h5⟩ := ex hev
    refine ⟨k, ?_, fun hno => h5 fun e he => hno e (by simp [he])⟩
    simp [terminals, consumed, app, tm _ hm, consumed_append, h3, h4, un, Nat.add_comm]
  | shutdown hm => exact ⟨0, by simp [terminals, consumed, tm _ hm], fun _ => rfl⟩
  | violation h => exact ⟨0, by simp [terminals, consumed], fun _ => rfl⟩

/-- C35, counted: a session that needs no events answers exactly the lines it has looked at, one message
each (none for a protocol violation). -/
theorem C35_count_partial (load : Str → Option Backend) (B : Backend) (hB : B.Safe) (path : Str)
    (hload : load path = some B) (ls : List Line) (ha : ∀ l ∈ ls, l.Ascii)
    (hno : ∀ e, Step.sent (.event e) ∉ (session load (.msg (.init path) :: ls)).1)
    (hs : (session load (.msg (.init path) :: ls)).2 ≠ .failed) :
    (terminals (session load (.msg (.init path) :: ls)).1).length + 1 =
      (consumed (session load (.msg (.init path) :: ls)).1).length := by
  obtain ⟨t, R, stop, h1, h2, _⟩ := C35_dialogue_partial load B hB path hload ls ha
  rw [h1] at hno hs ⊢
  obtain ⟨n, h3, h4⟩ := h2.count
  have := h4 fun e he => hno e (by simp [he])
  rw [if_neg hs] at h3
  simp only [terminals, consumed, List.length_cons]
  omega

/-- How a dialogue ends. -/
theorem Dialogue.ends {t : List Step} {R : List Line} {stop : Stop} (h2 : Dialogue t R stop) :
    match stop with
    | .closed => R = []
    | .exit => ∃ args, Line.msg (.command (chars! "shutdown") args) ∈ consumed t
    | .failed => ∃ m, Line.msg m ∈ consumed t ∧ ∀ c a, m ≠ .command c a
    | .crashed => False := by
  induction h2 with
  | eof => rfl
  | @bad t R s h ih =>
    cases s with
    | closed => exact ih
    | exit => obtain ⟨a, h⟩ := ih; exact ⟨a, by simp [consumed, h]⟩
    | failed => obtain ⟨a, h, h'⟩ := ih; exact ⟨a, by simp [consumed, h], h'⟩
    | crashed => exact ih
  | @command c a ev m t R s hc hev hm h ih =>
    cases s with
    | closed => exact ih
    | exit => obtain ⟨a, h⟩ := ih; exact ⟨a, by simp [consumed, consumed_append, h]⟩
    | failed => obtain ⟨a, h, h'⟩ := ih; exact ⟨a, by simp [consumed, consumed_append, h], h'⟩
    | crashed => exact ih
  | left hev hm => rfl
  | @shutdown a m R hm => exact ⟨a, by simp [consumed]⟩
  | @violation m R h => exact ⟨m, by simp [consumed], h⟩

/-- C35: a session in which nothing panics never crashes, and it ends with the client leaving (all its
lines looked at), a shutdown, or a message that is not a command. -/
theorem C35_ends_partial (load : Str → Option Backend) (B : Backend) (hB : B.Safe) (path : Str)
    (hload : load path = some B) (ls : List Line) (ha : ∀ l ∈ ls, l.Ascii) :
    match (session load (.msg (.init path) :: ls)).2 with
    | .closed => consumed (session load (.msg (.init path) :: ls)).1 = .msg (.init path) :: ls
    | .exit => ∃ args, .msg (.command (chars! "shutdown") args) ∈ ls
    | .failed => ∃ m, .msg m ∈ ls ∧ ∀ c a, m ≠ .command c a
    | .crashed => False := by
  obtain ⟨t, R, stop, h1, h2, h3⟩ := C35_dialogue_partial load B hB path hload ls ha
  rw [h1]
  have key := h2.ends
  cases stop with
  | closed =>
    simp only at key ⊢
    subst key
    rw [List.append_nil] at h3
    simp [consumed, h3]
  | exit => obtain ⟨a, h⟩ := key; exact ⟨a, h3 ▸ List.mem_append_left _ h⟩
  | failed => obtain ⟨a, h, h'⟩ := key; exact ⟨a, h3 ▸ List.mem_append_left _ h, h'⟩
  | crashed => exact key

/-- A backend for the examples: evaluating an expression reads eight bytes at address 16. -/
def demoBackend : Backend where
  eval _ := .ask (.readMemory 16 8) fun a =>
    match a with
    | some (.memory _) => .ok (chars! "{}")
    | _ => .err
  toRef _ := .err
  typeMethods _ := none
  functions _ := .ok (chars! "[]")
  allFunctions := .ok (chars! "[]")

theorem demoBackend_safe : demoBackend.Safe where
  eval _ := .ask _ fun a => by
    cases a with
    | none => exact .err
    | some a => cases a <;> first | exact .ok _ | exact .err
  toRef _ := .err
  typeMethods _ _ h := by simp [demoBackend] at h
  functions _ := trivial
  allFunctions := trivial

/-- A command. -/
def cmd (c : String) (args : List String) : Line := .msg (.command c.toList (args.map String.toList))

example : ∃ t R stop, session (fun _ => some demoBackend) (.msg (.init []) ::
      [cmd "eval" ["x"], .msg (.answer (.memory [1])), .bad, cmd "foo" [], cmd "shutdown" [], .bad]) =
        (.got (.msg (.init [])) :: t, stop) ∧ Dialogue t R stop ∧ stop = .exit ∧
      terminals t = [.complete (chars! "{}"), .error, .error, .complete (chars! "{\"status\":\"shutting down\"}")] ∧
      R = [.bad] := by
  obtain ⟨t, R, stop, h1, h2, h3⟩ := C35_dialogue_partial (fun _ => some demoBackend) demoBackend demoBackend_safe [] rfl
    [cmd "eval" ["x"], .msg (.answer (.memory [1])), .bad, cmd "foo" [], cmd "shutdown" [], .bad] (by
      intro l hl
      simp only [List.mem_cons, List.not_mem_nil, or_false] at hl
      rcases hl with rfl | rfl | rfl | rfl | rfl | rfl
      · simp only [cmd, Line.Ascii]; decide
      · trivial
      · trivial
      · simp [cmd, Line.Ascii]
      · simp [cmd, Line.Ascii]
      · trivial)
  have : session (fun _ => some demoBackend) (.msg (.init []) ::
      [cmd "eval" ["x"], .msg (.answer (.memory [1])), .bad, cmd "foo" [], cmd "shutdown" [], .bad]) = 
      ([.got (.msg (.init [])), .got (cmd "eval" ["x"]), .sent (.event (.readMemory 16 8)),
        .got (.msg (.answer (.memory [1]))), .sent (.complete (chars! "{}")), .got .bad, .sent .error,
        .got (cmd "foo" []), .sent .error, .got (cmd "shutdown" []),
        .sent (.complete (chars! "{\"status\":\"shutting down\"}"))], .exit) := rfl
  rw [this] at h1
  simp only [Prod.mk.injEq, List.cons.injEq, true_and] at h1
  obtain ⟨rfl, rfl⟩ := h1
  refine ⟨_, R, _, this, h2, rfl, rfl, ?_⟩
  simpa [consumed, cmd] using h3

/-- C35 is false of the code: one string argument with a character outside ASCII makes the thread of the
session panic; the command is not answered, and neither is anything after it. -/
theorem C35_panic_fails (load : Str → Option Backend) (B : Backend) (path : Str) (hload : load path = some B)
    (c : Char) (hc : ¬ Rudy.Expr.Ascii c) (rest : List Line) :
    session load (.msg (.init path) :: .msg (.command (chars! "eval") [['"', c, '"']]) :: rest) =
      ([.got (.msg (.init path)), .got (.msg (.command (chars! "eval") [['"', c, '"']]))], .crashed) := by
  have h : handleCommand B (chars! "eval") [['"', c, '"']] = .panic := by
    simp [handleCommand, joinWith, C15_non_ascii_string_fails c hc]
  simp [session, hload, sessionLoop, h, runConv]

/-! ### C36: malformed input -/

/-- C36 for the first sentence: after the initialization, an undecodable line is answered with one error
and changes nothing else: the session goes on as if it had not been sent. -/
theorem C36_bad_line (load : Str → Option Backend) (B : Backend) (path : Str) (hload : load path = some B)
    (ls : List Line) :
    ∃ t, session load (.msg (.init path) :: ls) = (.got (.msg (.init path)) :: t, (session load (.msg (.init path) :: ls)).2) ∧
      session load (.msg (.init path) :: .bad :: ls) =
        (.got (.msg (.init path)) :: .got .bad :: .sent .error :: t, (session load (.msg (.init path) :: ls)).2) := by
  simp only [session, hload, List.length_cons]
  exact ⟨_, rfl, rfl⟩

theorem loop_fuel (B : Backend) (n m : Nat) (ls : List Line) (hn : ls.length < n) (hm : ls.length < m) :
    sessionLoop B n ls = sessionLoop B m ls := by
  induction n generalizing m ls with
  | zero => omega
  | succ n ih =>
    cases m with
    | zero => omega
    | succ m =>
      cases ls with
      | nil => rfl
      | cons l ls =>
        simp only [List.length_cons] at hn hm
        unfold sessionLoop
        split
        · rw [ih m ls (by omega) (by omega)]
        · rfl
        · rfl
        · rename_i cmd args
          have hlen := runConv_length (handleCommand B cmd args) ls
          simp only
          split
          · rfl
          · rfl
          · split
            · rfl
            · rw [ih m _ (by omega) (by omega)]

/-- C36, anywhere in the session: undecodable lines that are looked at between commands can be removed
without changing anything but their own errors. Here: any commands that need no event, before the line. -/
theorem C36_bad_line_later (load : Str → Option Backend) (B : Backend) (path : Str) (hload : load path = some B)
    (before : List (Str × List Str × ServerMsg))
    (hb : ∀ x ∈ before, x.1 ≠ chars! "shutdown" ∧ handleCommand B x.1 x.2.1 = .ok x.2.2) (ls : List Line) :
    let lines := before.map fun x => Line.msg (.command x.1 x.2.1)
    let steps := before.flatMap fun x => [Step.got (.msg (.command x.1 x.2.1)), .sent x.2.2]
    ∃ t stop, session load (.msg (.init path) :: (lines ++ ls)) = (.got (.msg (.init path)) :: (steps ++ t), stop) ∧
      session load (.msg (.init path) :: (lines ++ .bad :: ls)) =
        (.got (.msg (.init path)) :: (steps ++ .got .bad :: .sent .error :: t), stop) := by
  have key : ∀ (n : Nat) (tail : List Line), tail.length < n →
      sessionLoop B (before.length + n) (before.map (fun x => Line.msg (.command x.1 x.2.1)) ++ tail) =
        (before.flatMap (fun x => [Step.got (.msg (.command x.1 x.2.1)), .sent x.2.2]) ++ (sessionLoop B n tail).1,
          (sessionLoop B n tail).2) := by
    intro n tail hn
    induction before with
    | nil => simp
    | cons x xs ih =>
      have hx := hb x (by simp)
      have ih := ih fun y hy => hb y (by simp [hy])
      simp only [List.length_cons, List.map_cons, List.cons_append, List.flatMap_cons]
      rw [show xs.length + 1 + n = (xs.length + n) + 1 by omega]
      simp only [sessionLoop, hx.2, runConv, if_neg hx.1, ih]
      simp
  refine ⟨(sessionLoop B (ls.length + 1) ls).1, (sessionLoop B (ls.length + 1) ls).2, ?_, ?_⟩
  · simp only [session, hload, List.length_append, List.length_map]
    rw [Nat.add_assoc, key _ ls (by omega)]
  · simp only [session, hload, List.length_append, List.length_map, List.length_cons]
    rw [Nat.add_assoc, key _ (.bad :: ls) (by simp)]
    rfl

example : ∃ t stop, session (fun _ => some demoBackend) (.msg (.init []) :: [cmd "functions" ["a"], cmd "eval" ["a"]]) =
      (.got (.msg (.init [])) :: ([.got (cmd "functions" ["a"]), .sent (.complete (chars! "[]"))] ++ t), stop) ∧
    session (fun _ => some demoBackend) (.msg (.init []) :: [cmd "functions" ["a"], .bad, cmd "eval" ["a"]]) =
      (.got (.msg (.init [])) :: ([.got (cmd "functions" ["a"]), .sent (.complete (chars! "[]"))] ++
        .got .bad :: .sent .error :: t), stop) :=
  C36_bad_line_later (fun _ => some demoBackend) demoBackend [] rfl
    [(chars! "functions", [chars! "a"], .complete (chars! "[]"))]
    (by intro x hx; simp at hx; subst hx; exact ⟨by decide, rfl⟩) [cmd "eval" ["a"]]

/-- C36 is false of the code for the first line: an undecodable first line ends the session without an
answer, and so does a binary that cannot be loaded. -/
theorem C36_first_line_fails (load : Str → Option Backend) (ls : List Line) :
    session load (.bad :: ls) = ([.got .bad], .failed) ∧
    ∀ path, load path = none → session load (.msg (.init path) :: ls) = ([.got (.msg (.init path))], .failed) :=
  ⟨rfl, fun path h => by simp [session, h]⟩

/-- C36 is false of the code during events: whatever command is sent while the server waits for the answer
of an event, it is taken as a failed answer; the command itself is never executed nor answered. -/
theorem C36_command_during_event_fails (load : Str → Option Backend) (B : Backend) (path : Str)
    (hload : load path = some B) (c : Str) (args : List Str) (hc : c ≠ chars! "shutdown") (e : Event)
    (k : Option Answer → Conv ServerMsg) (hk : handleCommand B c args = .ask e k) (m : ServerMsg)
    (hm : k none = .ok m) (c' : Str) (args' : List Str) :
    session load [.msg (.init path), .msg (.command c args), .msg (.command c' args')] =
      ([.got (.msg (.init path)), .got (.msg (.command c args)), .sent (.event e), .got (.msg (.command c' args')),
        .sent m], .closed) := by
  simp [session, hload, sessionLoop, hk, runConv, hm, hc]

/-- In particular a shutdown can be lost: the server goes on. -/
theorem C36_shutdown_lost_fails : ∃ load ls, cmd "shutdown" [] ∈ ls ∧ (session load ls).2 = .closed ∧
    cmd "shutdown" [] ∈ consumed (session load ls).1 :=
  ⟨fun _ => some demoBackend, [.msg (.init []), cmd "eval" ["x"], cmd "shutdown" []], by simp, rfl, by
    rw [show consumed (session (fun _ => some demoBackend) [.msg (.init []), cmd "eval" ["x"], cmd "shutdown" []]).1 =
      [.msg (.init []), cmd "eval" ["x"], cmd "shutdown" []] from rfl]
    simp⟩

end Rudy.Server
