import Verif.Model.Sessions
import Verif.Props.Client
/-
C79: the sessions of a server do not disturb each other.
-/
namespace Rudy.Sessions
open Rudy Rudy.Server Rudy.Client

/-! ### Proof -/

/-- The states a connection of any kind can be in by itself. -/
inductive Own (load : Str → Option Backend) (o : Origin) : Sys → Prop where
  | init : Own load o o.begin
  | user {s s' : Sys} {p : Str} : o = .rd p → Own load o s → User s s' → Own load o s'
  | step {s s' : Sys} : Own load o s → Internal load s s' → Own load o s'

theorem Own.reach {load : Str → Option Backend} {p : Str} {s : Sys} (h : Own load (.rd p) s) : Reach load p s := by
  induction h with
  | init => exact .init
  | user _ _ hu ih => exact .user ih hu
  | step _ hi ih => exact .step ih hi

theorem reach_own {load : Str → Option Backend} {p : Str} {s : Sys} (h : Reach load p s) : Own load (.rd p) s := by
  induction h with
  | init => exact .init
  | user _ hu ih => exact .user rfl ih hu
  | step _ hi ih => exact .step ih hi

/-- What is left of a connection when the process has gone: what was answered is right, and at most one message, an event or
the right answer to the open command, is still to be read. -/
structure Left (load : Str → Option Backend) (p : Str) (s : Sys) : Prop where
  gone : s.srv = .stopped
  right : ∀ e ∈ s.log, ∀ m, e.outcome = some m → ∃ B, load p = some B ∧ At B e.call (.ok m)
  rest : s.toClient = [] ∨ (∃ e, s.toClient = [.event e]) ∨
    ∃ m c B, s.toClient = [m] ∧ s.call = some c ∧ load p = some B ∧ At B c (.ok m)

theorem left_of_reach {load : Str → Option Backend} {p : Str} {s : Sys} (h : Reach load p s) : Left load p { s with srv := .stopped } := by
  obtain ⟨hs, hl⟩ := inv_reach h
  refine ⟨rfl, fun e he m hm => ?_, ?_⟩
  · have := hl e he
    rw [hm] at this
    exact this
  · obtain ⟨ts, tc, srv, call, log, tr⟩ := s
    simp only at hs ⊢
    cases hs with
    | wait1 hB ha => exact .inr (.inl ⟨_, rfl⟩)
    | reply hB ha hc => exact .inr (.inr ⟨_, _, _, rfl, rfl, hB, ha⟩)
    | bye hB ha hc => exact .inr (.inr ⟨_, _, _, rfl, rfl, hB, ha⟩)
    | _ => exact .inl rfl

theorem left_user {load : Str → Option Backend} {p : Str} {s s' : Sys} (h : Left load p s) (hu : User s s') : Left load p s' := by
  cases hu with
  | give cmd args hc =>
    refine ⟨h.gone, h.right, ?_⟩
    rcases h.rest with h1 | h1 | ⟨m, c, B, _, h2, _⟩
    · exact .inl h1
    · exact .inr (.inl h1)
    · rw [hc] at h2; cases h2

theorem left_step {load : Str → Option Backend} {p : Str} {s s' : Sys} (h : Left load p s) (hi : Internal load s s') : Left load p s' := by
  have hg := h.gone
  cases hi with
  | @event e r c a hc ht =>
    refine ⟨hg, h.right, .inl ?_⟩
    rcases h.rest with h1 | ⟨e', h1⟩ | ⟨m, c', B, h1, h2, hB, ha⟩
    · rw [ht] at h1; cases h1
    · rw [ht] at h1; cases h1; rfl
    · rw [ht] at h1; cases h1; rfl
  | @final m r c hc ht hf =>
    rcases h.rest with h1 | ⟨e', h1⟩ | ⟨m', c', B, h1, h2, hB, ha⟩
    · rw [ht] at h1; cases h1
    · rw [ht] at h1; cases h1; cases hf
    · rw [ht] at h1
      rw [hc] at h2
      cases h1; cases h2
      refine ⟨hg, fun e he m' hm => ?_, .inl rfl⟩
      simp only [List.mem_append, List.mem_singleton] at he
      rcases he with he | rfl
      · exact h.right e he m' hm
      · cases hm; exact ⟨B, hB, ha⟩
  | @closed c hc ht hd =>
    refine ⟨hg, fun e he m' hm => ?_, .inl ht⟩
    simp only [List.mem_append, List.mem_singleton] at he
    rcases he with he | rfl
    · exact h.right e he m' hm
    · cases hm
  | opened hd _ _ => rw [hg] at hd; cases hd
  | refused hd _ _ => rw [hg] at hd; cases hd
  | shutdownFirst hd _ _ => rw [hg] at hd; cases hd
  | badFirst hd _ _ _ => rw [hg] at hd; cases hd
  | command hd _ => rw [hg] at hd; cases hd
  | unreadable hd _ => rw [hg] at hd; cases hd
  | misplaced hd _ _ => rw [hg] at hd; cases hd
  | asks hd => rw [hg] at hd; cases hd
  | answered hd _ => rw [hg] at hd; cases hd
  | responds hd _ => rw [hg] at hd; cases hd
  | exits hd _ => rw [hg] at hd; cases hd
  | fails hd => rw [hg] at hd; cases hd
  | panics hd => rw [hg] at hd; cases hd

theorem left_kill {load : Str → Option Backend} {p : Str} {s : Sys} (h : Left load p s) : Left load p { s with srv := .stopped } :=
  ⟨rfl, h.right, h.rest⟩

/-- What holds of every connection of a server. -/
structure Good (S : Server) : Prop where
  alive : S.alive = true → ∀ c ∈ S.conns, Own c.load c.origin c.sys
  gone : S.alive = false → ∀ c ∈ S.conns, ∀ p, c.origin = .rd p → Left c.load p c.sys

theorem mem_set {α : Type} {l : List α} {i : Nat} {x y : α} (h : y ∈ l.set i x) : y = x ∨ y ∈ l := (List.mem_or_eq_of_mem_set h).symm

theorem left_own {c : Conn} {p : Str} (hp : c.origin = .rd p) (h : Own c.load c.origin c.sys) : Left c.load p c.kill.sys := by
  rw [hp] at h
  exact left_of_reach h.reach

theorem good_run {S : Server} (h : Run S) : Good S := by
  induction h with
  | start => exact ⟨fun _ c hc => (by cases hc), fun h => (by cases h)⟩
  | @step S S' _ hs ih =>
    cases hs with
    | accept load o ha =>
      refine ⟨fun _ c hc => ?_, fun h => by rw [ha] at h; cases h⟩
      simp only [List.mem_append, List.mem_singleton] at hc
      rcases hc with hc | rfl
      · exact ih.alive ha c hc
      · exact .init
    | @user i c p s' hi hp hu =>
      refine ⟨fun ha d hd => ?_, fun ha d hd q hq => ?_⟩
      · rcases mem_set hd with rfl | hd
        · exact .user hp (ih.alive ha c (List.mem_of_getElem? hi)) hu
        · exact ih.alive ha d hd
      · rcases mem_set hd with rfl | hd
        · exact left_user (ih.gone ha c (List.mem_of_getElem? hi) q hq) hu
        · exact ih.gone ha d hd q hq
    | @step i c s' hi hu hx =>
      refine ⟨fun ha d hd => ?_, fun ha d hd q hq => ?_⟩
      · rcases mem_set hd with rfl | hd
        · exact .step (ih.alive ha c (List.mem_of_getElem? hi)) hu
        · exact ih.alive ha d hd
      · rcases mem_set hd with rfl | hd
        · exact left_step (ih.gone ha c (List.mem_of_getElem? hi) q hq) hu
        · exact ih.gone ha d hd q hq
    | @exit i c s' hi hu hx =>
      refine ⟨fun ha => (by cases ha), fun _ d hd q hq => ?_⟩
      obtain ⟨d', hd', rfl⟩ := List.mem_map.1 hd
      cases ha : S.alive with
      | true =>
        rcases mem_set hd' with rfl | hd'
        · exact left_own (c := { c with sys := s' }) hq (.step (ih.alive ha c (List.mem_of_getElem? hi)) hu)
        · exact left_own (c := d') hq (ih.alive ha d' hd')
      | false =>
        rcases mem_set hd' with rfl | hd'
        · exact left_kill (left_step (ih.gone ha c (List.mem_of_getElem? hi) q hq) hu)
        · exact left_kill (ih.gone ha d' hd' q hq)
    | acceptFails ha =>
      refine ⟨fun h => (by cases h), fun _ d hd q hq => ?_⟩
      obtain ⟨d', hd', rfl⟩ := List.mem_map.1 hd
      exact left_own (c := d') hq (ih.alive ha d' hd')

/-! ### The property -/

/-- C79: while the server runs, every session of `rd` is in a state it could be in if it were the only one; all that is proved
of a single connection (C35, C36, C68) is so for each of them, whatever the others do. -/
theorem C79_alone {S : Server} (h : Run S) (ha : S.alive = true) {c : Conn} (hc : c ∈ S.conns) {p : Str} (hp : c.origin = .rd p) :
    Reach c.load p c.sys := by
  have := (good_run h).alive ha c hc
  rw [hp] at this
  exact this.reach

/-- C79: a response shown in a session is the one computed for that session's command, with the binary of that session and the
answers LLDB gave in that session, whatever other sessions do and even if the process ends. -/
theorem C79_response {S : Server} (h : Run S) {c : Conn} (hc : c ∈ S.conns) {p : Str} (hp : c.origin = .rd p) {e : Entry} (he : e ∈ c.sys.log)
    {m : ServerMsg} (hm : e.outcome = some m) :
    ∃ B, c.load p = some B ∧ After (handleCommand B e.call.cmd e.call.args) e.call.exchanges (.ok m) := by
  cases ha : S.alive with
  | true => exact C68_response (C79_alone h ha hc hp) he hm
  | false => exact ((good_run h).gone ha c hc p hp).right e he m hm

/-- C79: a session is never held up by another: as long as one of its commands is open, the next thing that happens can be a
step of that session. -/
theorem C79_progress {S : Server} (h : Run S) {i : Nat} {c : Conn} (hc : S.conns[i]? = some c) {p : Str} (hp : c.origin = .rd p)
    (ho : c.sys.call ≠ none) : ∃ s' S', Internal c.load c.sys s' ∧ Step S S' ∧
      (S'.conns[i]?.map (·.sys) = some s' ∨ S'.conns[i]?.map (·.sys) = some { s' with srv := .stopped }) := by
  have hm := List.mem_of_getElem? hc
  have hi : ∃ s', Internal c.load c.sys s' := by
    cases ha : S.alive with
    | true => exact C68_progress (C79_alone h ha hm hp) ho
    | false =>
      have hl := (good_run h).gone ha c hm p hp
      cases hcall : c.sys.call with
      | none => exact absurd hcall ho
      | some k =>
        cases ht : c.sys.toClient with
        | nil => exact ⟨_, .closed hcall ht hl.gone⟩
        | cons m r =>
          cases m with
          | event e => exact ⟨_, .event none hcall ht⟩
          | _ => exact ⟨_, .final hcall ht rfl⟩
  obtain ⟨s', hs⟩ := hi
  have hlt := (List.getElem?_eq_some_iff.1 hc).1
  by_cases hx : Exits c.sys s'
  · exact ⟨s', _, hs, .exit hc hs hx, .inr (by
      simp only [List.getElem?_map, List.getElem?_set_self hlt, Option.map_some]; rfl)⟩
  · exact ⟨s', _, hs, .step hc hs hx, .inl (by simp [List.getElem?_set_self hlt])⟩

/-- What one step of the whole does to a connection: nothing, or a step of its own, or its thread ends with the process. -/
theorem step_conn {S S' : Server} (h : Step S S') {i : Nat} {c : Conn} (hc : S.conns[i]? = some c) :
    ∃ c', S'.conns[i]? = some c' ∧ c'.load = c.load ∧ c'.origin = c.origin ∧
      (c'.sys = c.sys ∨ User c.sys c'.sys ∨ Internal c.load c.sys c'.sys ∨
        (S'.alive = false ∧ (c'.sys = { c.sys with srv := .stopped } ∨ ∃ s', Internal c.load c.sys s' ∧ c'.sys = { s' with srv := .stopped }))) := by
  cases h with
  | accept load o ha =>
    refine ⟨c, ?_, rfl, rfl, .inl rfl⟩
    have := (List.getElem?_eq_some_iff.1 hc).1
    simp only [List.getElem?_append_left this]; exact hc
  | @user j d p s' hj hp hu =>
    by_cases e : j = i
    · subst e
      rw [hc] at hj; cases hj
      exact ⟨{ c with sys := s' }, List.getElem?_set_self (List.getElem?_eq_some_iff.1 hc).1, rfl, rfl, .inr (.inl hu)⟩
    · exact ⟨c, by simp only [List.getElem?_set_ne e]; exact hc, rfl, rfl, .inl rfl⟩
  | @step j d s' hj hu hx =>
    by_cases e : j = i
    · subst e
      rw [hc] at hj; cases hj
      exact ⟨{ c with sys := s' }, List.getElem?_set_self (List.getElem?_eq_some_iff.1 hc).1, rfl, rfl, .inr (.inr (.inl hu))⟩
    · exact ⟨c, by simp only [List.getElem?_set_ne e]; exact hc, rfl, rfl, .inl rfl⟩
  | @exit j d s' hj hu hx =>
    by_cases e : j = i
    · subst e
      rw [hc] at hj; cases hj
      exact ⟨({ c with sys := s' } : Conn).kill, by simp only [List.getElem?_map, List.getElem?_set_self (List.getElem?_eq_some_iff.1 hc).1, Option.map_some], rfl, rfl,
        .inr (.inr (.inr ⟨rfl, .inr ⟨s', hu, rfl⟩⟩))⟩
    · exact ⟨c.kill, by simp [List.getElem?_set_ne e, hc], rfl, rfl, .inr (.inr (.inr ⟨rfl, .inl rfl⟩))⟩
  | acceptFails ha => exact ⟨c.kill, by simp [hc], rfl, rfl, .inr (.inr (.inr ⟨rfl, .inl rfl⟩))⟩

/-- A run from one state of the whole to another. -/
inductive Runs : Server → Server → Prop where
  | refl (S : Server) : Runs S S
  | tail {S T U : Server} : Runs S T → Step T U → Runs S U

theorem Runs.trans {S T U : Server} (h : Runs S T) (h' : Runs T U) : Runs S U := by
  induction h' with
  | refl => exact h
  | tail _ hs ih => exact .tail ih hs

/-- The states a session can be in without having shut the server down. -/
inductive Quiet (load : Str → Option Backend) (p : Str) : Sys → Prop where
  | init : Quiet load p (initial p)
  | user {s s' : Sys} : Quiet load p s → User s s' → Quiet load p s'
  | step {s s' : Sys} : Quiet load p s → Internal load s s' → ¬ Exits s s' → Quiet load p s'

theorem add_session {S : Server} (ha : S.alive = true) {load : Str → Option Backend} {p : Str} {s : Sys} (h : Quiet load p s) :
    Runs S { S with conns := S.conns ++ [⟨load, .rd p, s⟩] } := by
  induction h with
  | init => exact .tail (.refl S) (.accept load (.rd p) ha)
  | @user s s' _ hu ih =>
    refine .tail ih ?_
    have := Step.user (S := { S with conns := S.conns ++ [⟨load, .rd p, s⟩] }) (i := S.conns.length) (c := ⟨load, .rd p, s⟩) (p := p) (by simp) rfl hu
    simpa using this
  | @step s s' _ hi hx ih =>
    refine .tail ih ?_
    have := Step.step (S := { S with conns := S.conns ++ [⟨load, .rd p, s⟩] }) (i := S.conns.length) (c := ⟨load, .rd p, s⟩) (by simp) hi hx
    simpa using this

/-- C79: sessions are independent: whatever the states each of several sessions can be in by itself, without having shut the
server down, the server can have all of these sessions in these very states at the same time. No session rules out
anything in another. -/
theorem C79_independent (cs : List ((Str → Option Backend) × Str × Sys)) (h : ∀ x ∈ cs, Quiet x.1 x.2.1 x.2.2) :
    Run ⟨true, cs.map fun x => ⟨x.1, .rd x.2.1, x.2.2⟩⟩ := by
  have run_runs : ∀ {S T : Server}, Runs S T → Run S → Run T := by
    intro S T h hS
    induction h with
    | refl => exact hS
    | tail _ hs ih => exact .step ih hs
  have key : ∀ (cs : List ((Str → Option Backend) × Str × Sys)) (S : Server), S.alive = true → Run S → (∀ x ∈ cs, Quiet x.1 x.2.1 x.2.2) →
      Run { S with conns := S.conns ++ cs.map fun x => ⟨x.1, .rd x.2.1, x.2.2⟩ } := by
    intro cs
    induction cs with
    | nil => intro S _ hS _; simpa using hS
    | cons x cs ih =>
      intro S ha hS hx
      have := ih { S with conns := S.conns ++ [⟨x.1, .rd x.2.1, x.2.2⟩] } ha (run_runs (add_session ha (hx x (by simp))) hS)
        (fun y hy => hx y (by simp [hy]))
      simpa using this
  simpa using key cs ⟨true, []⟩ rfl .start h

/-- C79: the server ends only when a session or `stop` has asked for it with `shutdown`, or no connection can be
accepted any more: nothing else that happens in a session, errors and panics included, ends another session or keeps new
ones from being made. -/
theorem C79_ends {S S' : Server} (h : Step S S') (ha : S.alive = true) (hd : S'.alive = false) :
    S' = ⟨false, S.conns.map Conn.kill⟩ ∨ ∃ c ∈ S.conns, ∃ s', Internal c.load c.sys s' ∧
      ((∃ B m, c.sys.srv = .running B (chars! "shutdown") (.ok m)) ∨
        (c.sys.srv = .start ∧ ∃ args r, c.sys.toServer = .msg (.command (chars! "shutdown") args) :: r)) := by
  cases h with
  | accept load o _ => rw [ha] at hd; cases hd
  | user _ _ _ => rw [ha] at hd; cases hd
  | step _ _ _ => rw [ha] at hd; cases hd
  | @exit i c s' hi hu hx => exact .inr ⟨c, List.mem_of_getElem? hi, s', hu, hx.2⟩
  | acceptFails _ => exact .inl rfl

/-- C79: `stop` makes the server end: when its connection has been made, the server can take that step whatever the other
sessions are doing, and its confirmation is sent before. -/
theorem C79_stop {S : Server} {i : Nat} {c : Conn} (hc : S.conns[i]? = some c) (ho : c.sys = Origin.stop.begin) :
    ∃ S' c', Step S S' ∧ S'.alive = false ∧ S'.conns[i]? = some c' ∧
      c'.sys.toClient = [.complete (chars! "{\"status\":\"shutting down\"}")] ∧ ∀ d ∈ S'.conns, d.sys.srv = .stopped := by
  have hi : Internal c.load c.sys _ := .shutdownFirst (s := c.sys) (cmd := chars! "shutdown") (args := []) (r := []) (by rw [ho]; rfl) (by rw [ho]; rfl) rfl
  refine ⟨_, _, .exit hc hi ⟨rfl, .inr ⟨by rw [ho]; rfl, [], [], by rw [ho]; rfl⟩⟩, rfl,
    by simp only [List.getElem?_map, List.getElem?_set_self (List.getElem?_eq_some_iff.1 hc).1, Option.map_some]; rfl, ?_, ?_⟩
  · show c.sys.toClient ++ _ = _
    rw [ho]; rfl
  · intro d hd
    obtain ⟨d', _, rfl⟩ := List.mem_map.1 hd
    rfl

/-! ### Every command comes to an end -/

theorem internal_stopped {load : Str → Option Backend} {s s' : Sys} (hg : s.srv = .stopped) (hi : Internal load s s') :
    s'.srv = .stopped ∧ s'.toClient.length + s'.call.toList.length < s.toClient.length + s.call.toList.length := by
  cases hi with
  | event a hc ht => exact ⟨hg, by simp [hc, ht]⟩
  | final hc ht hf => exact ⟨hg, by simp only [hc, ht, List.length_cons, Option.toList, List.length_nil]; omega⟩
  | closed hc ht hd => exact ⟨hg, by simp [hc, ht]⟩
  | opened hd _ _ => rw [hg] at hd; cases hd
  | refused hd _ _ => rw [hg] at hd; cases hd
  | shutdownFirst hd _ _ => rw [hg] at hd; cases hd
  | badFirst hd _ _ _ => rw [hg] at hd; cases hd
  | command hd _ => rw [hg] at hd; cases hd
  | unreadable hd _ => rw [hg] at hd; cases hd
  | misplaced hd _ _ => rw [hg] at hd; cases hd
  | asks hd => rw [hg] at hd; cases hd
  | answered hd _ => rw [hg] at hd; cases hd
  | responds hd _ => rw [hg] at hd; cases hd
  | exits hd _ => rw [hg] at hd; cases hd
  | fails hd => rw [hg] at hd; cases hd
  | panics hd => rw [hg] at hd; cases hd

/-- One step of the whole, seen from a connection whose user gives no command. -/
def Seen (load : Str → Option Backend) (s t : Sys) : Prop :=
  t = s ∨ Internal load s t ∨ t = { s with srv := .stopped } ∨ ∃ s', Internal load s s' ∧ t = { s' with srv := .stopped }

theorem settles_stopped {load : Str → Option Backend} (n : Nat) : ∀ (g : Nat → Sys), (g 0).srv = .stopped →
    (g 0).toClient.length + (g 0).call.toList.length ≤ n → (∀ k, Seen load (g k) (g (k + 1))) → ∃ N, ∀ k, g (N + k) = g N := by
  induction n with
  | zero =>
    intro g hg hn hs
    have key : ∀ k, g k = g 0 := by
      intro k
      induction k with
      | zero => rfl
      | succ k ih =>
        rcases hs k with h | h | h | ⟨s', h, h'⟩
        · rw [h, ih]
        · rw [ih] at h; have := (internal_stopped hg h).2; omega
        · rw [h, ih]; generalize g 0 = x at hg ⊢; cases x; cases hg; rfl
        · rw [ih] at h; have := (internal_stopped hg h).2; omega
    exact ⟨0, fun k => by rw [Nat.zero_add]; exact key k⟩
  | succ n ih =>
    intro g hg hn hs
    by_cases hc : ∀ k, g (k + 1) = g k
    · have key : ∀ k, g k = g 0 := by
        intro k
        induction k with
        | zero => rfl
        | succ k ih => rw [hc, ih]
      exact ⟨0, fun k => by rw [Nat.zero_add]; exact key k⟩
    · have hex : ∃ k, g (k + 1) ≠ g k := by
        apply Classical.byContradiction
        intro hno
        exact hc fun k => Classical.byContradiction fun hne => hno ⟨k, hne⟩
      have hinv : ∀ k, (g k).srv = .stopped ∧ (g k).toClient.length + (g k).call.toList.length ≤ (g 0).toClient.length + (g 0).call.toList.length := by
        intro k
        induction k with
        | zero => exact ⟨hg, Nat.le_refl _⟩
        | succ k ih =>
          rcases hs k with h | h | h | ⟨s', h, h'⟩
          · rw [h]; exact ih
          · have := internal_stopped ih.1 h; exact ⟨this.1, by omega⟩
          · rw [h]; exact ⟨rfl, ih.2⟩
          · have := internal_stopped ih.1 h; rw [h']; exact ⟨rfl, by simp only; omega⟩
      obtain ⟨k, hk⟩ := hex
      have hlt : (g (k + 1)).toClient.length + (g (k + 1)).call.toList.length ≤ n := by
        have h0 := (hinv k).2
        rcases hs k with h | h | h | ⟨s', h, h'⟩
        · exact absurd h hk
        · have := (internal_stopped (hinv k).1 h).2; omega
        · refine absurd ?_ hk
          rw [h]
          have := (hinv k).1
          generalize g k = x at this ⊢; cases x; cases this; rfl
        · have := (internal_stopped (hinv k).1 h).2; rw [h']; simp only; omega
      obtain ⟨N, hN⟩ := ih (fun j => g (k + 1 + j)) (hinv (k + 1)).1 hlt (fun j => hs (k + 1 + j))
      exact ⟨k + 1 + N, fun j => by rw [Nat.add_assoc]; exact hN j⟩

theorem settles {load : Str → Option Backend} {s : Sys} (ha : Acc (Back load) s) : ∀ (g : Nat → Sys), g 0 = s →
    (∀ k, Seen load (g k) (g (k + 1))) → ∃ N, ∀ k, g (N + k) = g N := by
  induction ha with
  | intro s _ ih =>
    intro g hg hs
    by_cases hc : ∀ k, g (k + 1) = g k
    · have key : ∀ k, g k = g 0 := by
        intro k
        induction k with
        | zero => rfl
        | succ k ih => rw [hc, ih]
      exact ⟨0, fun k => by rw [Nat.zero_add]; exact key k⟩
    · -- the first change
      have hex : ∃ k, g k = s ∧ g (k + 1) ≠ s := by
        apply Classical.byContradiction
        intro hno
        have key : ∀ k, g k = s := by
          intro k
          induction k with
          | zero => exact hg
          | succ k ih => exact Classical.byContradiction fun hne => hno ⟨k, ih, hne⟩
        exact hc fun k => by rw [key, key]
      obtain ⟨k, hk, hne⟩ := hex
      have shift : (∃ N, ∀ j, g (k + 1 + (N + j)) = g (k + 1 + N)) → ∃ N, ∀ j, g (N + j) = g N := by
        rintro ⟨N, hN⟩
        exact ⟨k + 1 + N, fun j => by rw [Nat.add_assoc]; exact hN j⟩
      rcases hs k with h | h | h | ⟨s', h, h'⟩
      · exact absurd (h.trans hk) hne
      · rw [hk] at h
        exact shift (ih _ h (fun j => g (k + 1 + j)) rfl (fun j => hs (k + 1 + j)))
      · exact shift (settles_stopped (load := load) _ (fun j => g (k + 1 + j)) (by show (g (k + 1)).srv = _; rw [h]) (Nat.le_refl _)
          (fun j => hs (k + 1 + j)))
      · exact shift (settles_stopped (load := load) _ (fun j => g (k + 1 + j)) (by show (g (k + 1)).srv = _; rw [h']) (Nat.le_refl _)
          (fun j => hs (k + 1 + j)))

theorem acc_stopped {load : Str → Option Backend} (n : Nat) : ∀ s : Sys, s.srv = .stopped → s.toClient.length + s.call.toList.length ≤ n →
    Acc (Back load) s := by
  induction n with
  | zero => intro s hs hn; exact ⟨_, fun t ht => by have := (internal_stopped hs ht).2; omega⟩
  | succ n ih =>
    intro s hs hn
    exact ⟨_, fun t ht => by have := internal_stopped hs ht; exact ih t this.1 (by omega)⟩

/-- C79: in every run of the whole, however its sessions interleave and however many there are, a session whose user gives no
further command takes finitely many steps: with `C79_progress`, every command comes to its end unless its session is
never given a turn again. -/
theorem C79_finite (f : Nat → Server) (hr : Run (f 0)) (hs : ∀ n, Step (f n) (f (n + 1))) {i : Nat} {c : Conn} {p : Str} (hc : (f 0).conns[i]? = some c)
    (hp : c.origin = .rd p) (g : Nat → Conn) (hg : ∀ n, (f n).conns[i]? = some (g n)) (hu : ∀ n, ¬ User (g n).sys (g (n + 1)).sys) :
    ∃ N, ∀ k, (g (N + k)).sys = (g N).sys := by
  have hl : ∀ n, (g n).load = c.load ∧ Seen c.load (g n).sys (g (n + 1)).sys := by
    have h0 : g 0 = c := by have := hg 0; rw [hc] at this; cases this; rfl
    have hstep : ∀ n, (g (n + 1)).load = (g n).load ∧ Seen (g n).load (g n).sys (g (n + 1)).sys := by
      intro n
      obtain ⟨c', h1, h2, _, h4⟩ := step_conn (hs n) (hg n)
      rw [hg (n + 1)] at h1; cases h1
      refine ⟨h2, ?_⟩
      rcases h4 with h | h | h | ⟨_, h | h⟩
      · exact .inl h
      · exact absurd h (hu n)
      · exact .inr (.inl h)
      · exact .inr (.inr (.inl h))
      · exact .inr (.inr (.inr h))
    have hload : ∀ n, (g n).load = c.load := by
      intro n
      induction n with
      | zero => rw [h0]
      | succ n ih => rw [(hstep n).1, ih]
    intro n
    refine ⟨hload n, ?_⟩
    have := (hstep n).2
    rw [hload n] at this
    exact this
  have h0 : g 0 = c := by have := hg 0; rw [hc] at this; cases this; rfl
  have hacc : Acc (Back c.load) c.sys := by
    have hm := List.mem_of_getElem? hc
    cases ha : (f 0).alive with
    | true => exact acc_inv (inv_reach (C79_alone hr ha hm hp))
    | false => exact acc_stopped _ _ ((good_run hr).gone ha c hm p hp).gone (Nat.le_refl _)
  exact settles hacc (fun n => (g n).sys) (by show (g 0).sys = _; rw [h0]) (fun n => (hl n).2)

/-! ### Where it fails -/

/-- C79 fails: any session, or `stop`, can end the process under the others. Whatever a session is doing, its open command can be
reported as failed by the next things that happen, none of which is a step of the session's own thread or anything its
user did. -/
theorem C79_shutdown_fails {S : Server} (ha : S.alive = true) {i : Nat} {c : Conn} (hc : S.conns[i]? = some c) {k : Call}
    (ho : c.sys.call = some k) (ht : c.sys.toClient = []) :
    ∃ S' c', Runs S S' ∧ S'.conns[i]? = some c' ∧ c'.sys.log = c.sys.log ++ [⟨k, none⟩] ∧ c'.sys.trace = c.sys.trace := by
  have hlt := (List.getElem?_eq_some_iff.1 hc).1
  have h1 : Step S { S with conns := S.conns ++ [⟨fun _ => none, .stop, Origin.stop.begin⟩] } := .accept (fun _ => none) .stop ha
  have hcn : ({ S with conns := S.conns ++ [⟨fun _ => none, .stop, Origin.stop.begin⟩] } : Server).conns[S.conns.length]? =
      some ⟨fun _ => none, .stop, Origin.stop.begin⟩ := by simp
  have hi : Internal (fun _ => none) Origin.stop.begin _ :=
    .shutdownFirst (s := Origin.stop.begin) (cmd := chars! "shutdown") (args := []) (r := []) rfl rfl rfl
  have h2 := Step.exit hcn hi ⟨rfl, .inr ⟨rfl, [], [], rfl⟩⟩
  generalize hS2 : (⟨false, _⟩ : Server) = S2 at h2
  have hc2 : S2.conns[i]? = some c.kill := by
    rw [← hS2]
    simp only [List.getElem?_map]
    rw [List.getElem?_set_ne (by omega), List.getElem?_append_left hlt, hc]
    rfl
  have h3 := Step.step (S := S2) hc2 (Internal.closed (s := c.kill.sys) ho ht rfl) (by
    rintro ⟨_, ⟨B, m, h⟩ | ⟨h, _⟩⟩
    · cases h
    · cases h)
  exact ⟨_, _, .tail (.tail (.tail (.refl S) h1) h2) h3, List.getElem?_set_self (List.getElem?_eq_some_iff.1 hc2).1, rfl, rfl⟩

/-- C79 fails as well when a connection cannot be accepted, for example because too many files are open: all sessions end. -/
theorem C79_accept_fails {S : Server} (ha : S.alive = true) :
    ∃ S', Step S S' ∧ ∀ c ∈ S'.conns, c.sys.srv = .stopped :=
  ⟨_, .acceptFails ha, fun c hc => by obtain ⟨d, _, rfl⟩ := List.mem_map.1 hc; rfl⟩

/-! ### Cases -/

/-- Two sessions, of two binaries: one is idle after two commands, the other one waits for memory; a probe has come and gone. -/
theorem two_quiet : Quiet (fun _ => some demoBackend) [] ⟨[], [.event (.readMemory 16 8)], .waiting demoBackend (chars! "eval") evalRest,
    some ⟨chars! "eval", [chars! "x"], []⟩, [],
    [.got (.msg (.init [])), .got (.msg (.command (chars! "eval") [chars! "x"])), .sent (.event (.readMemory 16 8))]⟩ := by
  have no : ∀ {s s' : Sys}, s'.srv ≠ .stopped → ¬ Exits s s' := fun h hx => h hx.1
  have h1 : Quiet (fun _ => some demoBackend) [] ⟨[.msg (.init []), .msg (.command (chars! "eval") [chars! "x"])], [], .start, (some ⟨chars! "eval", [chars! "x"], []⟩), [], []⟩ := .user .init (.give (chars! "eval") [chars! "x"] rfl)
  have h2 : Quiet (fun _ => some demoBackend) [] ⟨[.msg (.command (chars! "eval") [chars! "x"])], [], .ready demoBackend, (some ⟨chars! "eval", [chars! "x"], []⟩), [], [.got (.msg (.init []))]⟩ := .step h1 (.opened rfl rfl rfl) (no (by simp))
  have h3 : Quiet (fun _ => some demoBackend) [] ⟨[], [], .running demoBackend (chars! "eval") (.ask (.readMemory 16 8) evalRest), (some ⟨chars! "eval", [chars! "x"], []⟩), [], [.got (.msg (.init [])), .got (.msg (.command (chars! "eval") [chars! "x"]))]⟩ := eval_demo ▸ .step h2 (.command rfl rfl) (no (by simp))
  exact .step h3 (.asks rfl) (no (by simp))

/-- The server with two such sessions at once. -/
theorem run_two : ∃ c, Run ⟨true, [c, c]⟩ ∧ c.origin = .rd [] ∧ c.sys.call ≠ none ∧ c.load [] = some demoBackend :=
  ⟨⟨fun _ => some demoBackend, .rd [], _⟩, C79_independent [(fun _ => some demoBackend, [], _), (fun _ => some demoBackend, [], _)]
    (by intro x hx; simp only [List.mem_cons, List.not_mem_nil, or_false] at hx; rcases hx with rfl | rfl <;> exact two_quiet),
    rfl, by simp, rfl⟩

/-- A session that has just been given its first command. -/
def begun : Conn := ⟨fun _ => some demoBackend, .rd [], ⟨[.msg (.init []), .msg (.command (chars! "functions") [])], [], .start,
  some ⟨chars! "functions", [], []⟩, [], []⟩⟩

/-- A session whose command is under way when the server is stopped: the command had no error in it. -/
example : ∃ S', ∃ c', Run ⟨true, [begun]⟩ ∧ Runs ⟨true, [begun]⟩ S' ∧ S'.conns[0]? = some c' ∧
    c'.sys.log = [⟨⟨chars! "functions", [], []⟩, none⟩] ∧ handleCommand demoBackend (chars! "functions") [] = .ok (.complete (chars! "[]")) := by
  have h1 : Quiet begun.load [] begun.sys := .user .init (.give (chars! "functions") [] rfl)
  have hr := C79_independent [(begun.load, [], begun.sys)] (by intro x hx; simp only [List.mem_singleton] at hx; subst hx; exact h1)
  obtain ⟨S', c', ht, h2, h3, _⟩ := C79_shutdown_fails (S := ⟨true, [begun]⟩) rfl (i := 0) (c := begun) rfl (k := ⟨chars! "functions", [], []⟩) rfl rfl
  exact ⟨S', c', hr, ht, h2, h3, rfl⟩

end Rudy.Sessions
