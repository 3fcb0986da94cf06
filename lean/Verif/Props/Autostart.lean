import Verif.Model.Autostart
/-
C80: the server is started when it is needed, and only then.
-/
namespace Rudy.Autostart
open Rudy

variable {σ : Type}

/-! ### Specification -/

/-- A server was started. -/
def Act.isSpawn : Act → Bool
  | .spawned _ _ => true
  | _ => false

def Act.isSleep : Act → Bool
  | .slept => true
  | _ => false

/-- How many servers were started, and how often half a second was waited. -/
def spawns (as : List Act) : Nat := as.countP Act.isSpawn
def sleeps (as : List Act) : Nat := as.countP Act.isSleep

/-- The process that was started has ended, or could not be started. -/
def Act.over : Act → Prop
  | .spawned _ works => works = false
  | .polled gone => gone = true
  | .finished gone => gone = true
  | .killed => True
  | _ => False

/-! ### Proof -/

theorem wait_spec (E : Env σ) (n : Nat) (s : σ) :
    spawns (wait E n s).2.1 = 0 ∧ sleeps (wait E n s).2.1 ≤ n ∧ (wait E n s).2.1 ≠ [] ∧
    ((wait E n s).1 = true → (wait E n s).2.1.getLast? = some (.probed true)) ∧
    ((wait E n s).1 = false → (∃ a, (wait E n s).2.1.getLast? = some a ∧ a.over) ∧ .probed true ∉ (wait E n s).2.1) := by
  induction n generalizing s with
  | zero =>
    rw [wait]
    split
    · exact ⟨rfl, Nat.le_refl _, by simp, by simp, fun _ => ⟨⟨_, rfl, rfl⟩, by simp⟩⟩
    · exact ⟨rfl, Nat.le_refl _, by simp, by simp, fun _ => ⟨⟨_, rfl, trivial⟩, by simp⟩⟩
  | succ n ih =>
    rw [wait]
    split
    · exact ⟨rfl, by show 1 ≤ n + 1; omega, by simp, by simp, by simp⟩
    · split
      · exact ⟨rfl, by show 1 ≤ n + 1; omega, by simp, by simp, fun _ => ⟨⟨_, rfl, rfl⟩, by simp⟩⟩
      · rename_i t _
        obtain ⟨h1, h2, h3, h4, h5⟩ := ih t
        have hl : ∀ (l : List Act), l ≠ [] → ([Act.slept, .probed false, .polled false] ++ l).getLast? = l.getLast? := by
          intro l hl
          rw [List.getLast?_append]
          cases l with
          | nil => exact absurd rfl hl
          | cons a l => simp [List.getLast?_cons]
        refine ⟨?_, ?_, by simp, fun h => ?_, fun h => ?_⟩
        · simp only [spawns, List.countP_append] at h1 ⊢; rw [h1]; rfl
        · simp only [sleeps, List.countP_append] at h2 ⊢
          have : List.countP Act.isSleep [Act.slept, .probed false, .polled false] = 1 := rfl
          omega
        · simp only [hl _ h3]; exact h4 h
        · simp only [hl _ h3]
          refine ⟨(h5 h).1, ?_⟩
          have := (h5 h).2
          simpa using this

/-! ### The property -/

/-- C80: nothing is started if there is a connection, if the server answers, or if the user has turned starting off; at most
one server is started for a command, and only after it was found that none answers. -/
theorem C80_needed (E : Env σ) (auto conn : Bool) (host port : Str) (s : σ) :
    spawns (ensure E auto conn host port s).2.1 ≤ 1 ∧
    (conn = true ∨ (E.probe s).1 = true ∨ auto = false → spawns (ensure E auto conn host port s).2.1 = 0) ∧
    (∀ c w, .spawned c w ∈ (ensure E auto conn host port s).2.1 →
      ∃ rest, (ensure E auto conn host port s).2.1 = [.probed false, .probed false, .spawned c w] ++ rest ∧ spawns rest = 0 ∧
        c = command E host port) := by
  have hw := fun t => wait_spec E 10 t
  have hmem : ∀ (l : List Act), spawns l = 0 → ∀ c w, Act.spawned c w ∉ l := by
    intro l hl c w hm
    have := List.countP_eq_zero.1 hl _ hm
    exact this rfl
  rw [ensure]
  split
  · exact ⟨by simp [spawns], fun _ => rfl, fun c w h => by simp at h⟩
  · rename_i hc
    split
    · exact ⟨by simp [spawns, Act.isSpawn], fun _ => rfl, fun c w h => by simp at h⟩
    · rename_i t hp
      split
      · rename_i ha
        rw [startServer]
        have hno : ¬ (conn = true ∨ (E.probe s).1 = true ∨ auto = false) := by
          rw [hp]; simp [ha]; simpa using hc
        split
        · exact ⟨by simp [spawns, Act.isSpawn], fun h => absurd h hno, fun c w h => by simp at h⟩
        · split
          · refine ⟨by simp [spawns, Act.isSpawn], fun h => absurd h hno, fun c w h => ?_⟩
            simp only [List.mem_cons, reduceCtorEq, Act.spawned.injEq, List.not_mem_nil, or_false, false_or] at h
            obtain ⟨rfl, rfl⟩ := h
            exact ⟨[], rfl, rfl, rfl⟩
          · rename_i u _
            refine ⟨?_, fun h => absurd h hno, fun c w h => ?_⟩
            · have := (hw u).1
              simp only [spawns, List.countP_cons, List.countP_append, List.countP_nil] at this ⊢
              rw [this]
              simp [Act.isSpawn]
            · simp only [List.mem_cons, List.mem_append, reduceCtorEq, Act.spawned.injEq, List.not_mem_nil, or_false, false_or] at h
              rcases h with ⟨rfl, rfl⟩ | h
              · exact ⟨_, rfl, (hw u).1, rfl⟩
              · exact absurd h (hmem _ (hw u).1 c w)
      · exact ⟨by simp [spawns, Act.isSpawn], fun _ => rfl, fun c w h => by simp at h⟩

/-- C80: the command goes on to make a connection exactly if there is one already or the server answered the last time it was
asked; otherwise it gives up, after at most five seconds of waiting. -/
theorem C80_outcome (E : Env σ) (auto : Bool) (host port : Str) (s : σ) :
    ((ensure E auto false host port s).1 = true ↔ (ensure E auto false host port s).2.1.getLast? = some (.probed true)) ∧
    ((ensure E auto false host port s).1 = false → .probed true ∉ (ensure E auto false host port s).2.1) ∧
    sleeps (ensure E auto false host port s).2.1 ≤ 10 := by
  have hw := fun t => wait_spec E 10 t
  rw [ensure]
  simp only [Bool.false_eq_true, if_false]
  split
  · exact ⟨by simp, by simp, by simp [sleeps, Act.isSleep]⟩
  · split
    · rw [startServer]
      split
      · exact ⟨by simp, by simp, by simp [sleeps, Act.isSleep]⟩
      · split
        · exact ⟨by simp, by simp, by simp [sleeps, Act.isSleep]⟩
        · rename_i u _
          obtain ⟨h1, h2, h3, h4, h5⟩ := hw u
          have hl : ∀ (x y z : Act), (x :: ([y, z] ++ (wait E 10 u).2.1)).getLast? = (wait E 10 u).2.1.getLast? := by
            intro x y z
            cases hq : (wait E 10 u).2.1 with
            | nil => exact absurd hq h3
            | cons a l => simp [List.getLast?_cons]
          refine ⟨⟨fun h => ?_, fun h => ?_⟩, fun h => ?_, ?_⟩
          · rw [hl]; exact h4 h
          · rw [hl] at h
            cases hr : (wait E 10 u).1 with
            | true => rfl
            | false =>
              exact absurd (List.mem_of_getLast? h) (h5 hr).2
          · have := (h5 h).2
            simp [this]
          · simp only [sleeps, List.countP_cons, List.countP_append, List.countP_nil] at h2 ⊢
            simp only [Act.isSleep, Bool.false_eq_true, if_false]
            omega
    · exact ⟨by simp, by simp, by simp [sleeps, Act.isSleep]⟩

/-- C80: a server that was started but is not used is not left behind: it has ended by itself or is killed. -/
theorem C80_nothing_left (E : Env σ) (auto conn : Bool) (host port : Str) (s : σ) (hf : (ensure E auto conn host port s).1 = false)
    (hs : spawns (ensure E auto conn host port s).2.1 = 1) :
    ∃ a, (ensure E auto conn host port s).2.1.getLast? = some a ∧ a.over := by
  have hw := fun t => wait_spec E 10 t
  revert hf hs
  rw [ensure]
  split
  · intro hf; cases hf
  · split
    · intro hf; cases hf
    · split
      · rw [startServer]
        split
        · intro hf; cases hf
        · split
          · intro _ _; exact ⟨_, rfl, rfl⟩
          · rename_i v hv
            intro hf _
            obtain ⟨h1, h2, h3, h4, h5⟩ := hw v
            obtain ⟨a, h6, h7⟩ := (h5 hf).1
            refine ⟨a, ?_, h7⟩
            rw [← h6]
            cases hq : (wait E 10 v).2.1 with
            | nil => exact absurd hq h3
            | cons a l => simp [hq, List.getLast?_cons]
      · intro _ hs; cases hs

/-- C80: the server that is started is told the host and the port the client connects to. -/
theorem C80_address (E : Env σ) (host port : Str) :
    ∃ program, command E host port = program ++ [chars! "start", chars! "--port", port, chars! "--host", host] ∧
      program.find? (· = chars! "rudy-lldb-server") = some (chars! "rudy-lldb-server") := by
  refine ⟨_, rfl, ?_⟩
  split
  · rfl
  · split
    · with_unfolding_all rfl
    · rfl

/-- The same letter, or the capital of it. -/
def Same (c d : Char) : Prop :=
  c = d ∨ (c, d) ∈ List.zip (chars! "ABCDEFGHIJKLMNOPQRSTUVWXYZ") (chars! "abcdefghijklmnopqrstuvwxyz")

/-- The same text, but for capitals. -/
def SameText : Str → Str → Prop
  | [], [] => True
  | c :: cs, d :: ds => Same c d ∧ SameText cs ds
  | _, _ => False

theorem lower_iff (c d : Char) (hd : ¬ ('A' ≤ d ∧ d ≤ 'Z')) : lower c = d ↔ Same c d := by
  by_cases h : 'A' ≤ c ∧ c ≤ 'Z'
  · have h1 : 65 ≤ c.toNat := UInt32.le_iff_toNat_le.1 h.1
    have h2 : c.toNat ≤ 90 := UInt32.le_iff_toNat_le.1 h.2
    have hc : c = Char.ofNat c.toNat := (Char.ofNat_toNat c).symm
    have hne : c ≠ d := fun e => hd (e ▸ h)
    have key : ∀ k < 26, (lower (Char.ofNat (65 + k)), Char.ofNat (65 + k)) ∈ List.zip (chars! "abcdefghijklmnopqrstuvwxyz") (chars! "ABCDEFGHIJKLMNOPQRSTUVWXYZ") ∧
        ∀ x ∈ List.zip (chars! "ABCDEFGHIJKLMNOPQRSTUVWXYZ") (chars! "abcdefghijklmnopqrstuvwxyz"), x.1 = Char.ofNat (65 + k) → x.2 = lower (Char.ofNat (65 + k)) := by decide
    obtain ⟨k1, k2⟩ := key (c.toNat - 65) (by omega)
    rw [show 65 + (c.toNat - 65) = c.toNat by omega, ← hc] at k1 k2
    constructor
    · rintro rfl
      refine .inr ?_
      have swap : ∀ x ∈ List.zip (chars! "abcdefghijklmnopqrstuvwxyz") (chars! "ABCDEFGHIJKLMNOPQRSTUVWXYZ"),
        (x.2, x.1) ∈ List.zip (chars! "ABCDEFGHIJKLMNOPQRSTUVWXYZ") (chars! "abcdefghijklmnopqrstuvwxyz") := by decide
      exact swap _ k1
    · rintro (rfl | hm)
      · exact absurd rfl hne
      · exact (k2 _ hm rfl).symm
  · rw [lower, if_neg h]
    constructor
    · exact .inl
    · rintro (rfl | hm)
      · rfl
      · have : ∀ x ∈ List.zip (chars! "ABCDEFGHIJKLMNOPQRSTUVWXYZ") (chars! "abcdefghijklmnopqrstuvwxyz"), 'A' ≤ x.1 ∧ x.1 ≤ 'Z' := by decide
        exact absurd (this _ hm) h

theorem sameText_iff : ∀ (t w : Str), (∀ d ∈ w, ¬ ('A' ≤ d ∧ d ≤ 'Z')) → (t.map lower = w ↔ SameText t w)
  | [], [], _ => by simp [SameText]
  | [], _ :: _, _ => by simp [SameText]
  | _ :: _, [], _ => by simp [SameText]
  | c :: cs, d :: ds, h => by
    simp only [List.map_cons, List.cons.injEq, SameText, lower_iff c d (h d (by simp)), sameText_iff cs ds (fun x hx => h x (by simp [hx]))]

/-- C80: starting is on unless the user has set the variable to something that does not mean yes. -/
theorem C80_setting (x : Option Str) :
    autostart x = true ↔ x = none ∨ ∃ t, x = some t ∧
      (SameText t (chars! "1") ∨ SameText t (chars! "true") ∨ SameText t (chars! "on") ∨ SameText t (chars! "yes")) := by
  cases x with
  | none => simp [autostart, truthy, lower]
  | some t =>
    simp only [reduceCtorEq, false_or, Option.some.injEq, exists_eq_left']
    rw [← sameText_iff t (chars! "1") (by decide), ← sameText_iff t (chars! "true") (by decide), ← sameText_iff t (chars! "on") (by decide),
      ← sameText_iff t (chars! "yes") (by decide)]
    simp [autostart, truthy]

/-! ### Where it fails -/

/-- A server that needs `n` half-seconds before it accepts connections (`cargo run` has to build it first); the state is the time
since it was started. -/
def slow (n : Nat) : Env (Option Nat) where
  probe s := (s.any (n ≤ ·), s)
  which _ := true
  spawn _ _ := (true, some 0)
  sleep s := s.map (· + 1)
  exited s := (false, s)
  finish s := (false, s)
  kill _ := none

theorem slow_wait (n : Nat) : ∀ (k t : Nat), t + k < n → (wait (slow n) k (some t)).1 = false ∧ (wait (slow n) k (some t)).2.2 = none := by
  intro k
  induction k with
  | zero => intro t h; exact ⟨rfl, rfl⟩
  | succ k ih =>
    intro t h
    have hn : decide (n ≤ t + 1) = false := by simp; omega
    have := ih (t + 1) (by omega)
    rw [wait]
    simp only [slow, Option.map_some, Option.any_some, hn]
    exact this

/-- Successive commands. -/
def commands (E : Env σ) (host port : Str) : Nat → σ → List Bool × σ
  | 0, s => ([], s)
  | k + 1, s =>
    let r := ensure E true false host port s
    let q := commands E host port k r.2.2
    (r.1 :: q.1, q.2)

/-- C80 fails for a server that takes longer than five seconds to start: it is killed, and started again from the beginning by
the next command, so that it never comes up however often the user tries. -/
theorem C80_slow_fails (n : Nat) (hn : 10 < n) (host port : Str) (k : Nat) :
    commands (slow n) host port k none = (List.replicate k false, none) := by
  have h1 : (ensure (slow n) true false host port none).1 = false ∧ (ensure (slow n) true false host port none).2.2 = none := by
    rw [ensure]
    simp only [Bool.false_eq_true, if_false]
    have hp : (slow n).probe none = (false, none) := rfl
    rw [hp]
    simp only [startServer, hp, if_true]
    have hs : ∀ c, (slow n).spawn c none = (true, some 0) := fun _ => rfl
    rw [hs]
    exact slow_wait n 10 0 (by omega)
  induction k with
  | zero => rfl
  | succ k ih =>
    rw [commands]
    simp only [h1.1, h1.2, ih]
    rfl

/-- One that is faster is used. -/
example : (ensure (slow 3) true false (chars! "127.0.0.1") (chars! "5737") none).1 = true ∧
    spawns (ensure (slow 3) true false (chars! "127.0.0.1") (chars! "5737") none).2.1 = 1 ∧
    sleeps (ensure (slow 3) true false (chars! "127.0.0.1") (chars! "5737") none).2.1 = 3 ∧
    spawns (ensure (slow 3) true false (chars! "127.0.0.1") (chars! "5737") (some 7)).2.1 = 0 := by
  refine ⟨rfl, rfl, rfl, rfl⟩

/-- What is in the pipe: the server goes on as long as all it has written fits. -/
theorem pipeAfter_iff (capacity : Nat) : ∀ (ns : List Nat) (used k : Nat), used ≤ capacity →
    (pipeAfter capacity used ns = some k ↔ k = used + ns.sum ∧ k ≤ capacity)
  | [], used, k, h => by simp only [pipeAfter, Option.some.injEq, List.sum_nil]; omega
  | n :: ns, used, k, h => by
    simp only [pipeAfter, pipeWrite, List.sum_cons]
    split
    · rename_i hle
      rw [Option.bind_some, pipeAfter_iff capacity ns (used + n) k hle]; omega
    · simp only [Option.bind_none, reduceCtorEq, false_iff]; omega

/-- C80: the server is stuck exactly when it has written more than the pipe holds. -/
theorem C80_pipe (capacity : Nat) (ns : List Nat) : pipeAfter capacity 0 ns = none ↔ capacity < ns.sum := by
  cases h : pipeAfter capacity 0 ns with
  | none =>
    have := pipeAfter_iff capacity ns 0 ns.sum (by omega)
    rw [h] at this
    simp only [reduceCtorEq, false_iff] at this
    simp only [true_iff]; omega
  | some k =>
    have := (pipeAfter_iff capacity ns 0 k (by omega)).1 h
    simp only [reduceCtorEq, false_iff]; omega

/-- C80 fails for a server that was started this way: its output goes to a pipe nobody reads, so after enough lines of it (a line
for every expression given to `methods` that cannot be evaluated, server.rs:393, for instance) the thread that writes the
next one waits for ever. Whatever the capacity of the pipe, and whatever the lines, it comes to that. -/
theorem C80_pipe_fails (capacity : Nat) (line : Nat → Nat) (hl : ∀ k, 0 < line k) :
    ∃ k, ∀ more, pipeAfter capacity 0 ((List.range k).map line ++ more) = none := by
  have key : ∀ (ns : List Nat) (used : Nat), (∀ n ∈ ns, 0 < n) → capacity < used + ns.length → ∀ more, pipeAfter capacity used (ns ++ more) = none ∨ used > capacity := by
    intro ns
    induction ns with
    | nil => intro used _ h more; exact .inr (by simpa using h)
    | cons n ns ih =>
      intro used hp h more
      refine .inl ?_
      simp only [List.cons_append, pipeAfter, pipeWrite]
      split
      · rename_i hle
        have hn := hp n (by simp)
        rcases ih (used + n) (fun m hm => hp m (by simp [hm])) (by simp only [List.length_cons] at h; omega) more with h' | h'
        · exact h'
        · omega
      · rfl
  refine ⟨capacity + 1, fun more => ?_⟩
  rcases key ((List.range (capacity + 1)).map line) 0 (by
    intro n hn
    obtain ⟨k, _, rfl⟩ := List.mem_map.1 hn
    exact hl k) (by simp) more with h | h
  · exact h
  · omega

example : autostart none = true ∧ autostart (some (chars! "True")) = true ∧ autostart (some (chars! "0")) = false ∧ autostart (some []) = false := by
  refine ⟨?_, ?_, ?_, ?_⟩ <;> simp [autostart, truthy, lower]

end Rudy.Autostart
