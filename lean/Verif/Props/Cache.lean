import Verif.Model.Cache
import Verif.Props.Remap
import Verif.Props.Front
/-
C78: which build of the program the answers are about.
-/
namespace Rudy.Cache
open Rudy Rudy.Remap

variable {C D : Type}

/-! ### Specification -/

/-- The contents of the file `p` after a history: what it was last changed to. -/
def contents (disk : Path → Option C) (h : List (Op C)) (p : Path) : Option C :=
  h.foldl (fun c o => match o with
    | .change q c' => if p = q then c' else c
    | _ => c) (disk p)

/-- The file has been loaded in the history. -/
def Loaded (h : List (Op C)) (f : Nat) : Prop := .load f ∈ h

/-! ### Proof -/

theorem run_append (E : Env C D) (h h' : List (Op C)) (s : State C D) : run E s (h ++ h') = run E (run E s h) h' := by
  induction h generalizing s with
  | nil => rfl
  | cons o h ih => exact ih _

theorem run_disk (E : Env C D) (h : List (Op C)) (s : State C D) (p : Path) : (run E s h).disk p = contents s.disk h p := by
  induction h generalizing s with
  | nil => rfl
  | cons o h ih =>
    rw [run, ih]
    simp only [contents, List.foldl_cons]
    congr 1
    cases o with
    | change q c => rfl
    | build q m => simp only [step, build]; split <;> rfl
    | load f => simp only [step, load]; split <;> rfl

theorem step_files (E : Env C D) (s : State C D) (o : Op C) (f : Nat) (x : Path × Option Str) (h : s.files[f]? = some x) :
    (step E s o).2.files[f]? = some x := by
  cases o with
  | change q c => exact h
  | build q m =>
    simp only [step, build]
    split
    · have := (List.getElem?_eq_some_iff.1 h).1
      simp only [List.getElem?_append_left this]; exact h
    · exact h
  | load g => simp only [step, load]; split <;> exact h

theorem run_files (E : Env C D) (h : List (Op C)) (s : State C D) (f : Nat) (x : Path × Option Str) (hf : s.files[f]? = some x) :
    (run E s h).files[f]? = some x := by
  induction h generalizing s with
  | nil => exact hf
  | cons o h ih => exact ih _ (step_files E s o f x hf)

theorem step_memo (E : Env C D) (s : State C D) (o : Op C) (f : Nat) (r : Option D) (h : s.memo.lookup f = some r) :
    (step E s o).2.memo.lookup f = some r := by
  cases o with
  | change q c => exact h
  | build q m => simp only [step, build]; split <;> exact h
  | load g =>
    simp only [step, load]
    split
    · exact h
    · rename_i hg
      simp only [List.lookup_cons]
      by_cases e : f = g
      · subst e; rw [h] at hg; cases hg
      · rw [show (f == g) = false by simpa using e]; exact h

theorem run_memo (E : Env C D) (h : List (Op C)) (s : State C D) (f : Nat) (r : Option D) (hf : s.memo.lookup f = some r) :
    (run E s h).memo.lookup f = some r := by
  induction h generalizing s with
  | nil => exact hf
  | cons o h ih => exact ih _ (step_memo E s o f r hf)

theorem run_unloaded (E : Env C D) (h : List (Op C)) (s : State C D) (f : Nat) (hn : ¬ Loaded h f) :
    (run E s h).memo.lookup f = s.memo.lookup f := by
  induction h generalizing s with
  | nil => rfl
  | cons o h ih =>
    rw [run, ih _ (fun hm => hn (List.mem_cons_of_mem _ hm))]
    cases o with
    | change q c => rfl
    | build q m => simp only [step, build]; split <;> rfl
    | load g =>
      have hne : f ≠ g := fun e => hn (by rw [Loaded, e]; exact List.mem_cons_self)
      simp only [step, load]
      split
      · rfl
      · simp only [List.lookup_cons]
        rw [show (f == g) = false by simpa using hne]

/-! ### The property -/

/-- C78: what a session uses of a file never changes once it has been used: whatever is built, loaded by others, or changed
on disk afterwards, the answer stays the one of the first use. -/
theorem C78_stable (E : Env C D) (disk : Path → Option C) (h h' : List (Op C)) (f : Nat) :
    answer E disk (h ++ .load f :: h') (.load f) = answer E disk h (.load f) := by
  have hm : ∃ r, (run E (fresh disk) (h ++ [.load f])).memo.lookup f = some r ∧ answer E disk h (.load f) = .loaded r := by
    rw [run_append]
    simp only [run, step, answer, load]
    cases hl : (run E (fresh disk) h).memo.lookup f with
    | some r => exact ⟨r, hl, rfl⟩
    | none => exact ⟨_, by simp, rfl⟩
  obtain ⟨r, h1, h2⟩ := hm
  have : h ++ .load f :: h' = (h ++ [.load f]) ++ h' := by simp
  have hr := run_memo E h' _ f r h1
  rw [← run_append, ← this] at hr
  rw [h2, answer, step, load, hr]

/-- C78: a file built later is a file of its own: its number has not been used before, and loading it gives what is on disk
at its first use, whatever earlier sessions have loaded from the same path. -/
theorem C78_new_session_sees_new_build (E : Env C D) (disk : Path → Option C) (h h' : List (Op C)) (p : Path) (m : Option Str) (f : Nat)
    (hb : answer E disk h (.build p m) = .file (some f)) (hl : ¬ Loaded h f) (hn : ¬ Loaded h' f) :
    answer E disk (h ++ .build p m :: h') (.load f) =
      .loaded ((contents disk (h ++ .build p m :: h') (remapPath E.maps (remapPath E.maps p))).bind (E.read m)) := by
  have hbuild : f = (run E (fresh disk) h).files.length ∧ (step E (run E (fresh disk) h) (.build p m)).2.files = (run E (fresh disk) h).files ++ [(remapPath E.maps p, m)] := by
    rw [answer] at hb
    simp only [step, build] at hb ⊢
    split at hb
    · cases hb
      exact ⟨rfl, rfl⟩
    · cases hb
  have hfile : (run E (fresh disk) (h ++ .build p m :: h')).files[f]? = some (remapPath E.maps p, m) := by
    rw [run_append]
    refine run_files E h' _ f _ ?_
    rw [hbuild.2, hbuild.1]
    simp
  have hmemo : (run E (fresh disk) (h ++ .build p m :: h')).memo.lookup f = none := by
    have := run_unloaded E (h ++ .build p m :: h') (fresh disk) f (by
      intro hm
      simp only [Loaded, List.mem_append, List.mem_cons] at hm
      rcases hm with hm | hm | hm
      · exact hl hm
      · cases hm
      · exact hn hm)
    rw [this]; rfl
  rw [answer, step, load, hmemo]
  simp only [compute, hfile, run_disk]
  rfl

/-- … and a number never refers to something loaded before it was given out, if only numbers that were given out are
loaded. -/
theorem C78_numbers_are_new (E : Env C D) (disk : Path → Option C) (h : List (Op C)) (p : Path) (m : Option Str) (f : Nat)
    (hb : answer E disk h (.build p m) = .file (some f))
    (hused : ∀ g h1 h2, h = h1 ++ .load g :: h2 → g < (run E (fresh disk) h1).files.length) : ¬ Loaded h f := by
  intro hl
  obtain ⟨h1, h2, he⟩ := List.append_of_mem hl
  have hlt := hused f h1 h2 he
  have hf : f = (run E (fresh disk) h).files.length := by
    rw [answer] at hb
    simp only [step, build] at hb
    split at hb
    · cases hb; rfl
    · cases hb
  have hge : (run E (fresh disk) h1).files.length ≤ (run E (fresh disk) h).files.length := by
    rw [he, run_append]
    have key : ∀ (os : List (Op C)) (s : State C D), s.files.length ≤ (run E s os).files.length := by
      intro os
      induction os with
      | nil => intro s; exact Nat.le_refl _
      | cons o os ih =>
        intro s
        refine Nat.le_trans ?_ (ih _)
        cases o with
        | change q c => exact Nat.le_refl _
        | build q m => simp only [step, build]; split <;> simp
        | load g => simp only [step, load]; split <;> exact Nat.le_refl _
    exact key _ _
  omega

/-- C78: sessions do not influence each other: what one gets from its file does not depend on what is loaded from other
files, or built, in between. -/
theorem C78_independent (E : Env C D) (disk : Path → Option C) (h h' : List (Op C)) (f : Nat)
    (hf : f < (run E (fresh disk) h : State C D).files.length)
    (hn : ∀ o ∈ h', (∃ g, o = .load g ∧ g ≠ f) ∨ ∃ p m, o = .build p m) :
    answer E disk (h ++ h') (.load f) = answer E disk h (.load f) := by
  have hnl : ¬ Loaded h' f := by
    intro hm
    rcases hn _ hm with ⟨g, hg, hne⟩ | ⟨p, m, hb⟩
    · cases hg; exact hne rfl
    · cases hb
  obtain ⟨x, hx⟩ : ∃ x, (run E (fresh disk) h : State C D).files[f]? = some x := ⟨_, List.getElem?_eq_getElem hf⟩
  have hd : ∀ q, contents disk (h ++ h') q = contents disk h q := by
    intro q
    simp only [contents, List.foldl_append]
    generalize List.foldl _ (disk q) h = c
    induction h' generalizing c with
    | nil => rfl
    | cons o os ih =>
      have ho := hn o (by simp)
      simp only [List.foldl_cons]
      rw [ih (fun o ho => hn o (by simp [ho])) (fun hm => hnl (List.mem_cons_of_mem _ hm))]
      rcases ho with ⟨g, rfl, _⟩ | ⟨p, m, rfl⟩ <;> rfl
  have hmemo : (run E (fresh disk) (h ++ h') : State C D).memo.lookup f = (run E (fresh disk) h).memo.lookup f := by
    rw [run_append, run_unloaded E h' _ f hnl]
  have hfile : (run E (fresh disk) (h ++ h') : State C D).files[f]? = some x := by
    rw [run_append]; exact run_files E h' _ f x hx
  have hc : compute E (run E (fresh disk) (h ++ h')) f = compute E (run E (fresh disk) h) f := by
    have hd' : ∀ q, contents (fresh disk : State C D).disk (h ++ h') q = contents (fresh disk : State C D).disk h q := hd
    simp only [compute, hfile, hx, run_disk, hd']
  simp only [answer, step, load, hmemo]
  cases (run E (fresh disk) h : State C D).memo.lookup f <;> simp [hc]

/-- The paths of a program and of one of its object files, for examples. -/
def prog : Path := [.root, .normal (chars! "prog")]
/-- See `prog`. -/
def progO : Path := [.root, .normal (chars! "prog.o")]

/-- Two contents of the files of a program, for examples: the old and the new build. The source map is empty and reading gives
the contents. -/
def plain : Env Str Str := ⟨[], fun _ c => some c⟩

/-- The program and one of its object files, both of the old build. -/
def oldDisk : Path → Option Str := fun p =>
  if p = prog then some (chars! "old") else if p = progO then some (chars! "old") else none

/-- What an old session sees after the program has been rebuilt, and what a new one sees: the old build, the new build. -/
example : answer plain oldDisk [.build prog none, .load 0, .change prog (some (chars! "new")), .build prog none] (.load 0)
      = .loaded (some (chars! "old")) ∧
    answer plain oldDisk [.build prog none, .load 0, .change prog (some (chars! "new"))] (.build prog none)
      = .file (some 1) ∧
    answer plain oldDisk [.build prog none, .load 0, .change prog (some (chars! "new")), .build prog none] (.load 1)
      = .loaded (some (chars! "new")) := by
  refine ⟨rfl, rfl, rfl⟩

/-- C78 fails for one session: the program is loaded when the session starts, an object file (macOS) only when something in it
is asked for. If the program is rebuilt in between, the session combines the program of the old build with the object
file of the new one. -/
theorem C78_mixed_builds_fails : ∃ (h : List (Op Str)) (b o : Nat), b ≠ o ∧
    answer plain oldDisk h (.load b) = .loaded (some (chars! "old")) ∧ answer plain oldDisk h (.load o) = .loaded (some (chars! "new")) ∧
    (∃ h1 h2, h = h1 ++ h2 ∧ (run plain (fresh oldDisk) h1 : State Str Str).files = [(prog, none), (progO, none)] ∧
      ∀ x ∈ h2, ∃ p c, x = .change p c) :=
  ⟨[.build prog none, .load 0, .build progO none, .change prog (some (chars! "new")),
      .change progO (some (chars! "new"))], 0, 1, by decide, rfl, rfl,
    [.build prog none, .load 0, .build progO none], [.change prog (some (chars! "new")),
      .change progO (some (chars! "new"))], rfl, rfl, by
      intro x hx
      simp only [List.mem_cons, List.not_mem_nil, or_false] at hx
      rcases hx with rfl | rfl
      · exact ⟨_, _, rfl⟩
      · exact ⟨_, _, rfl⟩⟩

/-- C78 fails: a file that could not be loaded once (it was being rebuilt, say) stays unreadable for the session, however often
it is asked for and whatever is on disk by then. -/
theorem C78_not_retried_fails (E : Env C D) (disk : Path → Option C) (h h' : List (Op C)) (f : Nat)
    (hfail : answer E disk h (.load f) = .loaded none) : answer E disk (h ++ .load f :: h') (.load f) = .loaded none := by
  rw [C78_stable, hfail]

example : answer plain oldDisk [.build progO none, .change progO none, .load 0, .change progO (some (chars! "new"))]
    (.load 0) = .loaded none := rfl

/-- C78 fails in LLDB: the connection made for the first command is used for every later one (C69), so after the program has been
rebuilt and run again, answers are still about the build the session was started with. -/
theorem C78_rebuilt_in_lldb_fails (c : Front.Conn) (n : Nat) (hist : List (Front.World × Str)) (E : Env C D) (disk : Path → Option C)
    (h h' : List (Op C)) (f : Nat) :
    (∀ a ∈ Front.commands (some c) n hist, ∀ d cmd args, a = .send d cmd args → d = c) ∧
      answer E disk (h ++ .load f :: h') (.load f) = answer E disk h (.load f) :=
  ⟨Front.C69_never_reopened c n hist, C78_stable E disk h h' f⟩

end Rudy.Cache
