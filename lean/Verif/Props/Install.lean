import Verif.Model.Install
import Verif.Proof.Wire
import Verif.Proof.SymbolNorm
import Verif.Props.Calls
/-
C74 (installing the LLDB script) and C75 (stopping a server from the command line).
-/
namespace Rudy.Install
open Rudy Rudy.Expr Rudy.Layout

/-! ### Specification vocabulary -/

/-- `b` occurs in `a`. -/
def Occurs (b a : Str) : Prop := ∃ u v, a = u ++ b ++ v

/-- One run of `rudy-lldb install`: its arguments, the answers and the network. -/
structure Run where
  dir : Str
  skip : Bool
  yes : Bool
  world : World

/-- The files after several runs by one user. -/
def after (home : Str) (fs : Files) (runs : List Run) : Files :=
  runs.foldl (fun fs r => install home r.dir r.skip r.yes r.world fs) fs

/-- The contents of the init file of LLDB; nothing if there is none. -/
def initText (home : Str) (fs : Files) : Str := (fs (initPath home)).getD []

/-- White space. -/
def Blank (s : Str) : Prop := ∀ c ∈ s, Symbols.isRustWhitespace c = true

/-- An answer that begins with y, small or capital, after white space. -/
def Yes (a : Str) : Prop := ∃ b rest, Blank b ∧ (a = b ++ 'y' :: rest ∨ a = b ++ 'Y' :: rest)

/-- The user agrees to the line being added: by `-y`, by an empty answer or by one that begins with y. -/
def Agrees (r : Run) : Prop := r.yes = true ∨ Blank r.world.add ∨ Yes r.world.add

/-- Nothing stands in the way of the script being written: there is no old one, or the user agrees to replace it. -/
def MayWrite (home : Str) (fs : Files) (r : Run) : Prop :=
  fs (scriptPath home r.dir) = none ∨ r.yes = true ∨ Yes r.world.overwrite

/-- A text in which the next thing written begins a line. -/
def AtLineStart (t : Str) : Prop := t = [] ∨ t.getLast? = some '\n'

/-! ### Helpers -/

theorem isPrefixOf_iff {b a : Str} : b.isPrefixOf a = true ↔ ∃ v, a = b ++ v := by
  rw [List.isPrefixOf_iff_prefix]
  exact ⟨fun ⟨v, h⟩ => ⟨v, h.symm⟩, fun ⟨v, h⟩ => ⟨v, h.symm⟩⟩

theorem containsStr_iff (a b : Str) : Eval.containsStr a b = true ↔ Occurs b a := by
  induction a with
  | nil =>
    simp only [Eval.containsStr, Occurs]
    constructor
    · intro h
      have : b = [] := by cases b <;> simp_all
      exact ⟨[], [], by simp [this]⟩
    · rintro ⟨u, v, h⟩
      have : b = [] := by
        have := h.symm
        simp only [List.append_eq_nil_iff] at this
        exact this.1.2
      simp [this]
  | cons c a ih =>
    simp only [Eval.containsStr, Bool.or_eq_true, isPrefixOf_iff, ih, Occurs]
    constructor
    · rintro (⟨v, h⟩ | ⟨u, v, h⟩)
      · exact ⟨[], v, by simpa using h⟩
      · exact ⟨c :: u, v, by simp [h]⟩
    · rintro ⟨u, v, h⟩
      cases u with
      | nil => exact .inl ⟨v, by simpa using h⟩
      | cons x u =>
        simp only [List.cons_append, List.cons.injEq] at h
        exact .inr ⟨u, v, h.2⟩

theorem joinPath_suffix (d n : Str) : ∃ u, joinPath d n = u ++ n := by
  unfold joinPath; split
  · exact ⟨d, rfl⟩
  · exact ⟨d ++ chars! "/", rfl⟩

theorem script_ne_init (home dir : Str) : scriptPath home dir ≠ initPath home := by
  intro h
  obtain ⟨u, hu⟩ := joinPath_suffix (expandTilde home dir) (chars! "rudy_lldb.py")
  obtain ⟨v, hv⟩ := joinPath_suffix home (chars! ".lldbinit")
  have h1 : (scriptPath home dir).getLast? = some 'y' := by
    simp only [scriptPath, hu, List.getLast?_append]; rfl
  have h2 : (initPath home).getLast? = some 't' := by
    simp only [initPath, hv, List.getLast?_append]; rfl
  rw [h, h2] at h1
  cases h1

theorem write_same (fs : Files) (p t : Str) : (fs.write p t) p = some t := by simp [Files.write]
theorem write_other (fs : Files) {p q : Str} (t : Str) (h : q ≠ p) : (fs.write p t) q = fs q := by simp [Files.write, h]

theorem trim_blank (a : Str) : Symbols.trim a = [] ↔ Blank a := by
  refine ⟨Symbols.trim_nil a, fun h => ?_⟩
  unfold Symbols.trim
  have : a.dropWhile Symbols.isRustWhitespace = [] := by
    induction a with
    | nil => rfl
    | cons c a ih =>
      rw [List.dropWhile_cons_of_pos (h c (by simp))]
      exact ih fun x hx => h x (by simp [hx])
  rw [this]; rfl

theorem mem_takeWhile {p : Char → Bool} : ∀ {l : Str} {c : Char}, c ∈ l.takeWhile p → p c = true := by
  intro l
  induction l with
  | nil => intro c h; simp at h
  | cons x l ih =>
    intro c h
    by_cases hx : p x = true
    · rw [List.takeWhile_cons_of_pos hx] at h
      rcases List.mem_cons.1 h with rfl | h
      · exact hx
      · exact ih h
    · rw [List.takeWhile_cons_of_neg hx] at h; simp at h

theorem saysYes_iff (a : Str) : saysYes a = true ↔ Yes a := by
  have hy : Symbols.isRustWhitespace 'y' = false := by decide
  have hY : Symbols.isRustWhitespace 'Y' = false := by decide
  -- what is left of a text that begins with something else than white space
  have keep : ∀ (c : Char) (r : Str), Symbols.isRustWhitespace c = false →
      ∃ r', ((c :: r).reverse.dropWhile Symbols.isRustWhitespace).reverse = c :: r' := by
    intro c r hc
    rw [List.reverse_cons, List.dropWhile_append]
    split
    · exact ⟨[], by rw [List.dropWhile_cons_of_neg (by simp [hc])]; rfl⟩
    · exact ⟨_, by rw [List.reverse_append]; rfl⟩
  constructor
  · intro h
    unfold saysYes Symbols.trim at h
    have hsplit := List.takeWhile_append_dropWhile (p := Symbols.isRustWhitespace) (l := a)
    have hblank : Blank (a.takeWhile Symbols.isRustWhitespace) := fun c hc => mem_takeWhile hc
    cases hd : a.dropWhile Symbols.isRustWhitespace with
    | nil => rw [hd] at h; simp at h
    | cons c r =>
      have hc : Symbols.isRustWhitespace c = false := by
        have := List.head?_dropWhile_not Symbols.isRustWhitespace a
        rw [hd] at this; simpa using this
      obtain ⟨r', hr'⟩ := keep c r hc
      rw [hd, hr'] at h
      refine ⟨_, r, hblank, ?_⟩
      have : c = 'y' ∨ c = 'Y' := by simpa using h
      rcases this with rfl | rfl
      · exact .inl (by rw [← hd, hsplit])
      · exact .inr (by rw [← hd, hsplit])
  · rintro ⟨b, rest, hb, h⟩
    have hdrop : ∀ (c : Char) , Symbols.isRustWhitespace c = false → (b ++ c :: rest).dropWhile Symbols.isRustWhitespace = c :: rest := by
      intro c hc
      rw [List.dropWhile_append_of_pos hb, List.dropWhile_cons_of_neg (by simp [hc])]
    unfold saysYes Symbols.trim
    rcases h with rfl | rfl
    · obtain ⟨r', hr'⟩ := keep 'y' rest hy
      rw [hdrop _ hy, hr']; rfl
    · obtain ⟨r', hr'⟩ := keep 'Y' rest hY
      rw [hdrop _ hY, hr']; rfl

theorem agrees_iff (r : Run) : (r.yes || Symbols.trim r.world.add = [] || saysYes r.world.add) = true ↔ Agrees r := by
  simp [Agrees, or_assoc, trim_blank, saysYes_iff]

/-- What one run does, cases apart. -/
theorem install_cases (home : Str) (r : Run) (fs : Files) :
    (install home r.dir r.skip r.yes r.world fs = fs ∧ (¬ MayWrite home fs r ∨ r.world.download = none)) ∨
    ∃ c, r.world.download = some c ∧ MayWrite home fs r ∧
      ((install home r.dir r.skip r.yes r.world fs = fs.write (scriptPath home r.dir) c ∧
          (r.skip = true ∨ Occurs (importLine (scriptPath home r.dir)) (initText home fs) ∨ ¬ Agrees r)) ∨
       (r.skip = false ∧ Agrees r ∧ ¬ Occurs (importLine (scriptPath home r.dir)) (initText home fs) ∧
          install home r.dir r.skip r.yes r.world fs
            = (fs.write (scriptPath home r.dir) c).write (initPath home)
                (initText home fs ++ (importLine (scriptPath home r.dir) ++ chars! "\n")))) := by
  have hne := script_ne_init home r.dir
  unfold install
  simp only []
  split
  · rename_i hw
    refine .inl ⟨rfl, .inl ?_⟩
    rintro (h | h | h)
    · rw [h] at hw; simp at hw
    · rw [h] at hw; simp at hw
    · rw [(saysYes_iff _).2 h] at hw; simp at hw
  · rename_i hw
    have hmay : MayWrite home fs r := by
      unfold MayWrite
      cases h1 : fs (scriptPath home r.dir) with
      | none => exact .inl rfl
      | some _ =>
        right
        rw [h1] at hw
        rw [← saysYes_iff]
        cases h2 : r.yes <;> cases h3 : saysYes r.world.overwrite <;> simp_all
    cases hd : r.world.download with
    | none => exact .inl ⟨rfl, .inr rfl⟩
    | some c =>
      right
      refine ⟨c, rfl, hmay, ?_⟩
      cases hs : r.skip with
      | true => exact .inl ⟨by simp, .inl rfl⟩
      | false =>
        simp only [Bool.false_eq_true, if_false, addImport, write_other fs c hne.symm]
        cases hi : fs (initPath home) with
        | some t =>
          have ht : initText home fs = t := by simp [initText, hi]
          rw [ht]
          simp only []
          split
          · rename_i hc
            exact .inl ⟨rfl, .inr (.inl ((containsStr_iff _ _).mp hc))⟩
          · rename_i hc
            rw [containsStr_iff] at hc
            split
            · rename_i ha
              exact .inr ⟨trivial, (agrees_iff r).mp (by simpa using ha), hc, by rw [List.append_assoc]⟩
            · rename_i ha
              exact .inl ⟨rfl, .inr (.inr fun h => ha (by simpa using (agrees_iff r).mpr h))⟩
        | none =>
          have ht : initText home fs = [] := by simp [initText, hi]
          rw [ht]
          have hno : ¬ Occurs (importLine (scriptPath home r.dir)) [] := by
            rintro ⟨u, v, h⟩
            have := h.symm
            simp only [List.append_eq_nil_iff, importLine] at this
            exact absurd this.1.2.1 (by decide)
          simp only []
          split
          · rename_i ha
            exact .inr ⟨trivial, (agrees_iff r).mp (by simpa using ha), hno, by simp⟩
          · rename_i ha
            exact .inl ⟨rfl, .inr (.inr fun h => ha (by simpa using (agrees_iff r).mpr h))⟩

/-! ### C74: installing -/

/-- A run with the user's agreement and a working network writes the script and leaves the init file importing it. -/
theorem C74_installed (home : Str) (r : Run) (fs : Files) (c : Str)
    (hd : r.world.download = some c) (hs : r.skip = false) (hw : MayWrite home fs r) (ha : Agrees r) :
    (after home fs [r]) (scriptPath home r.dir) = some c ∧
    Occurs (importLine (scriptPath home r.dir)) (initText home (after home fs [r])) := by
  have hne := script_ne_init home r.dir
  simp only [after, List.foldl]
  rcases install_cases home r fs with ⟨-, h | h⟩ | ⟨c', hd', -, ⟨h, h'⟩ | ⟨-, -, -, h⟩⟩
  · exact absurd hw h
  · rw [hd] at h; cases h
  · rw [hd] at hd'; cases hd'
    rw [h]
    refine ⟨write_same .., ?_⟩
    rcases h' with h' | h' | h'
    · rw [hs] at h'; cases h'
    · simpa [initText, write_other fs c hne.symm] using h'
    · exact absurd ha h'
  · rw [hd] at hd'; cases hd'
    rw [h]
    refine ⟨by rw [write_other _ _ hne, write_same], ?_⟩
    simp only [initText, write_same, Option.getD_some]
    exact ⟨initText home fs, chars! "\n", by simp [initText]⟩

/-- If the user does not want the old script replaced, or anything is missing on the network, nothing changes. -/
theorem C74_cancelled (home : Str) (r : Run) (fs : Files) (h : ¬ MayWrite home fs r ∨ r.world.download = none) :
    after home fs [r] = fs := by
  simp only [after, List.foldl]
  rcases install_cases home r fs with ⟨h', -⟩ | ⟨c, hd, hw, -⟩
  · exact h'
  · rcases h with h | h
    · exact absurd hw h
    · rw [hd] at h; cases h

/-- If the user declines the line, or asked for the init file to be left alone, it is. -/
theorem C74_declined (home : Str) (r : Run) (fs : Files) (h : r.skip = true ∨ ¬ Agrees r) :
    (after home fs [r]) (initPath home) = fs (initPath home) := by
  have hne := script_ne_init home r.dir
  simp only [after, List.foldl]
  rcases install_cases home r fs with ⟨h', -⟩ | ⟨c, -, -, ⟨h', -⟩ | ⟨hs, ha, -, -⟩⟩
  · rw [h']
  · rw [h', write_other fs c hne.symm]
  · rcases h with h | h
    · rw [hs] at h; cases h
    · exact absurd ha h

/-- Whatever is installed, however often and with whatever answers: the old contents of the init file stay, after them come
import lines of scripts that were installed, none of them twice, none that was there before; and no file is touched but
the init file and the scripts. -/
theorem C74_history (home : Str) (fs : Files) (runs : List Run) :
    (∃ ps : List Str, ps.Nodup ∧
      (∀ p ∈ ps, (∃ r ∈ runs, r.skip = false ∧ Agrees r ∧ p = scriptPath home r.dir) ∧ ¬ Occurs (importLine p) (initText home fs)) ∧
      initText home (after home fs runs) = initText home fs ++ ps.flatMap fun p => importLine p ++ chars! "\n") ∧
    ∀ q, q ≠ initPath home → (∀ r ∈ runs, q ≠ scriptPath home r.dir) → (after home fs runs) q = fs q := by
  generalize hn : runs.length = n
  induction n generalizing runs with
  | zero =>
    cases runs with
    | cons _ _ => cases hn
    | nil => exact ⟨⟨[], .nil, by simp, by simp [after]⟩, fun q _ _ => rfl⟩
  | succ n ih =>
    rcases List.eq_nil_or_concat runs with h | ⟨rs, r, h⟩
    · subst h; cases hn
    subst h
    simp only [List.concat_eq_append] at *
    obtain ⟨⟨ps, hnd, hps, hi⟩, hq⟩ := ih rs (by simpa using hn)
    have hstep : after home fs (rs ++ [r]) = install home r.dir r.skip r.yes r.world (after home fs rs) := by
      simp [after, List.foldl_append]
    have hne := script_ne_init home r.dir
    have hps' : ∀ p ∈ ps, (∃ r' ∈ rs ++ [r], r'.skip = false ∧ Agrees r' ∧ p = scriptPath home r'.dir) ∧ ¬ Occurs (importLine p) (initText home fs) :=
      fun p hp => ⟨(hps p hp).1.imp fun r' h => ⟨by simp [h.1], h.2⟩, (hps p hp).2⟩
    rw [hstep]
    rcases install_cases home r (after home fs rs) with ⟨h, -⟩ | ⟨c, -, -, ⟨h, -⟩ | ⟨hs, ha, hno, h⟩⟩
    · rw [h]
      exact ⟨⟨ps, hnd, hps', hi⟩, fun q h1 h2 => hq q h1 fun r' hr' => h2 r' (by simp [hr'])⟩
    · rw [h]
      refine ⟨⟨ps, hnd, hps', ?_⟩, fun q h1 h2 => ?_⟩
      · rw [← hi]; simp [initText, write_other _ c hne.symm]
      · rw [write_other _ c (h2 r (by simp))]
        exact hq q h1 fun r' hr' => h2 r' (by simp [hr'])
    · rw [h]
      refine ⟨⟨ps ++ [scriptPath home r.dir], ?_, ?_, ?_⟩, fun q h1 h2 => ?_⟩
      · rw [List.nodup_append]
        refine ⟨hnd, by simp, ?_⟩
        intro a ha' b hb hab
        simp only [List.mem_singleton] at hb
        subst hb; subst hab
        apply hno
        rw [hi]
        obtain ⟨s, t, hst⟩ := List.append_of_mem ha'
        rw [hst]
        refine ⟨initText home fs ++ s.flatMap (fun p => importLine p ++ chars! "\n"),
          chars! "\n" ++ t.flatMap (fun p => importLine p ++ chars! "\n"), ?_⟩
        simp [List.flatMap_append, List.flatMap_cons, List.append_assoc]
      · intro p hp
        simp only [List.mem_append, List.mem_singleton] at hp
        rcases hp with hp | hp
        · exact hps' p hp
        · subst hp
          refine ⟨⟨r, by simp, hs, ha, rfl⟩, fun ho => hno ?_⟩
          obtain ⟨u, v, huv⟩ := ho
          rw [hi, huv]
          exact ⟨u, v ++ ps.flatMap (fun p => importLine p ++ chars! "\n"), by simp [List.append_assoc]⟩
      · simp only [initText] at hi ⊢
        simp only [initText, write_same, Option.getD_some, hi]
        simp [List.flatMap_append, List.append_assoc]
      · rw [write_other _ _ h1, write_other _ c (h2 r (by simp))]
        exact hq q h1 fun r' hr' => h2 r' (by simp [hr'])

/-- Installing a second time, with the same release and with whatever answers, changes nothing. -/
theorem C74_again (home : Str) (r r' : Run) (fs : Files) (c : Str) (hdir : r'.dir = r.dir)
    (hd : r.world.download = some c) (hd' : r'.world.download = some c) (hs : r.skip = false) (hw : MayWrite home fs r) (ha : Agrees r) :
    after home fs [r, r'] = after home fs [r] := by
  have ⟨h1, h2⟩ := C74_installed home r fs c hd hs hw ha
  have e : after home fs [r, r'] = after home (after home fs [r]) [r'] := rfl
  rw [e]
  generalize after home fs [r] = g at h1 h2
  simp only [after, List.foldl]
  rcases install_cases home r' g with ⟨h', -⟩ | ⟨c', hc', -, ⟨h', -⟩ | ⟨-, -, hno, -⟩⟩
  · exact h'
  · rw [hd'] at hc'; cases hc'
    rw [h', hdir]
    funext q
    simp only [Files.write]
    split
    · rename_i e; rw [e, h1]
    · rfl
  · rw [hdir] at hno; exact absurd h2 hno

/-- The script that is written comes from the first release of the listing whose tag begins with `rudy-lldb-`, from the first
file in it named `rudy_lldb.py`; without one nothing is downloaded. -/
theorem C74_source (w : World) (c : Str) :
    w.download = some c ↔
    ∃ before r rest as others a more url,
      w.releases = some (before ++ r :: rest) ∧
      (∀ b ∈ before, ∀ t, b.tag = some t → ¬ ∃ v, t = chars! "rudy-lldb-" ++ v) ∧
      (∃ v, r.tag = some (chars! "rudy-lldb-" ++ v)) ∧
      r.assets = some as ∧ as = others ++ a :: more ∧
      (∀ b ∈ others, b.name ≠ some (chars! "rudy_lldb.py")) ∧ a.name = some (chars! "rudy_lldb.py") ∧
      a.url = some url ∧ w.fetch url = some c := by
  have ours : ∀ r, isOurs r = true ↔ ∃ v, r.tag = some (chars! "rudy-lldb-" ++ v) := by
    intro r
    unfold isOurs
    cases h : r.tag with
    | none => simp
    | some t =>
      simp only [isPrefixOf_iff, Option.some.injEq]
  simp only [World.download, Option.bind_eq_some_iff]
  constructor
  · rintro ⟨rs, hrs, r, hr, as, has, a, ha, url, hurl, hf⟩
    rw [List.find?_eq_some_iff_append] at hr ha
    obtain ⟨hr1, b, rest, rfl, hb⟩ := hr
    obtain ⟨ha1, o, more, rfl, ho⟩ := ha
    refine ⟨b, r, rest, _, o, a, more, url, hrs, ?_, (ours r).mp hr1, has, rfl, ?_, by simpa using ha1, hurl, hf⟩
    · rintro x hx t ht ⟨v, hv⟩
      have := hb x hx
      rw [(ours x).mpr ⟨v, by rw [ht, hv]⟩] at this
      simp at this
    · intro x hx; simpa using ho x hx
  · rintro ⟨b, r, rest, as, o, a, more, url, hrs, hb, hr, has, rfl, ho, ha, hurl, hf⟩
    refine ⟨_, hrs, r, ?_, _, has, a, ?_, url, hurl, hf⟩
    · rw [List.find?_eq_some_iff_append]
      refine ⟨(ours r).mpr hr, b, rest, rfl, ?_⟩
      intro x hx
      cases hx' : isOurs x with
      | false => rfl
      | true =>
        obtain ⟨v, hv⟩ := (ours x).mp hx'
        exact absurd ⟨v, rfl⟩ (hb x hx _ hv)
    · rw [List.find?_eq_some_iff_append]
      exact ⟨by simpa using ha, o, more, rfl, fun x hx => by simpa using ho x hx⟩

/-- When the init file is missing, empty or ends with a line end and does not name the script yet, the import is a line of its
own. Missing: init files whose last line is not ended, and those that name the script elsewhere than in a line of its own
(`C74_glued_fails`, `C74_commented_fails`). -/
theorem C74_own_line_partial (home : Str) (r : Run) (fs : Files) (c : Str)
    (hd : r.world.download = some c) (hs : r.skip = false) (hw : MayWrite home fs r) (ha : Agrees r)
    (hl : AtLineStart (initText home fs)) (hno : ¬ Occurs (importLine (scriptPath home r.dir)) (initText home fs)) :
    ∃ before, AtLineStart before ∧
      initText home (after home fs [r]) = before ++ importLine (scriptPath home r.dir) ++ chars! "\n" := by
  simp only [after, List.foldl]
  rcases install_cases home r fs with ⟨-, h | h⟩ | ⟨c', hd', -, ⟨h, h'⟩ | ⟨-, -, -, h⟩⟩
  · exact absurd hw h
  · rw [hd] at h; cases h
  · rcases h' with h' | h' | h'
    · rw [hs] at h'; cases h'
    · exact absurd h' hno
    · exact absurd ha h'
  · refine ⟨initText home fs, hl, ?_⟩
    rw [h]
    simp only [initText, write_same, Option.getD_some]
    simp [initText, List.append_assoc]

/-- An init file whose last line is not ended has the import glued to that line: LLDB sees neither command. -/
theorem C74_glued_fails (home : Str) (r : Run) (fs : Files) (c t : Str) (x : Char)
    (hd : r.world.download = some c) (hs : r.skip = false) (hw : MayWrite home fs r) (ha : Agrees r)
    (hi : fs (initPath home) = some (t ++ [x])) (_hx : x ≠ '\n') (hno : ¬ Occurs (importLine (scriptPath home r.dir)) (t ++ [x])) :
    initText home (after home fs [r]) = t ++ x :: (importLine (scriptPath home r.dir) ++ chars! "\n") := by
  have ht : initText home fs = t ++ [x] := by simp [initText, hi]
  simp only [after, List.foldl]
  rcases install_cases home r fs with ⟨-, h | h⟩ | ⟨c', hd', -, ⟨h, h'⟩ | ⟨-, -, -, h⟩⟩
  · exact absurd hw h
  · rw [hd] at h; cases h
  · rcases h' with h' | h' | h'
    · rw [hs] at h'; cases h'
    · rw [ht] at h'; exact absurd h' hno
    · exact absurd ha h'
  · rw [h, ht]
    simp [initText, write_same, List.append_assoc]

/-- An init file in which the import is commented out counts as importing the script: it is left as it is, even with `-y`. -/
theorem C74_commented_fails (home : Str) (r : Run) (fs : Files) (u v : Str)
    (hi : fs (initPath home) = some (u ++ chars! "# " ++ importLine (scriptPath home r.dir) ++ v)) :
    (after home fs [r]) (initPath home) = fs (initPath home) := by
  have ho : Occurs (importLine (scriptPath home r.dir)) (initText home fs) := by
    simp only [initText, hi, Option.getD_some]
    exact ⟨u ++ chars! "# ", v, rfl⟩
  have hne := script_ne_init home r.dir
  simp only [after, List.foldl]
  rcases install_cases home r fs with ⟨h', -⟩ | ⟨c, -, -, ⟨h', -⟩ | ⟨-, -, hno, -⟩⟩
  · rw [h']
  · rw [h', write_other fs c hne.symm]
  · exact absurd ho hno

/-- A directory below the home directory, written with a tilde. -/
theorem C74_home (home rest : Str) (hr : rest ≠ []) (hl : rest.getLast? ≠ some '/') :
    scriptPath home (chars! "~/" ++ rest) = home ++ chars! "/" ++ rest ++ chars! "/rudy_lldb.py" := by
  have e : expandTilde home (chars! "~/" ++ rest) = home ++ chars! "/" ++ rest := rfl
  simp only [scriptPath, e, joinPath]
  rw [if_neg]
  · simp
  · rintro (h | h)
    · simp at h
    · rw [List.getLast?_append] at h
      cases h' : rest.getLast? with
      | none => rw [List.getLast?_eq_none_iff] at h'; exact hr h'
      | some c => rw [h'] at h hl; simp at h; exact hl (by rw [h])

/-- Any other directory is taken as it is: one that is relative to the directory the installer runs in is written to the init
file as such, where it means the directory LLDB runs in. A tilde alone is such a directory. -/
theorem C74_relative_fails (home dir : Str) (hd : dir.head? ≠ some '/') (ht : ¬ ∃ rest, dir = chars! "~/" ++ rest) :
    (scriptPath home dir).head? ≠ some '/' := by
  have e : expandTilde home dir = dir := by
    unfold expandTilde
    split
    · rename_i rest; exact absurd ⟨rest, rfl⟩ ht
    · rfl
  simp only [scriptPath, e, joinPath]
  cases dir with
  | nil => decide
  | cons c d =>
    split <;> simpa using hd

/-! The hypotheses can be met. -/
namespace Example

def sampleWorld : World where
  overwrite := chars! "n"
  add := chars! "\n"
  releases := some [⟨some (chars! "rudy-db-1"), some []⟩, ⟨some (chars! "rudy-lldb-2"), some [⟨some (chars! "rudy_lldb.py"), some (chars! "u")⟩]⟩]
  fetch := fun _ => some (chars! "print()")

def sampleRun : Run := ⟨chars! "~/.lldb", false, false, sampleWorld⟩
def sampleFiles : Files := fun p => if p = chars! "/home/a/.lldbinit" then some (chars! "settings set x y\n") else none
def gluedFiles : Files := fun p => if p = chars! "/home/a/.lldbinit" then some (chars! "settings set x y") else none

set_option maxRecDepth 8000

example : sampleWorld.download = some (chars! "print()") := rfl
example : MayWrite (chars! "/home/a") sampleFiles sampleRun := .inl rfl
example : Agrees sampleRun := .inr (.inl ((trim_blank _).1 rfl))
example : initText (chars! "/home/a") (after (chars! "/home/a") sampleFiles [sampleRun, sampleRun])
    = chars! "settings set x y\ncommand script import /home/a/.lldb/rudy_lldb.py\n" := rfl
example : initText (chars! "/home/a") (after (chars! "/home/a") gluedFiles [sampleRun])
    = chars! "settings set x ycommand script import /home/a/.lldb/rudy_lldb.py\n" := rfl
example : scriptPath (chars! "/home/a") (chars! "~") = chars! "~/rudy_lldb.py" := rfl
end Example

/-! ### C75: stopping -/

theorem takeWhile_digits (n : Nat) {r : Str} (hr : ∀ c, r.head? = some c → isDigit c = false) :
    (natStr n ++ r).takeWhile isDigit = natStr n ∧ (natStr n ++ r).dropWhile isDigit = r := by
  have hd := natStr_digits n
  generalize natStr n = ds at hd
  induction ds with
  | nil =>
    cases r with
    | nil => exact ⟨rfl, rfl⟩
    | cons c r => have := hr c rfl; simp [List.takeWhile, List.dropWhile, this]
  | cons d ds ih =>
    have h1 := hd d (by simp)
    have ⟨h2, h3⟩ := ih fun c hc => hd c (by simp [hc])
    simp [List.takeWhile, List.dropWhile, h1, h2, h3]

theorem readNumber_natStr (n : Nat) (md : Option Nat) (zp : Bool) (max : Nat) {r : Str}
    (hm : n ≤ max) (hl : ∀ m, md = some m → (natStr n).length ≤ m) (hr : ∀ c, r.head? = some c → isDigit c = false) :
    readNumber md zp max (natStr n ++ r) = some (n, r) := by
  have ⟨h1, h2⟩ := takeWhile_digits n hr
  simp only [readNumber, h1, h2]
  have hv : digitsVal (natStr n) = n := Wire.foldl_natStr n
  rw [if_neg (natStr_ne n), if_neg, if_neg, if_neg, hv]
  · rw [hv]; omega
  · rcases Wire.natStr_head n with h | h
    · simp [h]
    · simp [h]
  · cases md with
    | none => simp
    | some m => have := hl m rfl; simp; omega

theorem octet_natStr (n : Nat) (hn : n ≤ 255) {r : Str} (hr : ∀ c, r.head? = some c → isDigit c = false) :
    octet (natStr n ++ r) = some (n, r) := by
  refine readNumber_natStr n (some 3) false 255 hn ?_ hr
  rintro m ⟨⟩
  exact (Nat.length_toDigits_le_iff (by omega) (by omega)).mpr (by omega)

/-- The text of an IPv4 address. -/
def quad (a b c d : Nat) : Str := natStr a ++ chars! "." ++ natStr b ++ chars! "." ++ natStr c ++ chars! "." ++ natStr d

/-- `stop` with a numeric address, any port, and a server there sends its message. -/
theorem C75_numeric (v6 connects : Str → Bool) (a b c d port : Nat) (ha : a ≤ 255) (hb : b ≤ 255) (hc : c ≤ 255) (hd : d ≤ 255)
    (hp : port ≤ 65535) (hs : connects (quad a b c d ++ chars! ":" ++ natStr port) = true) :
    stop v6 connects (quad a b c d) port = some stopText := by
  have dot : ∀ {r : Str} c, (('.' :: r).head? = some c) → isDigit c = false := by rintro r c ⟨⟩; rfl
  have colon : ∀ {r : Str} c, ((':' :: r).head? = some c) → isDigit c = false := by rintro r c ⟨⟩; rfl
  have hparse : parseV4 (quad a b c d ++ chars! ":" ++ natStr port) = some ([a, b, c, d], port) := by
    have e : quad a b c d ++ chars! ":" ++ natStr port
        = natStr a ++ '.' :: (natStr b ++ '.' :: (natStr c ++ '.' :: (natStr d ++ ':' :: (natStr port ++ [])))) := by
      simp [quad]
    rw [e, parseV4, octet_natStr a ha dot]
    simp only [Option.bind_some, expect, if_true]
    rw [octet_natStr b hb dot]
    simp only [Option.bind_some, expect, if_true]
    rw [octet_natStr c hc dot]
    simp only [Option.bind_some, expect, if_true]
    rw [octet_natStr d hd colon]
    simp only [Option.bind_some, expect, if_true]
    rw [readNumber_natStr port none true 65535 hp (by simp) (by simp)]
    rfl
  simp only [stop, isSocketAddr, hparse, Option.isSome_some, Bool.true_or, if_true, hs]

/-- Digits without a leading zero are the text of their value. -/
theorem natStr_digitsVal {ds : Str} (hd : ∀ c ∈ ds, isDigit c = true) (hne : ds ≠ []) (hz : ds.head? = some '0' → ds.length = 1) :
    natStr (digitsVal ds) = ds := by
  generalize hn : ds.length = n
  induction n generalizing ds with
  | zero => exact absurd (List.length_eq_zero_iff.1 hn) hne
  | succ n ih =>
    rcases List.eq_nil_or_concat ds with h | ⟨xs, c, h⟩
    · exact absurd h hne
    subst h
    rw [List.concat_eq_append] at *
    have hc := hd c (by simp)
    have hcv : 48 ≤ c.toNat ∧ c.toNat ≤ 57 := by
      unfold isDigit at hc
      simp only [Bool.and_eq_true, decide_eq_true_eq] at hc
      exact hc
    have hch : Nat.digitChar (c.toNat - 48) = c := by
      have : c = Char.ofNat c.toNat := (Char.ofNat_toNat c).symm
      have key : ∀ k, k < 10 → Nat.digitChar k = Char.ofNat (k + 48) := by decide
      rw [key _ (by omega), Nat.sub_add_cancel hcv.1, ← this]
    have hval : digitsVal (xs ++ [c]) = 10 * digitsVal xs + (c.toNat - 48) := by
      simp [digitsVal, List.foldl_append, Nat.mul_comm]
    rw [hval]
    by_cases hx : xs = []
    · subst hx
      have : digitsVal [] = 0 := rfl
      rw [this, natStr, Nat.mul_zero, Nat.zero_add, Nat.toDigits_of_lt_base (by omega), hch]; rfl
    · have hh : xs.head? ≠ some '0' := by
        intro h0
        have := hz (by rw [List.head?_append, h0]; rfl)
        cases xs with
        | nil => exact hx rfl
        | cons _ _ => simp at this
      have ihx := ih (fun x hx => hd x (by simp [hx])) hx (fun h => absurd h hh) (by simpa using hn)
      have hpos : 0 < digitsVal xs := by
        rcases Nat.eq_zero_or_pos (digitsVal xs) with h0 | h0
        · rw [h0] at ihx
          rw [← ihx] at hh
          exact absurd rfl hh
        · exact h0
      have := Nat.toDigits_append_toDigits (b := 10) (n := digitsVal xs) (d := c.toNat - 48) (by omega) hpos (by omega)
      rw [natStr, ← this, ← natStr, ihx, Nat.toDigits_of_lt_base (by omega), hch]

theorem takeWhile_all (s : Str) : ∀ c ∈ s.takeWhile isDigit, isDigit c = true := fun _ hc => mem_takeWhile hc

theorem octet_inv {s r : Str} {n : Nat} (h : octet s = some (n, r)) : n ≤ 255 ∧ s = natStr n ++ r := by
  unfold octet readNumber at h
  simp only [Bool.not_false, Bool.true_and] at h
  split at h
  · cases h
  rename_i hne
  split at h
  · cases h
  split at h
  · cases h
  rename_i hz
  split at h
  · cases h
  rename_i hm
  cases h
  refine ⟨by omega, ?_⟩
  rw [natStr_digitsVal (takeWhile_all s) hne]
  · exact (List.takeWhile_append_dropWhile ..).symm
  · intro h0
    rw [h0] at hz
    have : 0 < (s.takeWhile isDigit).length := List.length_pos_iff.2 hne
    simp at hz
    omega

theorem expect_inv {c : Char} {s r : Str} (h : expect c s = some r) : s = c :: r := by
  cases s with
  | nil => cases h
  | cons d s =>
    simp only [expect] at h
    split at h
    · rename_i e; cases h; rw [e]
    · cases h

/-- Cutting a text at the last of a character. -/
theorem cut_last {c : Char} {x x' r r' : Str} (h : c ∉ r) (h' : c ∉ r') (e : x ++ c :: r = x' ++ c :: r') : x = x' ∧ r = r' := by
  have e' := congrArg List.reverse e
  simp only [List.reverse_append, List.reverse_cons, List.append_assoc, List.singleton_append] at e'
  have := Calls.cut_at (by simpa using h) (by simpa using h') e'
  exact ⟨by simpa using this.2, by simpa using this.1⟩

theorem colon_digits {ds : Str} (h : ∀ c ∈ ds, isDigit c = true) : ':' ∉ ds := fun hm => absurd (h _ hm) (by decide)

/-- Nothing else is sent, and nothing without a server that accepts the connection at that host and port; the host is a numeric
address, or something in brackets. -/
theorem C75_only (v6 connects : Str → Bool) (host t : Str) (port : Nat) (h : stop v6 connects host port = some t) :
    t = stopText ∧ connects (host ++ chars! ":" ++ natStr port) = true ∧
    ((∃ a b c d, a ≤ 255 ∧ b ≤ 255 ∧ c ≤ 255 ∧ d ≤ 255 ∧ host = quad a b c d ∧ port ≤ 65535) ∨ ∃ r, host = '[' :: r) := by
  simp only [stop] at h
  split at h
  · rename_i hs
    split at h
    · rename_i hc
      cases h
      refine ⟨rfl, hc, ?_⟩
      unfold isSocketAddr at hs
      rw [Bool.or_eq_true] at hs
      rcases hs with hs | hs
      · left
        obtain ⟨x, hx⟩ := Option.isSome_iff_exists.1 hs
        simp only [parseV4, Option.bind_eq_some_iff, Prod.exists] at hx
        obtain ⟨a, r1, h1, r2, e2, b, r3, h3, r4, e4, c, r5, h5, r6, e6, d, r7, h7, r8, e8, p, r9, h9, h10⟩ := hx
        split at h10
        · rename_i hnil
          subst hnil
          obtain ⟨ha, i1⟩ := octet_inv h1
          obtain ⟨hb, i3⟩ := octet_inv h3
          obtain ⟨hc', i5⟩ := octet_inv h5
          obtain ⟨hd, i7⟩ := octet_inv h7
          have j2 := expect_inv e2
          have j4 := expect_inv e4
          have j6 := expect_inv e6
          have j8 := expect_inv e8
          unfold readNumber at h9
          simp only [Bool.not_true, Bool.false_and, Bool.false_eq_true, if_false] at h9
          split at h9
          · cases h9
          split at h9
          · cases h9
          split at h9
          · cases h9
          rename_i hmax
          simp only [Option.some.injEq, Prod.mk.injEq] at h9
          have hr8 : r8 = r8.takeWhile isDigit := by
            have := (List.takeWhile_append_dropWhile (p := isDigit) (l := r8)).symm
            rw [h9.2, List.append_nil] at this
            exact this
          have hall : ∀ c ∈ r8, isDigit c = true := fun c hc => takeWhile_all r8 c (hr8 ▸ hc)
          have e : host ++ ':' :: natStr port = quad a b c d ++ ':' :: r8 := by
            have : host ++ ':' :: natStr port = host ++ chars! ":" ++ natStr port := by simp
            rw [this, i1, j2, i3, j4, i5, j6, i7, j8]
            simp [quad]
          obtain ⟨hq, hp⟩ := cut_last (colon_digits (natStr_digits port)) (colon_digits hall) e
          refine ⟨a, b, c, d, ha, hb, hc', hd, hq, ?_⟩
          rw [← hr8, ← hp, digitsVal, Wire.foldl_natStr] at hmax
          omega
        · cases h10
      · right
        cases host with
        | nil => simp at hs
        | cons x r =>
          refine ⟨r, ?_⟩
          simp only [List.cons_append] at hs
          split at hs
          · rename_i heq; simp only [List.cons.injEq] at heq; rw [heq.1]
          · cases hs
    · cases h
  · cases h

/-- A server that gets the message on a fresh connection, whatever follows it, confirms and exits: the message is one ended line. -/
theorem C75_exits (load : Str → Option Server.Backend) (rest : Str) :
    ∃ reply line, Server.session load ((Wire.lines (stopText ++ rest) []).map Wire.serverLine)
      = ([.got line, .sent (.complete reply)], .exit) := by
  have e : Wire.lines (stopText ++ rest) [] =
      (chars! "{\"type\":\"Command\",\"cmd\":\"shutdown\",\"args\":[]}") :: Wire.lines rest [] := by
    set_option maxRecDepth 8000 in with_unfolding_all rfl
  have e2 : Wire.serverLine (chars! "{\"type\":\"Command\",\"cmd\":\"shutdown\",\"args\":[]}") = .msg (.command (chars! "shutdown") []) := by
    set_option maxRecDepth 8000 in with_unfolding_all rfl
  rw [e, List.map_cons, e2]
  exact ⟨_, _, rfl⟩

/-- A host that is a name, or an IPv6 address without brackets, is refused: nothing is sent, although a server can be started
with it. -/
theorem C75_name_fails (v6 connects : Str → Bool) (host : Str) (port : Nat)
    (h : ∀ c, host.head? = some c → isDigit c = false ∧ c ≠ '[') :
    stop v6 connects host port = none := by
  have key : ∀ c r, isDigit c = false → c ≠ '[' → isSocketAddr v6 (c :: r) = false := by
    intro c r h1 h2
    simp only [isSocketAddr, parseV4, octet, readNumber, List.takeWhile, h1, if_true, Option.bind_none, Option.isSome_none, Bool.false_or]
    split
    · rename_i heq; cases heq; exact absurd rfl h2
    · rfl
  cases host with
  | nil =>
    have := key ':' (natStr port) rfl (by decide)
    simp only [stop]
    rw [if_neg]
    simpa using this
  | cons c r =>
    have := h c rfl
    simp only [stop]
    rw [if_neg]
    simpa using key c (r ++ ':' :: natStr port) this.1 this.2

example : stop (fun _ => true) (fun _ => true) (chars! "127.0.0.1") 5737 = some stopText := rfl
example : stop (fun _ => true) (fun _ => true) (chars! "localhost") 5737 = none := rfl
example : stop (fun _ => true) (fun _ => true) (chars! "::1") 5737 = none := rfl
example : stop (fun _ => true) (fun _ => true) (chars! "127.0.0.256") 5737 = none := rfl

end Rudy.Install
