import Verif.Model.Remap
/-
C38: source path remapping. C56: paths of source files.
-/
namespace Rudy.Remap

/-! ### Vocabulary -/

/-- A mapping applies to a path: it changes something, and its source is the path or one of the
directories the path is in. -/
def Applies (m : Path × Path) (p : Path) : Prop := m.1 ≠ m.2 ∧ m.1 <+: p

/-- A relative path that does not start with `.`. -/
def Plain (p : Path) : Prop := Comp.root ∉ p ∧ Comp.cur ∉ p

/-! ### Lemmas -/

theorem join_plain (t q : Path) (h : Plain q) : join t q = t ++ q := by
  cases q with
  | nil => rfl
  | cons c q =>
    cases c with
    | root => exact absurd (by simp) h.1
    | cur => exact absurd (by simp) h.2
    | parent => rfl
    | normal s => rfl

theorem stripPrefix_append (s r : Path) : stripPrefix (s ++ r) s = some r := by
  simp [stripPrefix]

theorem remap_cons_applies (s t r : Path) (ms : List (Path × Path)) (hne : s ≠ t) (h : Plain r) :
    remapPath ((s, t) :: ms) (s ++ r) = remapPath ms (t ++ r) := by
  simp only [remapPath, List.foldl_cons, hne, if_false, stripPrefix_append, join_plain _ _ h]

theorem remap_cons_not (m : Path × Path) (p : Path) (ms : List (Path × Path)) (h : ¬ Applies m p) :
    remapPath (m :: ms) p = remapPath ms p := by
  simp only [remapPath, List.foldl_cons]
  by_cases he : m.1 = m.2
  · simp [he]
  · have : m.1.isPrefixOf p = false := by
      cases hp : m.1.isPrefixOf p with
      | false => rfl
      | true => exact absurd ⟨he, List.isPrefixOf_iff_prefix.1 hp⟩ h
    simp [he, stripPrefix, this]

/-! ### C38 -/

/-- C38: a path that no mapping applies to is unchanged. -/
theorem C38_unmapped_unchanged (maps : List (Path × Path)) (p : Path) (h : ∀ m ∈ maps, ¬ Applies m p) :
    remapPath maps p = p := by
  induction maps with
  | nil => rfl
  | cons m ms ih =>
    rw [remap_cons_not m p ms (h m (by simp))]
    exact ih fun m hm => h m (by simp [hm])

/-- C38: the first mapping that applies puts its target in place of its source, if no later mapping
applies to the result. (Full statement: without this condition; that fails, see below.) -/
theorem C38_first_mapping_rewrites_partial (before after : List (Path × Path)) (s t r : Path) (hne : s ≠ t)
    (hr : Plain r) (hb : ∀ m ∈ before, ¬ Applies m (s ++ r)) (ha : ∀ m ∈ after, ¬ Applies m (t ++ r)) :
    remapPath (before ++ (s, t) :: after) (s ++ r) = t ++ r := by
  induction before with
  | nil => rw [List.nil_append, remap_cons_applies s t r after hne hr, C38_unmapped_unchanged _ _ ha]
  | cons m ms ih =>
    rw [List.cons_append, remap_cons_not m _ _ (hb m (by simp))]
    exact ih fun m hm => hb m (by simp [hm])

/-- C38: a directory is matched as a whole: a mapping does not apply to a path that only begins with
the same characters (`/home/user` and `/home/username`). -/
theorem C38_whole_components (d r t : Path) (a b : Str) (h : a ≠ b) :
    remapPath [(d ++ [.normal a], t)] (d ++ .normal b :: r) = d ++ .normal b :: r := by
  apply C38_unmapped_unchanged
  rintro m hm ⟨_, hp⟩
  simp only [List.mem_singleton] at hm
  subst hm
  rw [List.prefix_append_right_inj] at hp
  have := List.cons_prefix_cons.1 hp
  exact h (by injection this.1)

/-- C38: a mapping of the empty path (relative paths) leaves absolute paths alone and prefixes relative
ones. -/
theorem C38_empty_source (t r : Path) (h : t ≠ []) (hr : Plain r) :
    remapPath [([], t)] (.root :: r) = .root :: r ∧ remapPath [([], t)] r = t ++ r := by
  have h' : ¬ ([] : Path) = t := fun e => h e.symm
  constructor
  · simp [remapPath, h', stripPrefix, join]
  · simpa [remapPath] using remap_cons_applies [] t r [] h' hr

/-- C38: that a relative path is written with `./` makes no difference to it. -/
theorem C38_dot_source (t r : Path) (h : t ≠ []) : remapPath [([], t)] (.cur :: r) = t ++ r := by
  have h' : ¬ ([] : Path) = t := fun e => h e.symm
  simp [remapPath, h', stripPrefix, join, h]

/-- `C38_dot_source` at work: `./src/lib.rs` is found below `/work`. -/
example : remapPath [([], [.root, .normal (chars! "work")])] [.cur, .normal (chars! "src"), .normal (chars! "lib.rs")] = [.root, .normal (chars! "work"), .normal (chars! "src"), .normal (chars! "lib.rs")] := by decide

/-- C38 fails: mappings are chained. A path below the source of one mapping whose target is the source
of a later one ends up below the target of the later one. -/
theorem C38_mappings_chain_fails (a b c r : Path) (h1 : a ≠ b) (h2 : b ≠ c) (hr : Plain r) :
    remapPath [(a, b), (b, c)] (a ++ r) = c ++ r := by
  rw [remap_cons_applies a b r _ h1 hr, remap_cons_applies b c r _ h2 hr]
  rfl

/-- C38: the file whose existence was checked is the file that is read, if no mapping applies to the
path it is known under. (Full statement: always; that fails, see below.) -/
theorem C38_checked_file_is_read_partial (maps : List (Path × Path)) (opens : Path → Bool) (p known : Path)
    (h : build maps opens p = some known) (ha : ∀ m ∈ maps, ¬ Applies m known) :
    loadPath maps known = known ∧ opens (loadPath maps known) = true := by
  have hl : loadPath maps known = known := C38_unmapped_unchanged maps known ha
  refine ⟨hl, ?_⟩
  simp only [build] at h
  split at h
  · cases h; rw [hl]; assumption
  · cases h

/-- C38 fails: with a mapping of a directory into one of its subdirectories, the file that is read is
not the one that was checked: for every path below the directory, the mapping is applied twice. -/
theorem C38_remapped_twice_fails (d r : Path) (sub : Str) (hr : Plain r) (opens : Path → Bool)
    (ho : opens (d ++ .normal sub :: r) = true) :
    build [(d, d ++ [.normal sub])] opens (d ++ r) = some (d ++ .normal sub :: r) ∧
    loadPath [(d, d ++ [.normal sub])] (d ++ .normal sub :: r) = d ++ .normal sub :: .normal sub :: r ∧
    d ++ .normal sub :: .normal sub :: r ≠ d ++ .normal sub :: r := by
  have hne : d ≠ d ++ [Comp.normal sub] := by
    intro e
    have := congrArg List.length e
    simp at this
  have h1 : remapPath [(d, d ++ [.normal sub])] (d ++ r) = d ++ .normal sub :: r := by
    rw [remap_cons_applies d _ r _ hne hr]; simp [remapPath]
  have h2 : remapPath [(d, d ++ [.normal sub])] (d ++ .normal sub :: r) =
      d ++ .normal sub :: .normal sub :: r := by
    have : Plain (.normal sub :: r) := ⟨by simpa using hr.1, by simpa using hr.2⟩
    rw [remap_cons_applies d _ _ _ hne this]; simp [remapPath]
  refine ⟨by simp [build, h1, ho], h2, ?_⟩
  intro e
  have := congrArg List.length e
  simp at this

/-! ### C56 -/

theorem split_append (a b : Str) : split (a ++ '/' :: b) = split a ++ split b := by
  induction a with
  | nil => simp [split]
  | cons c cs ih =>
    simp only [List.cons_append, split]
    by_cases hc : c = '/'
    · simp [hc, ih]
    · simp only [hc, if_false, ih]
      cases hs : split cs with
      | nil =>
        exfalso
        cases cs with
        | nil => simp [split] at hs
        | cons d ds =>
          simp only [split] at hs
          split at hs
          · cases hs
          · split at hs <;> cases hs
      | cons s ss => simp

/-- The components of a text that does not stand at the beginning of a path. -/
def inner (s : Str) : Path := (split s).filterMap comp

theorem components_abs (a b : Str) (h : a.head? = some '/') :
    components (a ++ '/' :: b) = components a ++ inner b := by
  cases a with
  | nil => simp at h
  | cons c cs =>
    simp only [List.head?_cons, Option.some.injEq] at h
    subst h
    simp only [List.cons_append, components]
    rw [← List.cons_append, split_append]
    simp [inner]

theorem inner_append (a b : Str) : inner (a ++ '/' :: b) = inner a ++ inner b := by
  simp [inner, split_append]

/-- A relative file name that does not start with `.` has no other components than its inner ones. -/
theorem components_relative (s : Str) (h : s.head? ≠ some '/') (h' : s.head? ≠ some '.') :
    components s = inner s := by
  cases s with
  | nil => rfl
  | cons c cs =>
    have h1 : c ≠ '/' := by simpa using h
    have h2 : c ≠ '.' := by simpa using h'
    have hx : ∀ ss, split (c :: cs) ≠ ['.'] :: ss := by
      intro ss
      simp only [split, h1, if_false]
      cases split cs with
      | nil => simp [h2]
      | cons s ss => simp [h2]
    simp only [components]
    split
    · rename_i e; cases e; exact absurd rfl h1
    · first
      | rfl
      | (split
         · rename_i e; exact absurd e (hx _)
         · rfl)

/-- C56: a file in an absolute directory is the file of that name in that directory (before
remapping). -/
theorem C56_absolute_directory (compDir : Option Str) (d name : Str) (hd : d.head? = some '/')
    (hn : name.head? ≠ some '/') (hn' : name.head? ≠ some '.') :
    fileEntryToPath [] compDir (some d) name = components d ++ components name := by
  cases d with
  | nil => simp at hd
  | cons c cs =>
    have hc : c = '/' := by simpa using hd
    subst hc
    have : entryText compDir (some ('/' :: cs)) name = ('/' :: cs) ++ '/' :: name := by
      simp [entryText]
    simp only [fileEntryToPath, remapPath, List.foldl_nil, this]
    rw [components_abs _ _ rfl, components_relative name hn hn']

/-- C56: a file in a relative directory is looked for below the directory of the compilation. -/
theorem C56_relative_directory (c d name : Str) (hc : c.head? = some '/') (hd : d.head? ≠ some '/')
    (hd' : d.head? ≠ some '.') (hn : name.head? ≠ some '/') (hn' : name.head? ≠ some '.') :
    fileEntryToPath [] (some c) (some d) name = components c ++ components d ++ components name := by
  have hp : ['/'].isPrefixOf d = false := by
    cases d with
    | nil => rfl
    | cons x xs =>
      have : x ≠ '/' := by simpa using hd
      simp only [List.isPrefixOf, Bool.and_true, beq_eq_false_iff_ne, ne_eq]
      exact fun e => this e.symm
  have : entryText (some c) (some d) name = c ++ '/' :: (d ++ '/' :: name) := by
    simp only [entryText, hp]
    simp
  simp only [fileEntryToPath, remapPath, List.foldl_nil, this]
  rw [components_abs _ _ hc, inner_append, components_relative name hn hn', components_relative d hd hd']
  simp

/-- C56 fails: a file that is recorded with an absolute name still gets its directory put in front: it
is looked for at another place. -/
theorem C56_absolute_name_fails (compDir : Option Str) (d name : Str) (hd : d.head? = some '/')
    (hne : components d ≠ [.root]) :
    fileEntryToPath [] compDir (some d) ('/' :: name) ≠ components ('/' :: name) := by
  cases d with
  | nil => simp at hd
  | cons c cs =>
    have hc : c = '/' := by simpa using hd
    subst hc
    have : entryText compDir (some ('/' :: cs)) ('/' :: name) = ('/' :: cs) ++ '/' :: '/' :: name := by
      simp [entryText]
    simp only [fileEntryToPath, remapPath, List.foldl_nil, this]
    rw [components_abs _ _ rfl]
    intro e
    have hl := congrArg List.length e
    have hi : (components ('/' :: name)).length = (inner ('/' :: name)).length + 1 := by
      simp [components, inner]
    have hd1 : 1 < (components ('/' :: cs)).length := by
      simp only [components] at hne ⊢
      cases hf : (split ('/' :: cs)).filterMap comp with
      | nil => rw [hf] at hne; exact absurd rfl hne
      | cons a as => simp
    simp only [List.length_append] at hl
    omega

/-! ### Concrete cases -/

/-- `/build/src` is mapped to `/home/me/src`; `/build/srcs` is something else; a source file; chained
and doubled mappings. -/
example :
    remapPath [(components (chars! "/build/src/"), components (chars! "/home/me/src"))]
      (components (chars! "/build/src/a//b.rs")) = components (chars! "/home/me/src/a/b.rs") ∧
    remapPath [(components (chars! "/build/src"), components (chars! "/home/me/src"))]
      (components (chars! "/build/srcs/b.rs")) = components (chars! "/build/srcs/b.rs") ∧
    fileEntryToPath [(components (chars! "/build"), components (chars! "/home"))] (some (chars! "/build/x"))
      (some (chars! "src")) (chars! "main.rs") = components (chars! "/home/x/src/main.rs") ∧
    fileEntryToPath [] (some (chars! "/build/x")) (some (chars! "/lib")) (chars! "/abs/main.rs") =
      components (chars! "/lib/abs/main.rs") := by
  refine ⟨?_, ?_, ?_, ?_⟩ <;> decide

example : Plain (components (chars! "a/../b.rs")) ∧
    Applies (components (chars! "/a"), components (chars! "/b")) (components (chars! "/a/c")) := by
  refine ⟨⟨by decide, by decide⟩, by decide, ?_⟩
  exact ⟨[.normal (chars! "c")], by decide⟩

/-- The condition of `C38_first_mapping_rewrites_partial` holds of two unrelated mappings. -/
example : remapPath [(components (chars! "/x"), components (chars! "/y")),
      (components (chars! "/a"), components (chars! "/b")), (components (chars! "/c"), components (chars! "/d"))]
      (components (chars! "/a/f.rs")) = components (chars! "/b/f.rs") := by
  have h : ∀ a b : Path, a.isPrefixOf b = false → ¬ a <+: b := by
    intro a b e hp
    rw [List.isPrefixOf_iff_prefix.2 hp] at e; cases e
  refine C38_first_mapping_rewrites_partial [(components (chars! "/x"), components (chars! "/y"))]
    [(components (chars! "/c"), components (chars! "/d"))] (components (chars! "/a")) (components (chars! "/b"))
    [.normal (chars! "f.rs")] (by decide) ⟨by decide, by decide⟩ ?_ ?_
  · intro m hm ⟨_, hp⟩
    simp only [List.mem_singleton] at hm
    subst hm
    exact h _ _ (by decide) hp
  · intro m hm ⟨_, hp⟩
    simp only [List.mem_singleton] at hm
    subst hm
    exact h _ _ (by decide) hp

end Rudy.Remap
