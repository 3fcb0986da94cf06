import Verif.Proof.SourceIndex
import Verif.Props.Resolve
import Verif.Props.Symbols
import Verif.Props.TypeLookup
/-
C62: which source files are known. C63: debug files and the symbols attributed to them. C64: addresses of
source positions. C65: back from the address. C66: which files types are searched in.
-/
namespace Rudy.SourceIndex
open Rudy Rudy.Address Rudy.Resolve Rudy.Symbols
open Rudy.Remap (Path Comp remapPath components)

/-! ### Vocabulary -/

/-- A readable Rust unit of the debug file lists the path in its line table. -/
def Mentions (units : Nat → List SrcUnit) (df : Nat) (p : Path) : Prop :=
  ∃ u ∈ units df, u.readable = true ∧ u.rust = true ∧ ∃ lp, u.lines = some lp ∧ some p ∈ lp.files

/-- The debug files of a map of debug files. -/
def idsOf (files : OMap (Path × Option Str) Nat) : List Nat := files.entries.map (·.2)

theorem mentions_iff (units : Nat → List SrcUnit) (df : Nat) (p : Path) :
    p ∈ (units df).flatMap unitSources ↔ Mentions units df p := by
  simp only [List.mem_flatMap, Mentions, unitSources]
  constructor
  · rintro ⟨u, hu, hp⟩
    split at hp
    · rename_i hc
      simp only [Bool.and_eq_true] at hc
      split at hp
      · rename_i lp hl
        simp only [List.mem_filterMap, id_eq, exists_eq_right] at hp
        exact ⟨u, hu, hc.1, hc.2, lp, hl, hp⟩
      · cases hp
    · cases hp
  · rintro ⟨u, hu, h1, h2, lp, h3, h4⟩
    exact ⟨u, hu, by simp [h1, h2, h3, h4]⟩

theorem sourceToFile_get (ws : Option Path) (units : Nat → List SrcUnit) (files : OMap (Path × Option Str) Nat)
    (sym : SymbolIndex) (p : Path) :
    (debugIndexOf ws units files sym).sourceToFile.get cmpPath p =
      if (idsOf files).filter (fun df => decide (p ∈ (units df).flatMap unitSources)) = [] then none
      else some ((idsOf files).filter (fun df => decide (p ∈ (units df).flatMap unitSources))) := by
  have := sourceMap_get units (idsOf files) ⟨[]⟩ p
  simp only [sourceMap, idsOf] at this
  simp only [debugIndexOf, idsOf]
  rw [this]
  simp [OMap.get, OMap.getL]

theorem sourceToFile_sorted (ws : Option Path) (units : Nat → List SrcUnit) (files : OMap (Path × Option Str) Nat)
    (sym : SymbolIndex) : (debugIndexOf ws units files sym).sourceToFile.Sorted cmpPath :=
  sourceMap_sorted units _ _ (OMap.sorted_empty _)

/-! ### C62 -/

/-- C62: a source file is known exactly if a Rust unit of some debug file lists it. -/
theorem C62_known_iff (ws : Option Path) (units : Nat → List SrcUnit) (files : OMap (Path × Option Str) Nat)
    (sym : SymbolIndex) (p : Path) :
    (∃ dfs, (debugIndexOf ws units files sym).sourceToFile.get cmpPath p = some dfs) ↔
      ∃ df ∈ idsOf files, Mentions units df p := by
  rw [sourceToFile_get]
  constructor
  · rintro ⟨dfs, h⟩
    split at h
    · cases h
    · rename_i hne
      obtain ⟨df, hdf⟩ := List.exists_mem_of_ne_nil _ hne
      rw [List.mem_filter, decide_eq_true_eq, mentions_iff] at hdf
      exact ⟨df, hdf⟩
  · rintro ⟨df, h1, h2⟩
    rw [if_neg]
    · exact ⟨_, rfl⟩
    · intro he
      have : df ∈ (idsOf files).filter (fun df => decide (p ∈ (units df).flatMap unitSources)) := by
        rw [List.mem_filter, decide_eq_true_eq, mentions_iff]; exact ⟨h1, h2⟩
      rw [he] at this; cases this

/-- C62: under a known source file are exactly the debug files with a Rust unit that lists it, in the order of
the debug files, each as often as it is a debug file. -/
theorem C62_files_of_source (ws : Option Path) (units : Nat → List SrcUnit) (files : OMap (Path × Option Str) Nat)
    (sym : SymbolIndex) (p : Path) (dfs : List Nat)
    (h : (debugIndexOf ws units files sym).sourceToFile.get cmpPath p = some dfs) :
    dfs.Sublist (idsOf files) ∧ (∀ df, df ∈ dfs ↔ df ∈ idsOf files ∧ Mentions units df p) ∧
      ∀ df, Mentions units df p → dfs.count df = (idsOf files).count df := by
  rw [sourceToFile_get] at h
  split at h
  · cases h
  · cases h
    refine ⟨List.filter_sublist, ?_, ?_⟩
    · intro df
      rw [List.mem_filter, decide_eq_true_eq, mentions_iff]
    · intro df hm
      rw [List.count_filter]
      simp [decide_eq_true_eq, (mentions_iff units df p).2 hm]

/-- C62 does not extend to other languages: the sources of a unit that is not Rust are unknown. -/
theorem C62_other_language_fails (ws : Option Path) (units : Nat → List SrcUnit) (files : OMap (Path × Option Str) Nat)
    (sym : SymbolIndex) (p : Path) (h : ∀ df ∈ idsOf files, ∀ u ∈ units df, ∀ lp, u.lines = some lp → some p ∈ lp.files →
      u.rust = false) :
    (debugIndexOf ws units files sym).sourceToFile.get cmpPath p = none := by
  cases hg : (debugIndexOf ws units files sym).sourceToFile.get cmpPath p with
  | none => rfl
  | some dfs =>
    obtain ⟨df, h1, u, h2, _, h3, lp, h4, h5⟩ := (C62_known_iff ws units files sym p).1 ⟨dfs, hg⟩
    rw [h df h1 u h2 lp h4 h5] at h3; cases h3

/-! ### C64 -/

/-- The path is known (C62 says which ones are). -/
def World.Known (w : World) (p : Path) : Prop := ∃ dfs, w.index.sourceToFile.get cmpPath p = some dfs

/-- C64: the file that is chosen for a text is known; it is the file with exactly this path if there is one, and
otherwise the first of the known files whose path ends with the components of the text. -/
theorem C64_chosen_file (w : World) (hs : w.index.sourceToFile.Sorted cmpPath) (file : Str) (p : Path)
    (h : w.chooseFile file = some p) :
    w.Known p ∧ (w.Known (components file) → p = components file) ∧ (components file) <:+ p ∧
      (p ≠ components file → ∀ q, w.Known q → components file <:+ q → q = p ∨ cmpPath p q = .lt) := by
  unfold World.chooseFile at h
  cases hg : w.index.sourceToFile.get cmpPath (components file) with
  | some dfs =>
    rw [hg] at h; cases h
    exact ⟨⟨dfs, hg⟩, fun _ => rfl, List.suffix_refl _, fun hne => absurd rfl hne⟩
  | none =>
    rw [hg] at h
    simp only [Option.map_eq_some_iff] at h
    obtain ⟨⟨q, dfs⟩, hf, rfl⟩ := h
    rw [List.find?_eq_some_iff_append] at hf
    obtain ⟨hq, pre, post, he, hpre⟩ := hf
    simp only [endsWith, List.isSuffixOf_iff_suffix] at hq
    have hmem : (q, dfs) ∈ w.index.sourceToFile.entries := by rw [he]; simp
    refine ⟨⟨dfs, OMap.get_of_mem cmpPath _ q dfs hs hmem⟩, ?_, hq, ?_⟩
    · rintro ⟨x, hx⟩; rw [hg] at hx; cases hx
    · rintro _ r ⟨rs, hr⟩ hsuf
      obtain ⟨k, hk, hm⟩ := OMap.mem_of_get cmpPath _ r rs hr
      rw [cmpPath_eq] at hk; subst hk
      rw [he] at hm
      rcases List.mem_append.1 hm with hm | hm
      · have := hpre _ hm
        simp only [endsWith, Bool.not_eq_true', Bool.not_eq_eq_eq_not, Bool.not_true] at this
        rw [List.isSuffixOf_iff_suffix.2 hsuf] at this; cases this
      · rcases List.mem_cons.1 hm with hm | hm
        · cases hm; exact Or.inl rfl
        · right
          unfold OMap.Sorted at hs
          rw [he, List.pairwise_append] at hs
          exact (List.pairwise_cons.1 hs.2.1).1 _ hm

/-- C64: no file is chosen exactly if no known path ends with the components of the text. -/
theorem C64_no_file_iff (w : World) (hs : w.index.sourceToFile.Sorted cmpPath) (file : Str) :
    w.chooseFile file = none ↔ ∀ p, w.Known p → ¬ components file <:+ p := by
  constructor
  · intro h p hp hsuf
    unfold World.chooseFile at h
    cases hg : w.index.sourceToFile.get cmpPath (components file) with
    | some dfs => rw [hg] at h; cases h
    | none =>
      rw [hg] at h
      simp only [Option.map_eq_none_iff, List.find?_eq_none] at h
      obtain ⟨dfs, hd⟩ := hp
      obtain ⟨k, hk, hm⟩ := OMap.mem_of_get cmpPath _ p dfs hd
      rw [cmpPath_eq] at hk; subst hk
      exact h _ hm (List.isSuffixOf_iff_suffix.2 hsuf)
  · intro h
    cases hc : w.chooseFile file with
    | none => rfl
    | some p =>
      obtain ⟨h1, _, h2, _⟩ := C64_chosen_file w hs file p hc
      exact absurd h2 (h p h1)

/-- C64: a unique partial path is as good as the full one. -/
theorem C64_unique_partial_path (w : World) (hs : w.index.sourceToFile.Sorted cmpPath) (file : Str) (p : Path)
    (hp : w.Known p) (hsuf : components file <:+ p) (hu : ∀ q, w.Known q → components file <:+ q → q = p)
    (line : Nat) (col : Option Nat) : w.findAddress file line col = w.lookupPosition p line col := by
  cases hc : w.chooseFile file with
  | none => exact absurd hsuf ((C64_no_file_iff w hs file).1 hc p hp)
  | some q =>
    obtain ⟨h1, _, h2, _⟩ := C64_chosen_file w hs file q hc
    rw [World.findAddress, hc, hu q h1 h2]

theorem positionLoop_ok (answer : Nat → Res (Option (Nat × Nat))) (ans : Nat → Option (Nat × Nat)) (dfs : List Nat)
    (h : ∀ df ∈ dfs, answer df = .ok (ans df)) (c : Option Nat) (l : Nat) :
    positionLoop answer dfs c l = .ok (lookupPositionLoop (dfs.map ans) c l) := by
  induction dfs generalizing c l with
  | nil => rfl
  | cons d dfs ih =>
    simp only [positionLoop, h d (by simp), Res.bind_ok, List.map_cons]
    cases ha : ans d with
    | none => simp only [lookupPositionLoop]; exact ih (fun x hx => h x (by simp [hx])) c l
    | some r =>
      obtain ⟨a, dist⟩ := r
      simp only [lookupPositionLoop]
      split <;> split
      all_goals first
        | rfl
        | (exact ih (fun x hx => h x (by simp [hx])) _ _)

/-- What is known about the debug files: their trees are built from `info`, every function fits the address space,
their line tables are below DWARF 5 with no file twice, and line numbers fit 64 bits. -/
structure Fine (w : World) (info : Nat → List FnInfo) : Prop where
  built : ∀ df, Built (info df) (w.fns df).tree
  fits : ∀ df, ∀ f ∈ info df, f.absStart + f.relEnd ≤ u64Max1
  dwarf4 : ∀ df, Dwarf4Units (rootLines (w.units df))
  lines : ∀ df lp r l, some lp ∈ rootLines (w.units df) → .row r ∈ lp.rows → r.line = some l → l < u64Max1

/-- The line at which the best row of a debug file is, if it has one. -/
def World.Row (w : World) (info : Nat → List FnInfo) (p : Path) (line df : Nat) (r : Row) (l : Nat) : Prop :=
  (w.index.symbols.symbolsByFile.get compare df).isSome = true ∧ UsableRow (info df) (rootLines (w.units df)) p line r l

/-- C64: the rows that count: those of the units of the debug file with an address range (of any language), at or after
the line, inside a known function, if any symbol belongs to the debug file. -/
theorem C64_row_iff (w : World) (info : Nat → List FnInfo) (p : Path) (line df : Nat) (r : Row) (l : Nat) :
    w.Row info p line df r l ↔
      (w.index.symbols.symbolsByFile.get compare df).isSome = true ∧
      (∃ u ∈ w.units df, u.range ≠ none ∧ ∃ lp, u.lines = some lp ∧ .row r ∈ lp.rows ∧
        lp.fileAt r.fileIndex = some (some p)) ∧
      r.endSeq = false ∧ r.line = some l ∧ line ≤ l ∧ ∃ f ∈ info df, f.relStart ≤ r.address ∧ r.address < f.relEnd := by
  unfold World.Row UsableRow rootLines InFunction
  simp only [List.mem_map, List.mem_filter, Option.isSome_iff_ne_none]
  constructor
  · rintro ⟨h1, ⟨lp, ⟨u, ⟨h2, h3⟩, h4⟩, h5, h6⟩, h7, h8, h9, f, h10, h11⟩
    exact ⟨h1, ⟨u, h2, h3, lp, h4, h5, h6⟩, h7, h8, h9, f, h10, h11⟩
  · rintro ⟨h1, ⟨u, h2, h3, lp, h4, h5, h6⟩, h7, h8, h9, f, h10, h11⟩
    exact ⟨h1, ⟨lp, ⟨u, ⟨h2, h3⟩, h4⟩, h5, h6⟩, h7, h8, h9, f, h10, h11⟩

theorem answer_total (w : World) (info : Nat → List FnInfo) (hf : Fine w info) (p : Path) (line df : Nat) :
    ∃ o, w.answer p line df = .ok o := by
  unfold World.answer World.fnIndex
  cases w.index.symbols.symbolsByFile.get compare df with
  | none => exact ⟨none, rfl⟩
  | some m => exact C07_no_panic (info df) _ (hf.built df) (hf.fits df) _ p line

theorem answer_some (w : World) (info : Nat → List FnInfo) (hf : Fine w info) (p : Path) (line df a d : Nat)
    (h : w.answer p line df = .ok (some (a, d))) :
    (∃ r f, w.Row info p line df r (line + d) ∧ InFunction (info df) f r.address ∧
      a + f.relStart = f.absStart + r.address) ∧ ∀ r l, w.Row info p line df r l → line + d ≤ l := by
  unfold World.answer World.fnIndex at h
  unfold World.Row
  cases hm : w.index.symbols.symbolsByFile.get compare df with
  | none => rw [hm] at h; cases h
  | some m =>
    rw [hm] at h
    simp only [Option.map_some] at h
    obtain ⟨⟨r, f, h1, h2, h3⟩, h4⟩ := C07_answer_is_closest (info df) _ (hf.built df) _ (hf.dwarf4 df) p line a d h
    exact ⟨⟨r, f, ⟨rfl, h1⟩, h2, h3⟩, fun r l hr => h4 r l hr.2⟩

theorem answer_none (w : World) (info : Nat → List FnInfo) (hf : Fine w info) (p : Path) (line df : Nat)
    (h : w.answer p line df = .ok none) (r : Row) (l : Nat) : ¬ w.Row info p line df r l := by
  rintro ⟨h1, h2⟩
  unfold World.answer World.fnIndex at h
  cases hm : w.index.symbols.symbolsByFile.get compare df with
  | none => rw [hm] at h1; cases h1
  | some m =>
    rw [hm] at h
    simp only [Option.map_some] at h
    exact (C07_none_iff (info df) _ (hf.built df) (hf.fits df) _ (hf.dwarf4 df) p line).1 h ⟨r, l, h2⟩

theorem answer_bound (w : World) (info : Nat → List FnInfo) (hf : Fine w info) (p : Path) (line df a d : Nat) (hl : 0 < line)
    (h : w.answer p line df = .ok (some (a, d))) : d < u64Max1 - 1 := by
  unfold World.answer World.fnIndex at h
  cases hm : w.index.symbols.symbolsByFile.get compare df with
  | none => rw [hm] at h; cases h
  | some m =>
    rw [hm] at h
    simp only [Option.map_some] at h
    exact C09_distance_bound (info df) _ (hf.built df) _ p line a d hl (fun lp r l => hf.lines df lp r l) h

theorem lookup_answers (w : World) (info : Nat → List FnInfo) (hf : Fine w info) (p : Path) (line : Nat) (col : Option Nat)
    (dfs : List Nat) (hd : w.index.sourceToFile.get cmpPath p = some dfs) :
    ∃ ans : Nat → Option (Nat × Nat), (∀ df, w.answer p line df = .ok (ans df)) ∧
      w.lookupPosition p line col = .ok (Resolve.lookupPosition (dfs.map ans)) := by
  have hex : ∀ df, ∃ o, w.answer p line df = .ok o := answer_total w info hf p line
  refine ⟨fun df => match w.answer p line df with | .ok o => o | _ => none, ?_, ?_⟩
  · intro df
    obtain ⟨o, ho⟩ := hex df
    simp only [ho]
  · unfold World.lookupPosition
    rw [hd]
    simp only
    rw [positionLoop_ok _ (fun df => match w.answer p line df with | .ok o => o | _ => none)]
    · rfl
    · intro df _
      obtain ⟨o, ho⟩ := hex df
      simp only [ho]

/-- C64: the address found for a position is that of a row of the chosen file at or after the line, in a function of a
debug file that lists the file, moved to where the function is loaded; no debug file that lists the file has a
usable row closer to the line. -/
theorem C64_answer (w : World) (info : Nat → List FnInfo) (hf : Fine w info) (file : Str) (line : Nat) (col : Option Nat)
    (a : Nat) (h : w.findAddress file line col = .ok (some a)) :
    ∃ p dfs df r f d, w.chooseFile file = some p ∧ w.index.sourceToFile.get cmpPath p = some dfs ∧ df ∈ dfs ∧
      w.Row info p line df r (line + d) ∧ InFunction (info df) f r.address ∧ a + f.relStart = f.absStart + r.address ∧
      ∀ df' ∈ dfs, ∀ r' l', w.Row info p line df' r' l' → line + d ≤ l' := by
  unfold World.findAddress at h
  cases hc : w.chooseFile file with
  | none => rw [hc] at h; cases h
  | some p =>
    rw [hc] at h
    simp only at h
    cases hd : w.index.sourceToFile.get cmpPath p with
    | none => simp only [World.lookupPosition, hd] at h; cases h
    | some dfs =>
      obtain ⟨ans, h1, h2⟩ := lookup_answers w info hf p line col dfs hd
      rw [h2] at h
      simp only [Res.ok.injEq] at h
      obtain ⟨d, hm, hmin⟩ := C09_global_minimum _ a h
      obtain ⟨df, hdf, hans⟩ := List.mem_map.1 hm
      obtain ⟨⟨r, f, g1, g2, g3⟩, _⟩ := answer_some w info hf p line df a d (by rw [h1 df, hans])
      refine ⟨p, dfs, df, r, f, d, rfl, hd, hdf, g1, g2, g3, ?_⟩
      intro df' hdf' r' l' hr
      cases ha : ans df' with
      | none => exact absurd hr (answer_none w info hf p line df' (by rw [h1 df', ha]) r' l')
      | some x =>
        obtain ⟨a', d'⟩ := x
        have h3 := (answer_some w info hf p line df' a' d' (by rw [h1 df', ha])).2 r' l' hr
        have h4 := hmin a' d' (List.mem_map.2 ⟨df', hdf', ha⟩)
        omega

/-- C64: no address is found for a line of a chosen file only if none of its debug files has a usable row. -/
theorem C64_complete (w : World) (info : Nat → List FnInfo) (hf : Fine w info) (file : Str) (line : Nat) (col : Option Nat)
    (hl : 0 < line) (p : Path) (dfs : List Nat) (hc : w.chooseFile file = some p)
    (hd : w.index.sourceToFile.get cmpPath p = some dfs) (df : Nat) (hdf : df ∈ dfs) (r : Row) (l : Nat)
    (hr : w.Row info p line df r l) : ∃ a, w.findAddress file line col = .ok (some a) := by
  obtain ⟨ans, h1, h2⟩ := lookup_answers w info hf p line col dfs hd
  unfold World.findAddress
  rw [hc]
  simp only [h2]
  have hb : ∀ a d, some (a, d) ∈ dfs.map ans → d < u64Max1 - 1 := by
    intro a d hm
    obtain ⟨df', _, ha⟩ := List.mem_map.1 hm
    exact answer_bound w info hf p line df' a d hl (by rw [h1 df', ha])
  have hne : Resolve.lookupPosition (dfs.map ans) ≠ none := by
    rw [C09_answers_iff _ hb]
    cases ha : ans df with
    | none => exact absurd hr (answer_none w info hf p line df (by rw [h1 df, ha]) r l)
    | some x => exact ⟨x.1, x.2, List.mem_map.2 ⟨df, hdf, ha⟩⟩
  cases hx : Resolve.lookupPosition (dfs.map ans) with
  | none => exact absurd hx hne
  | some a => exact ⟨a, rfl⟩

/-- C64: looking up a position never panics. -/
theorem C64_no_panic (w : World) (info : Nat → List FnInfo) (hf : Fine w info) (file : Str) (line : Nat) (col : Option Nat) :
    ∃ o, w.findAddress file line col = .ok o := by
  unfold World.findAddress
  cases w.chooseFile file with
  | none => exact ⟨none, rfl⟩
  | some p =>
    simp only
    cases hd : w.index.sourceToFile.get cmpPath p with
    | none => exact ⟨none, by simp [World.lookupPosition, hd]⟩
    | some dfs =>
      obtain ⟨ans, _, h2⟩ := lookup_answers w info hf p line col dfs hd
      exact ⟨_, h2⟩

/-- C64 fails for columns: the column of a position makes no difference. -/
theorem C64_column_fails (w : World) (file : Str) (line : Nat) (c c' : Option Nat) :
    w.findAddress file line c = w.findAddress file line c' := rfl

/-! ### C65 -/

/-- A binary whose debug information says one thing about each address: functions of a debug file do not overlap, the
symbols nearest below an address of a function are symbols of its debug file, rows of a function are in the line
table of its own unit, and no two rows of a line table have the same address. -/
structure Clean (w : World) (info : Nat → List FnInfo) : Prop extends Fine w info where
  apart : ∀ df f g a, f ∈ info df → g ∈ info df → f.absStart ≤ a → a < f.absEnd → g.absStart ≤ a → a < g.absEnd → g = f
  length : ∀ df, ∀ f ∈ info df, f.absEnd + f.relStart = f.absStart + f.relEnd
  nearest : ∀ df f a, f ∈ info df → f.absStart ≤ a → a < f.absEnd →
    ∃ s syms, w.index.symbols.functionAtAddress a = some (s, syms) ∧ syms ≠ [] ∧ ∀ x ∈ syms, x.debugFile = df
  ownUnit : ∀ df f lp r, InFunction (info df) f r.address → some lp ∈ rootLines (w.units df) → .row r ∈ lp.rows →
    (w.fns df).unitOf f.name = some (some lp)
  rows : ∀ df lp pre r post, some lp ∈ rootLines (w.units df) → lp.rows = pre ++ .row r :: post → r.endSeq = false →
    .bad ∉ pre ∧ ∀ r', .row r' ∈ pre → r'.endSeq = false → r'.address ≠ r.address

theorem uniqueL_const (l : List Nat) (d : Nat) (seen : List Nat) (h : ∀ x ∈ l, x = d) :
    uniqueL l seen = if l = [] ∨ d ∈ seen then [] else [d] := by
  induction l generalizing seen with
  | nil => simp [uniqueL]
  | cons x xs ih =>
    have hx : x = d := h x (by simp)
    subst hx
    have hxs : ∀ y ∈ xs, y = x := fun y hy => h y (by simp [hy])
    simp only [uniqueL]
    by_cases hs : x ∈ seen
    · simp [hs, ih seen hxs]
    · simp [hs, ih (x :: seen) hxs]

theorem locationsList_const (ix : FnIndex) (a : Nat) (f : FnInfo) (u : Option LineProgram) (rel : Nat) (loc : Location)
    (l : List FnInfo) (hl : ∀ g ∈ l, g = f) (h1 : toRelative f a = .ok rel) (h2 : ix.unitOf f.name = some u)
    (h3 : Resolve.addressToLocation u rel = some loc) :
    addressToLocationsList ix a l = .ok (l.map fun _ => (f.name, loc)) := by
  induction l with
  | nil => rfl
  | cons g gs ih =>
    have hg : g = f := hl g (by simp)
    subst hg
    simp only [addressToLocationsList, h1, ih (fun x hx => hl x (by simp [hx])), Res.bind_eq, Res.bind_ok, h2, h3,
      Res.pure_eq, List.map_cons]

/-- C65: going from a source position to an address and back gives the chosen file and the line of the row that was
found: not before the line asked for, and that line itself if it has a row. -/
theorem C65_round_trip_partial (w : World) (info : Nat → List FnInfo) (hcl : Clean w info) (file : Str) (line : Nat)
    (col : Option Nat) (a : Nat) (h : w.findAddress file line col = .ok (some a)) :
    ∃ p dfs name l c, w.chooseFile file = some p ∧ w.index.sourceToFile.get cmpPath p = some dfs ∧
      w.addressToLocation a = .ok (some (name, ⟨p, l, c⟩)) ∧ line ≤ l ∧
      ∀ df ∈ dfs, ∀ r, w.Row info p line df r line → l = line := by
  obtain ⟨p, dfs, df, r, f, d, hc, hd, hdf, hrow, hin, ha, hmin⟩ := C64_answer w info hcl.toFine file line col a h
  obtain ⟨hsym, ⟨lp, hlp, hr, hfile⟩, hend, hline, _, _⟩ := hrow
  have hlen := hcl.length df f hin.1
  have hfit := hcl.fits df f hin.1
  have hin2 := hin.2
  have hin' : f.absStart ≤ a ∧ a < f.absEnd := by omega
  obtain ⟨s, syms, hsyms, hne, hall⟩ := hcl.nearest df f a hin.1 hin'.1 hin'.2
  obtain ⟨pre, post, hrows⟩ := List.append_of_mem hr
  obtain ⟨hbad, hdist⟩ := hcl.rows df lp pre r post hlp hrows hend
  have hloc := C07_address_to_location_of_row lp pre post r hrows hbad hdist hend (line + d) hline p hfile
  have hun : uniqueL (syms.map (·.debugFile)) [] = [df] := by
    rw [uniqueL_const _ df]
    · simp [hne]
    · intro x hx
      obtain ⟨y, hy, rfl⟩ := List.mem_map.1 hx
      exact hall y hy
  have hrel : toRelative f a = .ok r.address := by
    simp only [toRelative, subU, addU, Res.bind_eq]
    rw [if_pos hin'.1, Res.bind_ok, if_pos (by omega)]
    congr 1; omega
  have hq := C01_query_absolute_exact (info df) _ (hcl.built df) a
  have hqf : ∀ g ∈ (w.fns df).tree.queryAddress a true, g = f := by
    intro g hg
    have := hq.mem_iff.1 hg
    simp only [List.mem_filter, decide_eq_true_eq] at this
    exact hcl.apart df f g a hin.1 this.1 hin'.1 hin'.2 this.2.1 this.2.2
  have hqne : (w.fns df).tree.queryAddress a true ≠ [] := by
    intro he
    have : f ∈ (w.fns df).tree.queryAddress a true := by
      apply hq.mem_iff.2
      simp only [List.mem_filter, decide_eq_true_eq]
      exact ⟨hin.1, hin'⟩
    rw [he] at this; cases this
  have hix : w.fnIndex df = some (w.fns df) := by
    unfold World.fnIndex
    cases hm : w.index.symbols.symbolsByFile.get compare df with
    | none => rw [hm] at hsym; cases hsym
    | some m => rfl
  have hgather : findAllByAddress w.index.symbols w.fnIndex a =
      .ok (((w.fns df).tree.queryAddress a true).map fun _ => (f.name, ⟨p, line + d, r.column⟩)) := by
    simp only [findAllByAddress, hsyms, hun, gather, hix, addressToLocations, Res.bind_eq]
    rw [locationsList_const (w.fns df) a f (some lp) r.address _ _ hqf hrel (hcl.ownUnit df f lp r hin hlp hr) hloc]
    simp
  refine ⟨p, dfs, f.name, line + d, r.column, hc, hd, ?_, by omega, ?_⟩
  · simp only [World.addressToLocation, hgather, Res.bind_ok, lookupAddress]
    cases hl : ((w.fns df).tree.queryAddress a true).getLast? with
    | none => exact absurd (List.getLast?_eq_none_iff.1 hl) hqne
    | some g => simp [hl]
  · intro df' hdf' r' hr'
    have := hmin df' hdf' r' line hr'
    omega

/-! ### C63 -/

/-- The object can be opened, and is known under this path and member name. -/
def OpensAs (maps : List (Path × Path)) (opens : Path → Bool) (o : MappedObject) (key : Path × Option Str) : Prop :=
  ∃ p, o.path = some p ∧ o.member = some key.2 ∧ key.1 = remapPath maps p ∧ opens key.1 = true

theorem objectFile_some (maps : List (Path × Path)) (opens : Path → Bool) (i : Nat) (o : MappedObject)
    (key : Path × Option Str) (id : Nat) :
    objectFile maps opens i o = some (key, id) ↔ OpensAs maps opens o key ∧ id = i + 1 := by
  obtain ⟨k, m⟩ := key
  unfold objectFile OpensAs
  cases hp : o.path with
  | none => simp
  | some p =>
    cases hm : o.member with
    | none => simp
    | some mm =>
      simp only [Remap.build]
      by_cases h : opens (remapPath maps p)
      · simp only [h, if_true, Option.some.injEq, Prod.mk.injEq]
        constructor
        · rintro ⟨⟨rfl, rfl⟩, rfl⟩; exact ⟨⟨p, rfl, rfl, rfl, h⟩, rfl⟩
        · rintro ⟨⟨q, rfl, rfl, rfl, _⟩, rfl⟩; exact ⟨⟨rfl, rfl⟩, rfl⟩
      · simp only [h]
        constructor
        · intro hh; cases hh
        · rintro ⟨⟨q, hq, _, rfl, h2⟩, _⟩; cases hq; exact absurd h2 h

/-- The last of some (key, value) pairs with this key. -/
def lastOf (l : List (Option ((Path × Option Str) × Nat))) (key : Path × Option Str) : Option Nat :=
  (l.filterMap id |>.filter (fun e => decide (e.1 = key)) |>.map (·.2)).getLast?

theorem debugFiles_fold (l : List (Option ((Path × Option Str) × Nat))) (m : OMap (Path × Option Str) Nat)
    (key : Path × Option Str) :
    (l.foldl addFile m).get cmpKey key =
      (lastOf l key).or (m.get cmpKey key) := by
  induction l generalizing m with
  | nil => simp [lastOf]
  | cons x xs ih =>
    rw [List.foldl_cons, ih]
    cases x with
    | none => simp [lastOf, addFile]
    | some e =>
      obtain ⟨k, i⟩ := e
      simp only [addFile, lastOf, List.filterMap_cons, id_eq, List.filter_cons]
      rw [OMap.get_insert]
      by_cases h : k = key
      · subst h
        have : cmpKey k k = .eq := cmpKey_eq.2 rfl
        simp only [this, if_true, decide_true, List.map_cons, List.getLast?_cons, Option.or_some]
        cases (List.map (·.2) (List.filter (fun e => decide (e.1 = k)) (List.filterMap id xs))).getLast? <;> simp
      · have hne : cmpKey key k ≠ .eq := fun he => h (cmpKey_eq.1 he).symm
        simp [h, hne]


theorem lastOf_cons (x : Option ((Path × Option Str) × Nat)) (l : List (Option ((Path × Option Str) × Nat)))
    (key : Path × Option Str) :
    lastOf (x :: l) key = (lastOf l key).or ((x.filter (fun e => decide (e.1 = key))).map (·.2)) := by
  cases x with
  | none => simp [lastOf]
  | some e =>
    obtain ⟨k, i⟩ := e
    by_cases h : k = key
    · subst h
      simp only [lastOf, List.filterMap_cons, id_eq, List.filter_cons, decide_true, if_true, List.map_cons,
        List.getLast?_cons, Option.filter_some, Option.map_some]
      cases (List.map (·.2) (List.filter (fun e => decide (e.1 = k)) (List.filterMap id l))).getLast? <;> simp
    · have : Option.filter (fun e : (Path × Option Str) × Nat => decide (e.1 = key)) (some (k, i)) = none := by
        rw [Option.filter_some]; simp [h]
      rw [this]; simp [lastOf, h]

theorem lastOf_none (l : List (Option ((Path × Option Str) × Nat))) (key : Path × Option Str) :
    lastOf l key = none ↔ ∀ i, some (key, i) ∉ l := by
  simp only [lastOf, List.getLast?_eq_none_iff, List.map_eq_nil_iff, List.filter_eq_nil_iff, List.mem_filterMap, id_eq,
    exists_eq_right, decide_eq_true_eq]
  constructor
  · intro h i hm; exact h (key, i) hm rfl
  · rintro h ⟨k, i⟩ hm rfl; exact h i hm

theorem lastOf_objects (maps : List (Path × Path)) (opens : Path → Bool) (key : Path × Option Str) (id : Nat) (n : Nat)
    (os : List MappedObject) :
    lastOf (os.mapIdx fun i => objectFile maps opens (i + n)) key = some id ↔
      ∃ i o, os[i]? = some o ∧ OpensAs maps opens o key ∧ id = i + n + 1 ∧
        ∀ j o', i < j → os[j]? = some o' → ¬ OpensAs maps opens o' key := by
  induction os generalizing n id with
  | nil => simp [lastOf]
  | cons o os ih =>
    have ih' := fun id => ih id (n + 1)
    have hsh : (fun i => objectFile maps opens (i + 1 + n)) = fun i => objectFile maps opens (i + (n + 1)) := by
      funext i; congr 1; omega
    rw [List.mapIdx_cons, lastOf_cons]
    rw [hsh]
    simp only [Nat.zero_add] at ih' ⊢
    cases hl : lastOf (os.mapIdx fun i => objectFile maps opens (i + (n + 1))) key with
    | some id' =>
      rw [hl] at ih'
      simp only [Option.some_or]
      rw [ih']
      constructor
      · rintro ⟨i, o', h1, h2, h3, h4⟩
        refine ⟨i + 1, o', h1, h2, by omega, ?_⟩
        intro j o'' hj hj'
        cases j with
        | zero => omega
        | succ j => exact h4 j o'' (by omega) hj'
      · rintro ⟨i, o', h1, h2, h3, h4⟩
        cases i with
        | zero =>
          exfalso
          obtain ⟨i2, o2, g1, g2, _, _⟩ := (ih id' (n + 1)).1 hl
          exact h4 (i2 + 1) o2 (by omega) g1 g2
        | succ i =>
          refine ⟨i, o', h1, h2, by omega, ?_⟩
          intro j o'' hj hj'
          exact h4 (j + 1) o'' (by omega) hj'
    | none =>
      simp only [Option.none_or]
      have hnone : ∀ (j : Nat) o', os[j]? = some o' → ¬ OpensAs maps opens o' key := by
        intro j o' hj ho
        refine (lastOf_none _ key).1 hl (j + (n + 1) + 1) ?_
        rw [List.mem_mapIdx]
        obtain ⟨hlt, hget⟩ := List.getElem?_eq_some_iff.1 hj
        exact ⟨j, hlt, by rw [hget]; exact (objectFile_some ..).2 ⟨ho, rfl⟩⟩
      constructor
      · intro h
        simp only [Option.map_eq_some_iff, Option.filter_eq_some_iff, decide_eq_true_eq] at h
        obtain ⟨⟨k, i⟩, ⟨h1, h2⟩, h3⟩ := h
        simp only at h2 h3
        subst h2 h3
        rw [objectFile_some] at h1
        refine ⟨0, o, rfl, h1.1, by omega, ?_⟩
        intro j o' hj hj'
        cases j with
        | zero => omega
        | succ j => exact hnone j o' hj'
      · rintro ⟨i, o', h1, h2, h3, h4⟩
        cases i with
        | zero =>
          cases h1
          have := (objectFile_some maps opens n o key (n + 1)).2 ⟨h2, rfl⟩
          rw [this]; simp [h3]
        | succ i => exact absurd h2 (hnone i o' h1)


/-- C63: the debug files are the binary and the objects that can be opened, under their remapped path and member name;
among objects with the same path and member the last one counts, and an object at the path of the binary replaces it. -/
theorem C63_debug_file_iff (maps : List (Path × Path)) (opens : Path → Bool) (b : BinaryFile) (key : Path × Option Str)
    (id : Nat) :
    (debugFilesOf maps opens b).get cmpKey key = some id ↔
      (∃ i o, b.objects[i]? = some o ∧ OpensAs maps opens o key ∧ id = i + 1 ∧
        ∀ j o', i < j → b.objects[j]? = some o' → ¬ OpensAs maps opens o' key) ∨
      (key = (b.path, none) ∧ id = 0 ∧ ∀ o ∈ b.objects, ¬ OpensAs maps opens o key) := by
  have hkey := lastOf_objects maps opens key
  simp only [debugFilesOf, objectFiles]
  rw [debugFiles_fold]
  have hsh : b.objects.mapIdx (objectFile maps opens) = b.objects.mapIdx (fun i => objectFile maps opens (i + 0)) := rfl
  rw [hsh]
  cases hl : lastOf (b.objects.mapIdx fun i => objectFile maps opens (i + 0)) key with
  | some id' =>
    have h0 := (hkey id' 0 b.objects).1 hl
    have h1 := hkey id 0 b.objects
    rw [hl] at h1
    rw [Option.some_or, h1]
    simp only [Nat.add_zero]
    constructor
    · exact Or.inl
    · rintro (h | ⟨_, _, h⟩)
      · exact h
      · obtain ⟨i, o, g1, g2, _⟩ := h0
        exact absurd g2 (h o (List.mem_of_getElem? g1))
  | none =>
    have hno : ∀ o ∈ b.objects, ¬ OpensAs maps opens o key := by
      intro o ho hop
      obtain ⟨j, hlt, hget⟩ := List.mem_iff_getElem.1 ho
      refine (lastOf_none _ key).1 hl (j + 0 + 1) ?_
      rw [List.mem_mapIdx]
      exact ⟨j, hlt, by rw [hget]; exact (objectFile_some ..).2 ⟨hop, rfl⟩⟩
    rw [Option.none_or, OMap.get_insert]
    constructor
    · intro h
      split at h
      · rename_i he
        cases h
        exact Or.inr ⟨cmpKey_eq.1 he, rfl, hno⟩
      · cases h
    · rintro (⟨i, o, g1, g2, _⟩ | ⟨rfl, rfl, _⟩)
      · exact absurd g2 (hno o (List.mem_of_getElem? g1))
      · rw [if_pos (cmpKey_eq.2 rfl)]

/-- The symbol stands for this function of the binary or of an object that can be opened, and its debug file is that
of the file it is in. -/
def Attributed (maps : List (Path × Path)) (opens : Path → Bool) (b : BinaryFile) (s : Symbol) : Prop :=
  (b.hasDebug = true ∧ s.debugFile = 0 ∧
    ∃ e ∈ b.symbols, e.demangled = some s.name ∧ e.address = s.address ∧ e.isText = true) ∨
  ∃ g o key, b.objects[g]? = some o ∧ OpensAs maps opens o key ∧ s.debugFile = g + 1 ∧
    ∃ e, (g, e) ∈ b.mapped ∧ e.demangled = some s.name ∧ e.address = s.address ∧ 0 < e.size

/-- The operations of one group that does not panic. -/
def groupList (files : List (Option ((Path × Option Str) × Nat))) (b : BinaryFile) (g : Nat) : List IndexOp :=
  match files[g]? with
  | some (some (_, i)) => [.mapped ((b.mapped.filter (fun s => s.1 == g)).map (·.2)) i]
  | _ => []

theorem groupOps_ok (files : List (Option ((Path × Option Str) × Nat))) (b : BinaryFile) (order : List Nat)
    (ops : List IndexOp) (h : groupOps files b order = .ok ops) : ops = order.flatMap (groupList files b) := by
  induction order generalizing ops with
  | nil => cases h; rfl
  | cons g gs ih =>
    simp only [groupOps, Res.bind_eq_ok] at h
    obtain ⟨x, hx, xs, hxs, he⟩ := h
    cases he
    rw [List.flatMap_cons, ← ih xs hxs]
    congr 1
    unfold groupOp at hx
    unfold groupList
    split at hx
    · cases hx
    · rename_i hg; cases hx; rw [hg]
    · rename_i hg; cases hx; rw [hg]

/-- What one operation inserts. -/
def opEvs : IndexOp → List Ev
  | .binary es df => es.filterMap (evOf (·.isText) df)
  | .mapped es df => es.filterMap (evOf (fun s => decide (s.size > 0)) df)

theorem inserted_eq (ops : List IndexOp) : inserted ops = ops.flatMap opEvs := by
  induction ops with
  | nil => rfl
  | cons o os ih => cases o <;> simp [inserted, opEvs, ih]

theorem insertedFns_perm {ops ops' : List IndexOp} (h : ops.Perm ops') : (insertedFns ops).Perm (insertedFns ops') := by
  unfold insertedFns
  rw [inserted_eq, inserted_eq]
  exact ((h.flatMap_right opEvs).filter _).map _

theorem mem_insertedFns (ops : List IndexOp) (s : Symbol) :
    s ∈ insertedFns ops ↔ ∃ op ∈ ops, ∃ ev ∈ opEvs op, ev.isFn = true ∧ ev.sym = s := by
  unfold insertedFns
  rw [inserted_eq]
  simp only [List.mem_map, List.mem_filter, List.mem_flatMap]
  constructor
  · rintro ⟨ev, ⟨⟨op, h1, h2⟩, h3⟩, h4⟩; exact ⟨op, h1, ev, h2, h3, h4⟩
  · rintro ⟨op, h1, ev, h2, h3, h4⟩; exact ⟨ev, ⟨⟨op, h1, h2⟩, h3⟩, h4⟩

/-- C63: the functions the symbol index knows are exactly those of the binary (if it has debug information) and of the
objects that can be opened, each with the debug file it comes from. -/
theorem C63_functions_iff (maps : List (Path × Path)) (opens : Path → Bool) (b : BinaryFile) (order : List Nat)
    (ho : GroupOrder b order) (ops : List IndexOp) (h : symbolOps maps opens b order = .ok ops) (s : Symbol) :
    s ∈ insertedFns ops ↔ Attributed maps opens b s := by
  simp only [symbolOps, Res.bind_eq_ok] at h
  obtain ⟨gs, hg, he⟩ := h
  cases he
  rw [groupOps_ok _ _ _ _ hg, mem_insertedFns]
  constructor
  · rintro ⟨op, hop, ev, hev, hfn, rfl⟩
    rcases List.mem_append.1 hop with hop | hop
    · split at hop
      · rename_i hd
        simp only [List.mem_singleton] at hop
        subst hop
        simp only [opEvs, List.mem_filterMap, evOf, Option.map_eq_some_iff] at hev
        obtain ⟨e, he, d, hd', rfl⟩ := hev
        exact Or.inl ⟨hd, rfl, e, he, hd', rfl, hfn⟩
      · cases hop
    · obtain ⟨g, hgo, hop⟩ := List.mem_flatMap.1 hop
      unfold groupList at hop
      split at hop
      · rename_i key i hgi
        simp only [List.mem_singleton] at hop
        subst hop
        simp only [opEvs, List.mem_filterMap, evOf, Option.map_eq_some_iff, List.mem_map, List.mem_filter,
          beq_iff_eq] at hev
        obtain ⟨e, ⟨⟨g', e'⟩, ⟨hm, rfl⟩, rfl⟩, d, hd', rfl⟩ := hev
        simp only [objectFiles, List.getElem?_mapIdx, Option.map_eq_some_iff] at hgi
        obtain ⟨o, ho1, ho2⟩ := hgi
        rw [objectFile_some] at ho2
        exact Or.inr ⟨_, o, key, ho1, ho2.1, ho2.2, e', hm, hd', rfl, by simpa using hfn⟩
      · cases hop
  · rintro (⟨hd, hdf, e, he, h1, h2, h3⟩ | ⟨g, o, key, h1, h2, hdf, e, he, h3, h4, h5⟩)
    · refine ⟨.binary b.symbols 0, by simp [hd], ⟨e.raw, s, true⟩, ?_, rfl, rfl⟩
      simp only [opEvs, List.mem_filterMap]
      refine ⟨e, he, ?_⟩
      simp only [evOf, h1, Option.map_some, h3, h2]
      rw [← hdf]
    · refine ⟨.mapped ((b.mapped.filter (fun s => s.1 == g)).map (·.2)) (g + 1), ?_, ⟨e.raw, s, true⟩, ?_, rfl, rfl⟩
      · refine List.mem_append.2 (Or.inr (List.mem_flatMap.2 ⟨g, (ho.2 g).2 ⟨_, he, rfl⟩, ?_⟩))
        have : (objectFiles maps opens b)[g]? = some (some (key, g + 1)) := by
          simp only [objectFiles, List.getElem?_mapIdx, h1, Option.map_some]
          rw [(objectFile_some ..).2 ⟨h2, rfl⟩]
        simp [groupList, this]
      · simp only [opEvs, List.mem_filterMap]
        refine ⟨e, List.mem_map.2 ⟨(g, e), by simp [he], rfl⟩, ?_⟩
        simp only [evOf, h3, Option.map_some, h4]
        rw [← hdf]; simp [h5]

/-- C63: indexing succeeds if the symbols name objects that exist. -/
theorem C63_no_panic (maps : List (Path × Path)) (opens : Path → Bool) (b : BinaryFile) (order : List Nat)
    (ho : GroupOrder b order) (hb : ∀ s ∈ b.mapped, s.1 < b.objects.length) :
    ∃ r, indexSymbolMap maps opens b order = .ok r := by
  have key : ∀ l : List Nat, (∀ g ∈ l, g < b.objects.length) → ∃ ops, groupOps (objectFiles maps opens b) b l = .ok ops := by
    intro l
    induction l with
    | nil => exact fun _ => ⟨_, rfl⟩
    | cons g gs ih =>
      intro h
      obtain ⟨xs, hxs⟩ := ih fun x hx => h x (by simp [hx])
      have hg : ∃ x, groupOp (objectFiles maps opens b) b g = .ok x := by
        unfold groupOp
        split
        · rename_i hn
          simp only [objectFiles, List.getElem?_mapIdx, Option.map_eq_none_iff, List.getElem?_eq_none_iff] at hn
          have := h g (by simp)
          omega
        · exact ⟨_, rfl⟩
        · exact ⟨_, rfl⟩
      obtain ⟨x, hx⟩ := hg
      exact ⟨x ++ xs, by simp [groupOps, hx, hxs]⟩
  obtain ⟨ops, hops⟩ := key order (by
    intro g hg
    obtain ⟨s, hs, rfl⟩ := (ho.2 g).1 hg
    exact hb s hs)
  simp only [indexSymbolMap, symbolOps, hops, Res.bind_ok]
  exact ⟨_, rfl⟩

theorem ops_perm (maps : List (Path × Path)) (opens : Path → Bool) (b : BinaryFile) (o₁ o₂ : List Nat)
    (h1 : GroupOrder b o₁) (h2 : GroupOrder b o₂) (ops₁ ops₂ : List IndexOp)
    (e1 : symbolOps maps opens b o₁ = .ok ops₁) (e2 : symbolOps maps opens b o₂ = .ok ops₂) : ops₁.Perm ops₂ := by
  simp only [symbolOps, Res.bind_eq_ok] at e1 e2
  obtain ⟨g1, hg1, he1⟩ := e1
  obtain ⟨g2, hg2, he2⟩ := e2
  cases he1; cases he2
  rw [groupOps_ok _ _ _ _ hg1, groupOps_ok _ _ _ _ hg2]
  refine List.Perm.append_left _ (List.Perm.flatMap_right _ ?_)
  exact (List.perm_ext_iff_of_nodup h1.1 h2.1).2 fun g => by rw [h1.2, h2.2]

/-- C63: the symbol nearest to an address does not depend on the order in which objects are visited. -/
theorem C63_nearest_order_independent (maps : List (Path × Path)) (opens : Path → Bool) (b : BinaryFile) (o₁ o₂ : List Nat)
    (h1 : GroupOrder b o₁) (h2 : GroupOrder b o₂) (f₁ f₂ : OMap (Path × Option Str) Nat) (x₁ x₂ : SymbolIndex)
    (e1 : indexSymbolMap maps opens b o₁ = .ok (f₁, x₁)) (e2 : indexSymbolMap maps opens b o₂ = .ok (f₂, x₂)) (a : Nat) :
    f₁ = f₂ ∧ (x₁.functionAtAddress a = none ↔ x₂.functionAtAddress a = none) ∧
      ∀ s l s' l', x₁.functionAtAddress a = some (s, l) → x₂.functionAtAddress a = some (s', l') → s = s' ∧ l.Perm l' := by
  simp only [indexSymbolMap, Res.bind_eq_ok] at e1 e2
  obtain ⟨p1, hp1, he1⟩ := e1
  obtain ⟨p2, hp2, he2⟩ := e2
  cases he1; cases he2
  have hperm := insertedFns_perm (ops_perm maps opens b o₁ o₂ h1 h2 p1 p2 hp1 hp2)
  refine ⟨rfl, ?_, ?_⟩
  · rw [C05_none_iff, C05_none_iff]
    exact ⟨fun h s hs => h s (hperm.mem_iff.2 hs), fun h s hs => h s (hperm.mem_iff.1 hs)⟩
  · intro s l s' l' hl hl'
    obtain ⟨g1, g2, g3, g4⟩ := C05_nearest_is_greatest p1 a s l hl
    obtain ⟨g1', g2', g3', g4'⟩ := C05_nearest_is_greatest p2 a s' l' hl'
    have hex : ∀ (ops : List IndexOp) (v : List Symbol) (n : Nat), v = (insertedFns ops).filter (fun s => s.address == n) → v ≠ [] →
        ∃ x ∈ insertedFns ops, x.address = n := by
      intro ops v n hv hne
      obtain ⟨x, hx⟩ := List.exists_mem_of_ne_nil _ hne
      rw [hv, List.mem_filter] at hx
      exact ⟨x, hx.1, by simpa using hx.2⟩
    obtain ⟨x, hx, hxs⟩ := hex p1 l s g3 g4
    obtain ⟨x', hx', hxs'⟩ := hex p2 l' s' g3' g4'
    have q1 := g2' x (hperm.mem_iff.1 hx) (by omega)
    have q2 := g2 x' (hperm.mem_iff.2 hx') (by omega)
    have hss : s = s' := by omega
    subst hss
    exact ⟨rfl, by rw [g3, g3']; exact hperm.filter _⟩


/-- Two objects, each with a function `a::f`. -/
def twoObjects : BinaryFile where
  path := components (chars! "/bin/app")
  hasDebug := false
  symbols := []
  objects := [⟨some (components (chars! "/o/one.o")), some none⟩, ⟨some (components (chars! "/o/two.o")), some none⟩]
  mapped := [(0, ⟨chars! "x", some (sName (chars! "a::f")), 100, true, 8⟩), (1, ⟨chars! "y", some (sName (chars! "a::f")), 200, true, 8⟩)]

/-- C63, negative: of functions with the same name in several objects, the one found by name depends on the order of a hash
map. -/
theorem C63_order_fails : ∃ f x₁ x₂, GroupOrder twoObjects [0, 1] ∧ GroupOrder twoObjects [1, 0] ∧
    indexSymbolMap [] (fun _ => true) twoObjects [0, 1] = .ok (f, x₁) ∧
    indexSymbolMap [] (fun _ => true) twoObjects [1, 0] = .ok (f, x₂) ∧
    (x₁.getFunction (sName (chars! "a::f"))).map (·.debugFile) = some 2 ∧
    (x₂.getFunction (sName (chars! "a::f"))).map (·.debugFile) = some 1 := by
  refine ⟨_, _, _, ⟨by decide, ?_⟩, ⟨by decide, ?_⟩, rfl, rfl, by decide, by decide⟩
  · intro g; simp [twoObjects, eq_comm]
  · intro g; simp [twoObjects, eq_comm, or_comm]

/-- C63, negative: of two objects under the same path and member, the first one is no debug file, so its sources are
unknown, but its functions are in the symbol index. -/
theorem C63_duplicate_object_fails (o : MappedObject) (k : Path × Option Str) (b : BinaryFile) (maps : List (Path × Path))
    (opens : Path → Bool) (hk : OpensAs maps opens o k) (i j : Nat) (hij : i < j) (hi : b.objects[i]? = some o)
    (hj : b.objects[j]? = some o) (e : RawEntry) (n : SymbolName) (he : (i, e) ∈ b.mapped) (hn : e.demangled = some n)
    (hs : 0 < e.size) (order : List Nat) (ho : GroupOrder b order) (ops : List IndexOp)
    (h : symbolOps maps opens b order = .ok ops) :
    (∀ key, (debugFilesOf maps opens b).get cmpKey key ≠ some (i + 1)) ∧ ⟨n, e.address, i + 1⟩ ∈ insertedFns ops := by
  constructor
  · intro key hg
    rcases (C63_debug_file_iff maps opens b key (i + 1)).1 hg with ⟨i', o', h1, h2, h3, h4⟩ | ⟨_, h2, _⟩
    · have : i = i' := by omega
      subst this
      rw [hi] at h1; cases h1
      exact h4 j o hij hj h2
    · omega
  · exact (C63_functions_iff maps opens b order ho ops h _).2
      (Or.inr ⟨i, o, k, hi, hk, rfl, e, he, hn, rfl, hs⟩)

/-! ### C66 -/

theorem components_dot : components (chars! ".") = [.cur] := rfl

theorem isLocal_iff (root : Path) (units : Nat → List SrcUnit) (df : Nat) :
    isLocal root (fileSources (units df)) = true ↔ ∃ p, Mentions units df p ∧ (root <+: p ∨ [Comp.cur] <+: p) := by
  unfold isLocal
  rw [List.any_eq_true]
  simp only [Bool.or_eq_true, startsWith, List.isPrefixOf_iff_prefix, components_dot]
  constructor
  · rintro ⟨e, h1, h2⟩
    exact ⟨e.1, (mentions_iff units df e.1).1 ((fileSources_keys (units df) e.1).1 (List.mem_map.2 ⟨e, h1, rfl⟩)), h2⟩
  · rintro ⟨p, h1, h2⟩
    obtain ⟨e, h3, rfl⟩ := List.mem_map.1 ((fileSources_keys (units df) p).2 ((mentions_iff units df p).2 h1))
    exact ⟨e, h3, h2⟩

/-- C66: types are looked up by name in the debug files that have a source file below the workspace root (or a source
file named relative to the current directory), and in no other. -/
theorem C66_searched_iff (ws : Option Path) (units : Nat → List SrcUnit) (files : OMap (Path × Option Str) Nat)
    (sym : SymbolIndex) (df : Nat) :
    df ∈ (debugIndexOf ws units files sym).indexed ↔
      df ∈ idsOf files ∧ ∃ root, ws = some root ∧ ∃ p, Mentions units df p ∧ (root <+: p ∨ [Comp.cur] <+: p) := by
  unfold debugIndexOf
  cases ws with
  | none => simp
  | some root =>
    simp only [List.mem_filter, isLocal_iff, idsOf]
    constructor
    · rintro ⟨h1, h2⟩; exact ⟨h1, root, rfl, h2⟩
    · rintro ⟨h1, r, hr, h2⟩; cases hr; exact ⟨h1, h2⟩

/-- C66: the searched files are searched in the order of the debug files. -/
theorem C66_order (ws : Option Path) (units : Nat → List SrcUnit) (files : OMap (Path × Option Str) Nat)
    (sym : SymbolIndex) : (debugIndexOf ws units files sym).indexed.Sublist (idsOf files) := by
  unfold debugIndexOf
  cases ws with
  | none => exact List.nil_sublist _
  | some root => exact List.filter_sublist

/-- C66, negative: when no workspace is found where the debugger was started, no type is found by name, whatever the
debug information says. -/
theorem C66_no_workspace_fails (units : Nat → List SrcUnit) (files : OMap (Path × Option Str) Nat) (sym : SymbolIndex)
    (lib : TypeNames.Lib) (w : TypeNames.TypeWorld) (hw : w.indexed = (debugIndexOf none units files sym).indexed) (s : Str)
    (r : Option Layout.TypeDef) (h : TypeNames.lookupTypeByName lib w s = .ok r) : r = none := by
  have : w.indexed = [] := hw
  simp only [TypeNames.lookupTypeByName, this, TypeNames.findInFiles, Res.bind_eq_ok] at h
  obtain ⟨_, _, h⟩ := h
  cases h; rfl

/-- A path that can be a current directory: absolute, plain components. -/
def CleanDir (p : Path) : Prop := ∃ q : Path, p = .root :: q ∧ Comp.root ∉ q

theorem cwdUp_spec (hasToml : Path → Bool) (q : List Comp) (hq : Comp.root ∉ q) (r : Path) :
    cwdUp hasToml (q ++ [Comp.root]) = some r ↔
      hasToml r = true ∧ r ≠ [] ∧ r <+: (q ++ [Comp.root]).reverse ∧
        ∀ r', r' <+: (q ++ [Comp.root]).reverse → r.length < r'.length → hasToml r' = false := by
  induction q with
  | nil =>
    simp only [List.nil_append, cwdUp, List.reverse_cons, List.reverse_nil]
    constructor
    · intro h
      split at h
      · rename_i ht
        cases h
        refine ⟨ht, by simp, List.prefix_refl _, ?_⟩
        intro r' h1 h2
        have := h1.length_le
        omega
      · cases h
    · rintro ⟨h1, h2, h3, _⟩
      have : r = [Comp.root] := by
        obtain ⟨t, ht⟩ := h3
        cases r with
        | nil => exact absurd rfl h2
        | cons a as =>
          simp only [List.cons_append, List.cons.injEq, List.append_eq_nil_iff] at ht
          obtain ⟨rfl, rfl, _⟩ := ht; rfl
      subst this
      rw [if_pos h1]
  | cons c up ih =>
    have hc : c ≠ .root := fun h => hq (by simp [h])
    have ih := ih (fun h => hq (by simp [h]))
    simp only [List.cons_append, cwdUp]
    rw [if_neg hc]
    by_cases ht : hasToml (c :: (up ++ [Comp.root])).reverse
    · rw [if_pos ht]
      constructor
      · intro h
        cases h
        refine ⟨ht, by simp, List.prefix_refl _, ?_⟩
        intro r' h1 h2
        have := h1.length_le
        omega
      · rintro ⟨h1, h2, h3, h4⟩
        by_cases hl : r.length < (c :: (up ++ [Comp.root])).reverse.length
        · have := h4 _ (List.prefix_refl _) hl
          rw [this] at ht; cases ht
        · rw [h3.eq_of_length_le (by omega)]
    · rw [if_neg ht, ih]
      rw [List.reverse_cons]
      constructor
      · rintro ⟨h1, h2, h3, h4⟩
        refine ⟨h1, h2, h3.trans (List.prefix_append _ _), ?_⟩
        intro r' g1 g2
        rcases List.prefix_concat_iff.1 g1 with rfl | g1
        · rw [List.reverse_cons] at ht; simpa using ht
        · exact h4 r' g1 g2
      · rintro ⟨h1, h2, h3, h4⟩
        refine ⟨h1, h2, ?_, fun r' g1 g2 => h4 r' (g1.trans (List.prefix_append _ _)) g2⟩
        rcases List.prefix_concat_iff.1 h3 with rfl | g1
        · rw [List.reverse_cons] at ht; exact absurd h1 ht
        · exact g1

/-- C66: without cargo, the workspace root is the nearest directory at or above the current one with a `Cargo.toml`. -/
theorem C66_nearest_manifest (cargo : Option Str) (hno : (cargo.bind fun out => parent (components (trim out))) = none)
    (cwd : Path) (hc : CleanDir cwd) (hasToml : Path → Bool) (r : Path) :
    detectCargoRoot cargo (some cwd) hasToml = some r ↔
      hasToml r = true ∧ r ≠ [] ∧ r <+: cwd ∧ ∀ r', r' <+: cwd → r.length < r'.length → hasToml r' = false := by
  obtain ⟨q, rfl, hq⟩ := hc
  have h := cwdUp_spec hasToml q.reverse (by simpa using hq) r
  simp only [List.reverse_append, List.reverse_reverse, List.reverse_cons, List.reverse_nil, List.nil_append,
    List.singleton_append] at h
  unfold detectCargoRoot
  rw [hno, Option.none_or, Option.bind_some, List.reverse_cons]
  exact h

/-- C66: with cargo, it is the directory of the manifest cargo names. -/
theorem C66_cargo_root (dir : Path) (name : Str) (out : Str) (h : components (trim out) = dir ++ [.normal name])
    (cwd : Option Path) (hasToml : Path → Bool) : detectCargoRoot (some out) cwd hasToml = some dir := by
  simp [detectCargoRoot, h, parent]

example : detectCargoRoot (some (chars! "/w/Cargo.toml\n")) none (fun _ => false) = some (components (chars! "/w")) :=
  rfl

/-- C66, negative: without cargo, in a member of a workspace, the member counts as the workspace: other members are not
searched for types. -/
theorem C66_member_fails :
    detectCargoRoot none (some (components (chars! "/w/a")))
      (fun p => decide (p = components (chars! "/w/a") ∨ p = components (chars! "/w"))) = some (components (chars! "/w/a")) ∧
    ¬ components (chars! "/w/a") <+: components (chars! "/w/b/src/lib.rs") := by
  refine ⟨by decide, by decide⟩

/-! ### Examples -/

/-- Two rows in a function of `/w/src/main.rs`, at lines 10 and 12. -/
def demoLines : LineProgram :=
  { version := 4
    files := [none, some (components (chars! "/w/src/main.rs"))]
    rows := [.row ⟨false, 0x10, 2, some 10, none⟩, .row ⟨false, 0x18, 2, some 12, none⟩, .row ⟨true, 0x20, 2, some 12, none⟩] }

/-- A binary with one function. -/
def demoBinary : BinaryFile where
  path := components (chars! "/bin/app")
  hasDebug := true
  symbols := [⟨chars! "x", some (sName (chars! "a::f")), 0x1010, true, 0⟩]
  objects := []
  mapped := []

def demoUnits (lp : LineProgram) : Nat → List SrcUnit
  | 0 => [⟨true, true, some (0, 0x100), some lp⟩]
  | _ => []

def demoInfo : Nat → List FnInfo
  | 0 => [sampleFn]
  | _ => []

/-- The tree of its functions. -/
def demoTree : Nat → AddressTree
  | 0 => ⟨.node sampleFn 0x1010 0x1020 0x1020 .nil .nil, .node sampleFn 0x10 0x20 0x20 .nil .nil⟩
  | _ => new []

theorem demoTree_eq (df : Nat) : demoTree df = new (demoInfo df) := by
  match df with
  | 0 => simp [demoTree, demoInfo, new_single, sampleFn]
  | n + 1 => rfl

/-- Its world. -/
def demoW (lp : LineProgram) : World where
  index := debugIndexOf (some (components (chars! "/w"))) (demoUnits lp) (debugFilesOf [] (fun _ => true) demoBinary)
    (buildIndex [.binary demoBinary.symbols 0])
  units := demoUnits lp
  fns := fun df => ⟨demoTree df, fun n => if n = 1 then some (some lp) else none⟩

/-- The index of the world is the one the code builds. -/
theorem demoW_index (lp : LineProgram) :
    debugIndex true (some (components (chars! "/w"))) [] (fun _ => true) (demoUnits lp) demoBinary [] = .ok (demoW lp).index := rfl

theorem demo_clean : Clean (demoW demoLines) demoInfo where
  built := fun df => by
    show Built (demoInfo df) (demoTree df)
    rw [demoTree_eq]; exact built_new _
  fits := by
    intro df f hf
    match df, hf with
    | 0, hf => simp [demoInfo] at hf; subst hf; decide
    | n + 1, hf => simp [demoInfo] at hf
  dwarf4 := by
    intro df lp h
    match df, h with
    | 0, h =>
      simp [demoW, demoUnits, rootLines] at h
      subst h
      refine ⟨by decide, ?_⟩
      intro i j p hi hj
      have key : ∀ n, demoLines.files[n]? = some (some p) → n = 1 := by
        intro n hn
        match n, hn with
        | 0, hn => simp [demoLines] at hn
        | 1, hn => rfl
        | n + 2, hn => simp [demoLines] at hn
      rw [key i hi, key j hj]
    | n + 1, h => simp [demoW, demoUnits, rootLines] at h
  lines := by
    intro df lp r l h hr hl
    match df, h with
    | 0, h =>
      simp [demoW, demoUnits, rootLines] at h
      subst h
      simp [demoLines] at hr
      rcases hr with rfl | rfl | rfl <;> (cases hl; decide)
    | n + 1, h => simp [demoW, demoUnits, rootLines] at h
  apart := by
    intro df f g a hf hg _ _ _ _
    match df, hf, hg with
    | 0, hf, hg => simp [demoInfo] at hf hg; rw [hf, hg]
    | n + 1, hf, hg => simp [demoInfo] at hf
  length := by
    intro df f hf
    match df, hf with
    | 0, hf => simp [demoInfo] at hf; subst hf; decide
    | n + 1, hf => simp [demoInfo] at hf
  nearest := by
    intro df f a hf h1 h2
    match df, hf with
    | 0, hf =>
      simp [demoInfo] at hf; subst hf
      cases hx : (buildIndex [.binary demoBinary.symbols 0]).functionAtAddress a with
      | none =>
        have := (C05_none_iff _ a).1 hx ⟨sName (chars! "a::f"), 0x1010, 0⟩ (by decide)
        simp [sampleFn] at h1
        simp at this; omega
      | some v =>
        obtain ⟨s, syms⟩ := v
        obtain ⟨_, _, g3, g4⟩ := C05_nearest_is_greatest _ a s syms hx
        refine ⟨s, syms, hx, g4, ?_⟩
        intro x hx'
        rw [g3] at hx'
        have : insertedFns [.binary demoBinary.symbols 0] = [⟨sName (chars! "a::f"), 0x1010, 0⟩] := by decide
        rw [this] at hx'
        simp [List.mem_filter] at hx'
        rw [hx'.1]
    | n + 1, hf => simp [demoInfo] at hf
  ownUnit := by
    intro df f lp r hin h hr
    match df, h, hin with
    | 0, h, hin =>
      simp [demoW, demoUnits, rootLines] at h
      subst h
      have := hin.1
      simp [demoInfo] at this; subst this
      simp [demoW, sampleFn]
    | n + 1, h, _ => simp [demoW, demoUnits, rootLines] at h
  rows := by
    intro df lp pre r post h hrows hend
    match df, h with
    | 0, h =>
      simp [demoW, demoUnits, rootLines] at h
      subst h
      match pre, hrows with
      | [], hrows => exact ⟨by simp, by simp⟩
      | [x], hrows =>
        simp [demoLines] at hrows
        obtain ⟨rfl, rfl, _⟩ := hrows
        refine ⟨by simp, ?_⟩
        intro r' hr' _
        simp at hr'; subst hr'; simp
      | [x, y], hrows =>
        simp [demoLines] at hrows
        obtain ⟨rfl, rfl, rfl, _⟩ := hrows
        cases hend
      | x :: y :: z :: pre, hrows => simp [demoLines] at hrows
    | n + 1, h => simp [demoW, demoUnits, rootLines] at h

/-- Asking for line 11 by the last components of the path gives the address of line 12. -/
theorem demo_answer : (demoW demoLines).findAddress (chars! "src/main.rs") 11 none = .ok (some 0x1018) := by decide

/-- And the address leads back to line 12. -/
example : (demoW demoLines).addressToLocation 0x1018 = .ok (some (1, ⟨components (chars! "/w/src/main.rs"), 12, none⟩)) := by
  decide

/-- The debug file is searched for types. -/
example : (demoW demoLines).index.indexed = [0] := by decide

/-- Two rows with one address: line 10 and line 12. -/
def sharedLines : LineProgram :=
  { version := 4
    files := [none, some (components (chars! "/w/src/main.rs"))]
    rows := [.row ⟨false, 0x10, 2, some 10, none⟩, .row ⟨false, 0x10, 2, some 12, none⟩] }

/-- C65, negative: when two rows have the same address, the way back from the address may end at the other line, even before
the line asked for. -/
theorem C65_shared_address_fails :
    (demoW sharedLines).findAddress (chars! "src/main.rs") 12 none = .ok (some 0x1010) ∧
    (demoW sharedLines).addressToLocation 0x1010 = .ok (some (1, ⟨components (chars! "/w/src/main.rs"), 10, none⟩)) := by
  refine ⟨by decide, by decide⟩

/-- A line table with two files `mod.rs`; only the second one has code. -/
def twoMods : LineProgram :=
  { version := 4
    files := [some (components (chars! "/w/a/mod.rs")), some (components (chars! "/w/b/mod.rs"))]
    rows := [.row ⟨false, 0x10, 2, some 10, none⟩] }

/-- C64, negative: when several known files match, the first one is taken, even if only another one has code at the
line. -/
theorem C64_ambiguous_fails :
    (demoW twoMods).findAddress (chars! "mod.rs") 10 none = .ok none ∧
    (demoW twoMods).findAddress (chars! "b/mod.rs") 10 none = .ok (some 0x1010) := by
  refine ⟨by decide, by decide⟩

/-- Line 10 has code at two columns. -/
def twoColumns : LineProgram :=
  { version := 4
    files := [none, some (components (chars! "/w/src/main.rs"))]
    rows := [.row ⟨false, 0x10, 2, some 10, some 5⟩, .row ⟨false, 0x18, 2, some 10, some 30⟩] }

/-- C64, negative: asking for the second column of a line gives the address of the first. -/
theorem C64_second_column_fails :
    (demoW twoColumns).findAddress (chars! "src/main.rs") 10 (some 30) = .ok (some 0x1010) ∧
    (demoW twoColumns).addressToLocation 0x1018 = .ok (some (1, ⟨components (chars! "/w/src/main.rs"), 10, some 30⟩)) := by
  refine ⟨by decide, by decide⟩

end Rudy.SourceIndex
