import Verif.Proof.Resolve
/-
Property theorems C07-C10 about resolving between source positions and addresses.
-/
namespace Rudy.Resolve
open Rudy Rudy.Address
open Rudy.Remap (Path)

/-! ### Specification vocabulary -/

/-- `r` is a row of one of the units' line tables that says "line `line` of `file`" (reading the
file number with the DWARF rules), `line` is at or after `target`, and the row's address lies in a
known function. -/
def UsableRow (info : List FnInfo) (units : List (Option LineProgram)) (file : Path) (target : Nat)
    (r : Row) (line : Nat) : Prop :=
  (∃ lp, some lp ∈ units ∧ .row r ∈ lp.rows ∧ lp.fileAt r.fileIndex = some (some file)) ∧
  r.endSeq = false ∧ r.line = some line ∧ target ≤ line ∧ ∃ f, InFunction info f r.address

/-- The units the resolution is written for: DWARF before version 5 and no file listed twice. -/
def Dwarf4Units (units : List (Option LineProgram)) : Prop :=
  ∀ lp, some lp ∈ units → lp.version < 5 ∧
    ∀ (i j : Nat) (p : Path),
      lp.files[i]? = some (some p) → lp.files[j]? = some (some p) → i = j

theorem usable_candidate {info units file target r line} (hd : Dwarf4Units units)
    (h : UsableRow info units file target r line) : Candidate units file target r := by
  obtain ⟨⟨lp, h1, h2, h3⟩, h4, h5, h6, _⟩ := h
  obtain ⟨hv, hu⟩ := hd lp h1
  unfold LineProgram.fileAt at h3
  rw [if_neg (by omega)] at h3
  by_cases h0 : r.fileIndex = 0
  · simp [h0] at h3
  rw [if_neg h0] at h3
  refine ⟨lp, r.fileIndex - 1, h1, h3, ?_, h2, h4, by omega, line, h5, h6⟩
  intro j hj hc
  have := hu _ _ _ hc h3
  omega

theorem candidate_row {units file target r} (hd : Dwarf4Units units)
    (h : Candidate units file target r) :
    (∃ lp, some lp ∈ units ∧ .row r ∈ lp.rows ∧ lp.fileAt r.fileIndex = some (some file)) ∧
    r.endSeq = false ∧ ∃ line, r.line = some line ∧ target ≤ line := by
  obtain ⟨lp, k, h1, h2, h3, h4, h5, h6, h7⟩ := h
  obtain ⟨hv, hu⟩ := hd lp h1
  refine ⟨⟨lp, h1, h4, ?_⟩, h5, h7⟩
  unfold LineProgram.fileAt
  rw [if_neg (by omega), h6, if_neg (by omega)]
  simpa using h2

/-! ### C07 -/

theorem inv_init (info : List FnInfo) (target : Nat) : Inv info target [] {} := by
  refine ⟨?_, ?_⟩
  · intro a h; cases h
  · intro x hx; cases hx

/-- What an answer of the loops means, for any units (file numbers read 1-based). -/
theorem locationToAddress_some (info : List FnInfo) (t : AddressTree) (hb : Built info t)
    (units : List (Option LineProgram)) (file : Path) (target a d : Nat)
    (h : locationToAddress t units file target = .ok (some (a, d))) :
    (∃ r f, Candidate units file target r ∧ r.line = some (target + d) ∧
      InFunction info f r.address ∧ a + f.relStart = f.absStart + r.address) ∧
    (∀ r line f, Candidate units file target r → r.line = some line → InFunction info f r.address →
      target + d ≤ line) := by
  unfold locationToAddress at h
  rw [unitLoop_flat] at h
  obtain ⟨i1, i2⟩ := flatLoop_inv info t hb target (flatUnits file units) [] {}
    (inv_init info target)
  simp only [List.nil_append] at i1 i2
  have mk : Sound info target (flatUnits file units) a d → ∃ r f, Candidate units file target r ∧
      r.line = some (target + d) ∧ InFunction info f r.address ∧
      a + f.relStart = f.absStart + r.address := by
    rintro ⟨⟨idx, r⟩, hx, f, hu, hf, hl, he⟩
    exact ⟨r, f, (candidate_iff _ _ _ _).2 ⟨idx, hx, hu⟩, hl, hf, he⟩
  cases hl : flatLoop t target (flatUnits file units) {} with
  | ok s =>
    rw [hl] at h
    cases s with
    | done a' =>
      simp only [Res.ok.injEq, Option.some.injEq, Prod.mk.injEq] at h
      obtain ⟨rfl, rfl⟩ := h
      refine ⟨mk (i2 a' hl), ?_⟩
      rintro r line f ⟨_, _, _, _, _, _, _, _, l, e1, e2⟩ e3 _
      rw [e1] at e3; cases e3; omega
    | go b =>
      have inv := i1 b hl
      simp only [Res.ok.injEq, Option.map_eq_some_iff, Prod.mk.injEq] at h
      obtain ⟨a', ha, rfl, rfl⟩ := h
      refine ⟨mk (inv.sound a' ha), ?_⟩
      intro r line f hc e3 hf
      obtain ⟨idx, hx, hu⟩ := (candidate_iff _ _ _ _).1 hc
      exact (inv.min (idx, r) hx hu f hf).2 line e3
  | err => rw [hl] at h; cases h
  | panic => rw [hl] at h; cases h

theorem locationToAddress_none (info : List FnInfo) (t : AddressTree) (hb : Built info t)
    (units : List (Option LineProgram)) (file : Path) (target : Nat)
    (h : locationToAddress t units file target = .ok none) (r : Row) (f : FnInfo)
    (hc : Candidate units file target r) : ¬ InFunction info f r.address := by
  unfold locationToAddress at h
  rw [unitLoop_flat] at h
  obtain ⟨i1, _⟩ := flatLoop_inv info t hb target (flatUnits file units) [] {}
    (inv_init info target)
  simp only [List.nil_append] at i1
  cases hl : flatLoop t target (flatUnits file units) {} with
  | ok s =>
    rw [hl] at h
    cases s with
    | done a' => cases h
    | go b =>
      have inv := i1 b hl
      simp only [Res.ok.injEq, Option.map_eq_none_iff] at h
      intro hf
      obtain ⟨idx, hx, hu⟩ := (candidate_iff _ _ _ _).1 hc
      exact (inv.min (idx, r) hx hu f hf).1 h
  | err => rw [hl] at h; cases h
  | panic => rw [hl] at h; cases h

/-- C07: an answer `(a, d)` is the runtime address of a usable row `d` lines after the requested
line, and no usable row of the file is closer. -/
theorem C07_answer_is_closest (info : List FnInfo) (t : AddressTree) (hb : Built info t)
    (units : List (Option LineProgram)) (hd : Dwarf4Units units) (file : Path) (target a d : Nat)
    (h : locationToAddress t units file target = .ok (some (a, d))) :
    (∃ r f, UsableRow info units file target r (target + d) ∧ InFunction info f r.address ∧
      a + f.relStart = f.absStart + r.address) ∧
    (∀ r line, UsableRow info units file target r line → target + d ≤ line) := by
  obtain ⟨⟨r, f, h1, h2, h3, h4⟩, hmin⟩ := locationToAddress_some info t hb units file target a d h
  constructor
  · obtain ⟨c1, c2, c3⟩ := candidate_row hd h1
    exact ⟨r, f, ⟨c1, c2, h2, by omega, f, h3⟩, h3, h4⟩
  · intro r line hu
    obtain ⟨g, hg⟩ := hu.2.2.2.2
    exact hmin r line g (usable_candidate hd hu) hu.2.2.1 hg

/-- C07: the search fails exactly when no usable row exists (given that the functions fit in the
address space, see C07_no_panic). -/
theorem C07_none_iff (info : List FnInfo) (t : AddressTree) (hb : Built info t)
    (hbd : ∀ f ∈ info, f.absStart + f.relEnd ≤ u64Max1)
    (units : List (Option LineProgram)) (hd : Dwarf4Units units) (file : Path) (target : Nat) :
    locationToAddress t units file target = .ok none ↔
      ¬ ∃ r line, UsableRow info units file target r line := by
  constructor
  · rintro h ⟨r, line, hu⟩
    obtain ⟨g, hg⟩ := hu.2.2.2.2
    exact locationToAddress_none info t hb units file target h r g (usable_candidate hd hu) hg
  · intro h
    obtain ⟨s, hs⟩ := flatLoop_noPanic info t hb hbd target (flatUnits file units) {}
    have hx : ∃ o, locationToAddress t units file target = .ok o := by
      unfold locationToAddress
      rw [unitLoop_flat, hs]
      cases s with
      | go b => exact ⟨_, rfl⟩
      | done a => exact ⟨_, rfl⟩
    obtain ⟨o, ho⟩ := hx
    cases o with
    | none => exact ho
    | some p =>
      obtain ⟨a, d⟩ := p
      obtain ⟨⟨r, f, h1, _⟩, _⟩ := C07_answer_is_closest info t hb units hd file target a d ho
      exact absurd ⟨r, _, h1⟩ h

/-- C07: a usable row with exactly the requested line is preferred over every other row. -/
theorem C07_exact_line_preferred (info : List FnInfo) (t : AddressTree) (hb : Built info t)
    (units : List (Option LineProgram)) (hd : Dwarf4Units units) (file : Path) (target a d : Nat)
    (h : locationToAddress t units file target = .ok (some (a, d)))
    (r : Row) (hr : UsableRow info units file target r target) : d = 0 := by
  have := (C07_answer_is_closest info t hb units hd file target a d h).2 r target hr
  omega

/-- C07: resolving a line never overflows when every function fits in the 64-bit address space
together with its relative end. -/
theorem C07_no_panic (info : List FnInfo) (t : AddressTree) (hb : Built info t)
    (hbd : ∀ f ∈ info, f.absStart + f.relEnd ≤ u64Max1)
    (units : List (Option LineProgram)) (file : Path) (target : Nat) :
    ∃ o, locationToAddress t units file target = .ok o := by
  obtain ⟨s, hs⟩ := flatLoop_noPanic info t hb hbd target (flatUnits file units) {}
  unfold locationToAddress
  rw [unitLoop_flat, hs]
  cases s with
  | go b => exact ⟨_, rfl⟩
  | done a => exact ⟨_, rfl⟩

/-- `main.rs` line 10 at 0x10 and line 12 at 0x18, in a function `[0x10,0x20)` loaded at 0x1010. -/
def sampleLp : LineProgram :=
  { version := 4
    files := [none, some ([.normal (chars! "lib.rs")]), some ([.normal (chars! "main.rs")])]
    rows := [.row ⟨false, 0x10, 3, some 10, none⟩, .bad, .row ⟨false, 0x18, 3, some 12, none⟩,
             .row ⟨true, 0x20, 3, some 12, none⟩] }
def sampleFn : FnInfo := ⟨0x1010, 0x1020, 0x10, 0x20, 0, 1⟩

theorem dwarf4_sample : Dwarf4Units [none, some sampleLp] := by
  intro lp h
  simp at h; subst h
  refine ⟨by decide, ?_⟩
  intro i j p hi hj
  have key : ∀ n, sampleLp.files[n]? = some (some p) → n = 1 ∧ p = ([.normal (chars! "lib.rs")]) ∨
      n = 2 ∧ p = ([.normal (chars! "main.rs")]) := by
    intro n hn
    match n, hn with
    | 0, hn => simp [sampleLp] at hn
    | 1, hn => left; simp [sampleLp] at hn; exact ⟨rfl, hn.symm⟩
    | 2, hn => right; simp [sampleLp] at hn; exact ⟨rfl, hn.symm⟩
    | n + 3, hn => simp [sampleLp] at hn
  rcases key i hi with ⟨rfl, h1⟩ | ⟨rfl, h1⟩ <;> rcases key j hj with ⟨rfl, h2⟩ | ⟨rfl, h2⟩
  · rfl
  · rw [h1] at h2; revert h2; decide
  · rw [h1] at h2; revert h2; decide
  · rfl

/- Concrete run: asking for line 11 gives line 12 (distance 1) at its runtime address. -/
example : locationToAddress (new [sampleFn]) [none, some sampleLp] ([.normal (chars! "main.rs")]) 11
    = .ok (some (0x1018, 1)) := by rw [new_single]; decide
example : Built [sampleFn] (new [sampleFn]) := built_new _

/-- A unit in DWARF 5, where file numbers start at 0: `lib.rs` is file 0 and `main.rs` file 1. -/
def sampleLp5 : LineProgram :=
  { version := 5
    files := [some ([.normal (chars! "lib.rs")]), some ([.normal (chars! "main.rs")])]
    rows := [.row ⟨false, 0x10, 1, some 10, none⟩] }

/-- C07, negative: for DWARF 5 the code reads file numbers off by one. Here the only row is line
10 of `main.rs`; asking for `lib.rs:10` answers with it, and asking for `main.rs:10` finds nothing. -/
theorem C07_dwarf5_file_numbers_fail :
    (locationToAddress (new [sampleFn]) [some sampleLp5] ([.normal (chars! "lib.rs")]) 10
      = .ok (some (0x1010, 0))) ∧
    (locationToAddress (new [sampleFn]) [some sampleLp5] ([.normal (chars! "main.rs")]) 10 = .ok none) ∧
    (∃ r, UsableRow [sampleFn] [some sampleLp5] ([.normal (chars! "main.rs")]) 10 r 10) ∧
    (¬ ∃ r l, UsableRow [sampleFn] [some sampleLp5] ([.normal (chars! "lib.rs")]) 10 r l) := by
  refine ⟨by rw [new_single]; decide, by rw [new_single]; decide,
    ⟨⟨false, 0x10, 1, some 10, none⟩, ⟨sampleLp5, by simp, by decide, by decide⟩,
    rfl, rfl, by decide, sampleFn, by simp, by decide, by decide⟩, ?_⟩
  rintro ⟨r, l, ⟨lp, h1, h2, h3⟩, _⟩
  simp at h1; subst h1
  simp [sampleLp5] at h2; subst h2
  revert h3; decide

/-! ### C07: round trip through address lookup -/

/-- Every line of a line table that has no decode error is found back from its address, if the
addresses of the rows are distinct and its file entry is readable. -/
theorem C07_address_to_location_of_row (lp : LineProgram) (pre post : List RowItem) (r : Row)
    (hrows : lp.rows = pre ++ .row r :: post) (hbad : .bad ∉ pre)
    (hne : ∀ r', .row r' ∈ pre → r'.endSeq = false → r'.address ≠ r.address)
    (hend : r.endSeq = false) (line : Nat) (hl : r.line = some line) (file : Path)
    (hf : lp.fileAt r.fileIndex = some (some file)) :
    addressToLocation (some lp) r.address = some ⟨file, line, r.column⟩ := by
  unfold addressToLocation
  simp only [hrows]
  clear hrows
  induction pre with
  | nil => simp [addressToLocationRows, hend, hl, hf]
  | cons x xs ih =>
    have ih' := ih (fun h => hbad (List.mem_cons_of_mem _ h))
      (fun r' h => hne r' (List.mem_cons_of_mem _ h))
    cases x with
    | bad => simp at hbad
    | row r' =>
      simp only [List.cons_append, addressToLocationRows]
      by_cases he : r'.endSeq = true
      · simp only [he, if_true]; exact ih'
      · have he' : r'.endSeq = false := by simpa using he
        have := hne r' (by simp) he'
        simp only [he', Bool.false_eq_true, if_false, this]
        exact ih'

/-- C07: whatever location an address lookup reports is the content of a row at that address. -/
theorem C07_location_is_a_row (lp : LineProgram) (rel : Nat) (loc : Location)
    (h : addressToLocation (some lp) rel = some loc) :
    ∃ r, .row r ∈ lp.rows ∧ r.endSeq = false ∧ r.address = rel ∧ r.line = some loc.line ∧
      lp.fileAt r.fileIndex = some (some loc.file) ∧ r.column = loc.column := by
  unfold addressToLocation at h
  simp only at h
  generalize hrs : lp.rows = rows at h
  have : ∀ rows', addressToLocationRows lp rel rows' = some loc →
    ∃ r, .row r ∈ rows' ∧ r.endSeq = false ∧ r.address = rel ∧ r.line = some loc.line ∧
      lp.fileAt r.fileIndex = some (some loc.file) ∧ r.column = loc.column := by
    intro rows'
    induction rows' with
    | nil => intro h; cases h
    | cons x xs ih =>
      have lift : (∃ r, RowItem.row r ∈ xs ∧ r.endSeq = false ∧ r.address = rel ∧
            r.line = some loc.line ∧ lp.fileAt r.fileIndex = some (some loc.file) ∧
            r.column = loc.column) →
          ∃ r, RowItem.row r ∈ x :: xs ∧ r.endSeq = false ∧ r.address = rel ∧
            r.line = some loc.line ∧ lp.fileAt r.fileIndex = some (some loc.file) ∧
            r.column = loc.column := by
        rintro ⟨r, h1, h2⟩; exact ⟨r, List.mem_cons_of_mem _ h1, h2⟩
      cases x with
      | bad => intro h; cases h
      | row r =>
        intro h
        simp only [addressToLocationRows] at h
        split at h
        · exact lift (ih h)
        · rename_i he
          split at h
          · rename_i ha
            split at h
            · exact lift (ih h)
            · rename_i line hl
              split at h
              · exact lift (ih h)
              · cases h
              · rename_i path hp
                cases h
                exact ⟨r, by simp, by simpa using he, ha, hl, hp, rfl⟩
          · exact lift (ih h)
  exact this rows h

/- The hypotheses are met by the sample: row 0x10. -/
example : addressToLocation (some sampleLp) 0x10 = some ⟨[.normal (chars! "main.rs")], 10, none⟩ :=
  C07_address_to_location_of_row sampleLp [] _ ⟨false, 0x10, 3, some 10, none⟩ rfl
    (by decide) (by simp) rfl 10 rfl ([.normal (chars! "main.rs")]) (by decide)

/-! ### C08 -/

/-- C08: registering a function gives the absolute range the length of the DWARF range (and starts
it at the symbol's address). -/
theorem C08_registered_length (sym : Nat) (range : Nat × Nat) (file name : Nat) (f : FnInfo)
    (hr : range.1 ≤ range.2) (h : registerFn sym range file name = .ok f) :
    f.absStart = sym ∧ f.relStart = range.1 ∧ f.relEnd = range.2 ∧
      f.absEnd - f.absStart = range.2 - range.1 ∧ f.absStart ≤ f.absEnd := by
  unfold registerFn at h
  simp only [Res.bind_eq, addU, subU] at h
  by_cases o1 : sym + range.2 < u64Max1
  · simp only [o1, if_true, Res.bind_ok] at h
    by_cases o2 : range.1 ≤ sym + range.2
    · simp only [o2, if_true, Res.bind_ok, Res.pure_eq, Res.ok.injEq] at h
      subst h
      refine ⟨rfl, rfl, rfl, ?_, ?_⟩ <;> simp only <;> omega
    · simp [o2, Res.bind] at h
  · simp [o1, Res.bind] at h

/-- C08: registration succeeds whenever the symbol address plus the relative end fits. -/
theorem C08_register_total (sym : Nat) (range : Nat × Nat) (file name : Nat)
    (hr : range.1 ≤ range.2) (hf : sym + range.2 < u64Max1) :
    ∃ f, registerFn sym range file name = .ok f := by
  unfold registerFn
  simp only [Res.bind_eq, addU, subU, hf, if_true, Res.bind_ok]
  rw [if_pos (by omega)]
  exact ⟨_, rfl⟩

/-- C08: absolute to relative and back, for an address inside the function. -/
theorem C08_absolute_round_trip (f : FnInfo) (a : Nat) (h1 : f.absStart ≤ a) (h2 : a < f.absEnd)
    (hlen : f.absEnd - f.absStart = f.relEnd - f.relStart)
    (hfit : f.absStart + f.relEnd ≤ u64Max1) :
    ∃ rel, toRelative f a = .ok rel ∧ f.relStart ≤ rel ∧ rel < f.relEnd ∧
      toAbsolute f rel = .ok a := by
  refine ⟨f.relStart + (a - f.absStart), ?_, by omega, by omega, ?_⟩
  · simp only [toRelative, Res.bind_eq, subU, addU]
    rw [if_pos h1]; simp only [Res.bind_ok]; rw [if_pos (by omega)]
  · simp only [toAbsolute, Res.bind_eq, subU, addU]
    rw [if_pos (by omega)]; simp only [Res.bind_ok]; rw [if_pos (by omega)]
    congr 1; omega

/-- C08: relative to absolute and back. -/
theorem C08_relative_round_trip (f : FnInfo) (rel : Nat) (h1 : f.relStart ≤ rel)
    (h2 : rel < f.relEnd) (hlen : f.absEnd - f.absStart = f.relEnd - f.relStart)
    (hfit : f.absStart + f.relEnd ≤ u64Max1) :
    ∃ a, toAbsolute f rel = .ok a ∧ f.absStart ≤ a ∧ a < f.absEnd ∧ toRelative f a = .ok rel := by
  refine ⟨f.absStart + rel - f.relStart, ?_, by omega, by omega, ?_⟩
  · simp only [toAbsolute, Res.bind_eq, subU, addU]
    rw [if_pos (by omega)]; simp only [Res.bind_ok]; rw [if_pos (by omega)]
  · simp only [toRelative, Res.bind_eq, subU, addU]
    rw [if_pos (by omega)]; simp only [Res.bind_ok]; rw [if_pos (by omega)]
    congr 1; omega

theorem toRange_fold (l : List (Nat × Nat)) (lo hi : Nat) :
    ∃ lo' hi', l.foldl rangeStep (some lo, some hi)
      = (some lo', some hi') ∧ lo' ≤ lo ∧ hi ≤ hi' ∧ (∀ r ∈ l, lo' ≤ r.1 ∧ r.2 ≤ hi') ∧
        (lo' = lo ∨ ∃ r ∈ l, r.1 = lo') ∧ (hi' = hi ∨ ∃ r ∈ l, r.2 = hi') := by
  induction l generalizing lo hi with
  | nil => exact ⟨lo, hi, rfl, by omega, by omega, by simp, by simp, by simp⟩
  | cons r rs ih =>
    simp only [List.foldl_cons, rangeStep]
    have e1 : (if r.1 < lo then some r.1 else some lo) = some (min r.1 lo) := by
      split <;> congr 1 <;> omega
    have e2 : (if r.2 > hi then some r.2 else some hi) = some (max r.2 hi) := by
      split <;> congr 1 <;> omega
    rw [e1, e2]
    obtain ⟨lo', hi', h1, h2, h3, h4, h5, h6⟩ := ih (min r.1 lo) (max r.2 hi)
    refine ⟨lo', hi', h1, by clear h5 h6 ih; omega, by clear h5 h6 ih; omega, ?_, ?_, ?_⟩
    · clear h5 h6 ih
      intro x hx
      rcases List.mem_cons.1 hx with rfl | hx
      · omega
      · exact h4 x hx
    · clear h6 ih
      rcases h5 with h5 | ⟨x, hx, h5⟩
      · by_cases hc : r.1 ≤ lo
        · right; exact ⟨r, by simp, by omega⟩
        · left; omega
      · right; exact ⟨x, List.mem_cons_of_mem _ hx, h5⟩
    · clear h5 ih
      rcases h6 with h6 | ⟨x, hx, h6⟩
      · by_cases hc : hi ≤ r.2
        · right; exact ⟨r, by simp, by omega⟩
        · left; omega
      · right; exact ⟨x, List.mem_cons_of_mem _ hx, h6⟩

/-- C08: the range taken for a function with several DWARF ranges is the smallest single range
covering them all; there is one unless there are no ranges. -/
theorem C08_range_is_hull (ranges : List (Nat × Nat)) :
    (ranges = [] ∧ toRange ranges = none) ∨
    ∃ lo hi, toRange ranges = some (lo, hi) ∧ (∀ r ∈ ranges, lo ≤ r.1 ∧ r.2 ≤ hi) ∧
      (∃ r ∈ ranges, r.1 = lo) ∧ (∃ r ∈ ranges, r.2 = hi) := by
  cases ranges with
  | nil => left; exact ⟨rfl, rfl⟩
  | cons r rs =>
    right
    obtain ⟨lo, hi, h1, h2, h3, h4, h5, h6⟩ := toRange_fold rs r.1 r.2
    refine ⟨lo, hi, ?_, ?_, ?_, ?_⟩
    · unfold toRange
      simp only [List.foldl_cons, rangeStep]
      rw [h1]
    · intro x hx
      rcases List.mem_cons.1 hx with rfl | hx
      · exact ⟨h2, h3⟩
      · exact h4 x hx
    · rcases h5 with h5 | ⟨x, hx, h5⟩
      · exact ⟨r, by simp, h5.symm⟩
      · exact ⟨x, List.mem_cons_of_mem _ hx, h5⟩
    · rcases h6 with h6 | ⟨x, hx, h6⟩
      · exact ⟨r, by simp, h6.symm⟩
      · exact ⟨x, List.mem_cons_of_mem _ hx, h6⟩

/- The hypotheses are met by the sample function. -/
example : registerFn 0x1010 (0x10, 0x20) 0 1 = .ok sampleFn := by decide
example : toRelative sampleFn 0x1018 = .ok 0x18 ∧ toAbsolute sampleFn 0x18 = .ok 0x1018 := by decide
example : toRange [(30, 40), (10, 20), (15, 50)] = some (10, 50) := by decide

/-! ### C09 -/

theorem lookupPositionLoop_spec (l : List (Option (Nat × Nat))) (c : Option Nat) (line : Nat) :
    (∃ a d, some (a, d) ∈ l ∧ d < line ∧ lookupPositionLoop l c line = some a ∧
      ∀ a' d', some (a', d') ∈ l → d ≤ d') ∨
    (lookupPositionLoop l c line = c ∧ ∀ a' d', some (a', d') ∈ l → line ≤ d') := by
  induction l generalizing c line with
  | nil => right; exact ⟨rfl, by simp⟩
  | cons x xs ih =>
    cases x with
    | none =>
      simp only [lookupPositionLoop]
      rcases ih c line with ⟨a, d, h1, h2, h3, h4⟩ | ⟨h1, h2⟩
      · left; refine ⟨a, d, by simp [h1], h2, h3, ?_⟩
        intro a' d' h; simp at h; exact h4 a' d' h
      · right; refine ⟨h1, ?_⟩
        intro a' d' h; simp at h; exact h2 a' d' h
    | some p =>
      obtain ⟨addr, dist⟩ := p
      simp only [lookupPositionLoop]
      by_cases hlt : dist < line
      · simp only [hlt, if_true]
        by_cases hz : dist = 0
        · simp only [hz, if_true]
          left; exact ⟨addr, 0, by simp, by omega, rfl, by omega⟩
        · simp only [hz, if_false]
          rcases ih (some addr) dist with ⟨a, d, h1, h2, h3, h4⟩ | ⟨h1, h2⟩
          · left; refine ⟨a, d, by simp [h1], by omega, h3, ?_⟩
            intro a' d' h
            rcases List.mem_cons.1 h with h | h
            · cases h; omega
            · exact h4 a' d' h
          · left; refine ⟨addr, dist, by simp, hlt, h1, ?_⟩
            intro a' d' h
            rcases List.mem_cons.1 h with h | h
            · cases h; omega
            · exact h2 a' d' h
      · simp only [hlt, if_false]
        by_cases hz : dist = 0
        · rw [if_pos hz]
          right; refine ⟨rfl, ?_⟩
          intro a' d' h; omega
        · simp only [hz, if_false]
          rcases ih c line with ⟨a, d, h1, h2, h3, h4⟩ | ⟨h1, h2⟩
          · left; refine ⟨a, d, by simp [h1], h2, h3, ?_⟩
            intro a' d' h
            rcases List.mem_cons.1 h with h | h
            · cases h; omega
            · exact h4 a' d' h
          · right; refine ⟨h1, ?_⟩
            intro a' d' h
            rcases List.mem_cons.1 h with h | h
            · cases h; omega
            · exact h2 a' d' h

/-- C09: an answer is the address of an
answer of minimal distance among all debug files. -/
theorem C09_global_minimum (answers : List (Option (Nat × Nat)))
    (addr : Nat) (h : lookupPosition answers = some addr) :
    ∃ d, some (addr, d) ∈ answers ∧ ∀ a' d', some (a', d') ∈ answers → d ≤ d' := by
  unfold lookupPosition at h
  rcases lookupPositionLoop_spec answers none (u64Max1 - 1) with ⟨a, d, h1, h2, h3, h4⟩ | ⟨h1, _⟩
  · rw [h3] at h; cases h; exact ⟨d, h1, h4⟩
  · rw [h1] at h; cases h

/-- C09: with every distance below the largest 64-bit number, there is an answer exactly when some debug file has one. -/
theorem C09_answers_iff (answers : List (Option (Nat × Nat)))
    (hd : ∀ a d, some (a, d) ∈ answers → d < u64Max1 - 1) :
    lookupPosition answers ≠ none ↔ ∃ a d, some (a, d) ∈ answers := by
  unfold lookupPosition
  rcases lookupPositionLoop_spec answers none (u64Max1 - 1) with ⟨a, d, h1, h2, h3, h4⟩ | ⟨h1, h2⟩
  · rw [h3]; simp only [ne_eq, reduceCtorEq, not_false_eq_true, true_iff]; exact ⟨a, d, h1⟩
  · rw [h1]
    simp only [ne_eq, not_true_eq_false, false_iff]
    rintro ⟨a, d, h⟩
    have := hd a d h
    have := h2 a d h
    omega

/-- C09: the distance hypothesis holds for answers of C07's search: a line number in the line table
is a 64-bit number, so a distance from a line at least 1 is below the maximum. -/
theorem C09_distance_bound (info : List FnInfo) (t : AddressTree) (hb : Built info t)
    (units : List (Option LineProgram)) (file : Path) (target a d : Nat) (ht : 0 < target)
    (hlines : ∀ lp r l, some lp ∈ units → .row r ∈ lp.rows → r.line = some l → l < u64Max1)
    (h : locationToAddress t units file target = .ok (some (a, d))) : d < u64Max1 - 1 := by
  obtain ⟨⟨r, f, ⟨lp, k, h1, _, _, h4, _⟩, h2, _⟩, _⟩ :=
    locationToAddress_some info t hb units file target a d h
  have := hlines lp r _ h1 h4 h2
  omega

example : lookupPosition [some (0x500, 3), none, some (0x600, 1), some (0x700, 2)] = some 0x600 := by
  decide

/-! ### C10 -/

/-- C10: the lookup returns the last result found. -/
theorem C10_returns_last (results : List (Nat × Location)) (x : Nat × Location) :
    lookupAddress (results ++ [x]) = some x := by
  simp [lookupAddress]

/-- C10: with at most one result the lookup returns the first; with none it returns nothing. -/
theorem C10_first_if_single_partial (results : List (Nat × Location)) (h : results.length ≤ 1) :
    lookupAddress results = results.head? := by
  match results, h with
  | [], _ => rfl
  | [x], _ => rfl

/-- C10, negative: with two different descriptions the first one is not the one returned. -/
theorem C10_first_result_fails :
    ∃ results : List (Nat × Location), lookupAddress results ≠ results.head? :=
  ⟨[(1, ⟨[.normal (chars! "a.rs")], 1, none⟩), (2, ⟨[.normal (chars! "b.rs")], 2, none⟩)], by decide⟩

/-! ### C46 -/

theorem mem_uniqueL (l seen : List Nat) (x : Nat) :
    x ∈ uniqueL l seen ↔ x ∈ l ∧ x ∉ seen := by
  induction l generalizing seen with
  | nil => simp [uniqueL]
  | cons y ys ih =>
    unfold uniqueL
    by_cases h : seen.contains y = true
    · simp only [h, if_true, ih, List.mem_cons]
      have : y ∈ seen := by simpa using h
      constructor
      · rintro ⟨h1, h2⟩; exact ⟨Or.inr h1, h2⟩
      · rintro ⟨rfl | h1, h2⟩
        · exact absurd this h2
        · exact ⟨h1, h2⟩
    · have hn : y ∉ seen := by simpa using h
      simp only [h, Bool.false_eq_true, if_false, List.mem_cons, ih]
      constructor
      · rintro (rfl | ⟨h1, h2⟩)
        · exact ⟨Or.inl rfl, hn⟩
        · exact ⟨Or.inr h1, fun hc => h2 (Or.inr hc)⟩
      · rintro ⟨rfl | h1, h2⟩
        · exact Or.inl rfl
        · by_cases hxy : x = y
          · exact Or.inl hxy
          · exact Or.inr ⟨h1, fun hc => hc.elim hxy h2⟩

/-- `(name, loc)` describes `address` in the debug file with index `ix`: a function of that name
contains the address, and its unit's line table maps the shifted address to `loc`. -/
def Describes (ix : FnIndex) (info : List FnInfo) (address : Nat) (name : Nat) (loc : Location) :
    Prop :=
  ∃ f unit, f ∈ info ∧ f.absStart ≤ address ∧ address < f.absEnd ∧ f.name = name ∧
    ix.unitOf name = some unit ∧
    addressToLocation unit (f.relStart + (address - f.absStart)) = some loc

theorem addressToLocationsList_iff (ix : FnIndex) (address : Nat) (l : List FnInfo)
    (out : List (Nat × Location)) (h : addressToLocationsList ix address l = .ok out)
    (name : Nat) (loc : Location) :
    (name, loc) ∈ out ↔ ∃ f ∈ l, ∃ unit, f.name = name ∧ ix.unitOf name = some unit ∧
      addressToLocation unit (f.relStart + (address - f.absStart)) = some loc := by
  induction l generalizing out with
  | nil => cases h; simp
  | cons f fs ih =>
    simp only [addressToLocationsList, Res.bind_eq, Res.bind_eq_ok] at h
    obtain ⟨rel, hrel, rest, hrest, h⟩ := h
    have hr : rel = f.relStart + (address - f.absStart) := by
      simp only [toRelative, Res.bind_eq, Res.bind_eq_ok, subU, addU] at hrel
      obtain ⟨d, hd, he⟩ := hrel
      split at hd
      · cases hd
        split at he
        · cases he; rfl
        · cases he
      · cases hd
    have ih' := ih rest hrest
    have split_cons : (∃ g ∈ f :: fs, ∃ unit, g.name = name ∧ ix.unitOf name = some unit ∧
        addressToLocation unit (g.relStart + (address - g.absStart)) = some loc) ↔
        (∃ unit, f.name = name ∧ ix.unitOf name = some unit ∧
          addressToLocation unit (f.relStart + (address - f.absStart)) = some loc) ∨
        (name, loc) ∈ rest := by
      rw [ih']; simp
    rw [split_cons]
    cases hu : ix.unitOf f.name with
    | none =>
      rw [hu] at h; cases h
      constructor
      · exact Or.inr
      · rintro (⟨u, rfl, h1, _⟩ | h)
        · rw [hu] at h1; cases h1
        · exact h
    | some unit =>
      rw [hu] at h
      simp only at h
      cases ha : addressToLocation unit rel with
      | none =>
        rw [ha] at h; cases h
        constructor
        · exact Or.inr
        · rintro (⟨u, rfl, h1, h2⟩ | h)
          · rw [hu] at h1; cases h1; rw [← hr, ha] at h2; cases h2
          · exact h
      | some loc' =>
        rw [ha] at h; cases h
        simp only [List.mem_cons, Prod.mk.injEq]
        constructor
        · rintro (⟨rfl, rfl⟩ | h)
          · left; exact ⟨unit, rfl, hu, by rw [← hr]; exact ha⟩
          · exact Or.inr h
        · rintro (⟨u, rfl, h1, h2⟩ | h)
          · rw [hu] at h1; cases h1; rw [← hr, ha] at h2; cases h2
            exact Or.inl ⟨rfl, rfl⟩
          · exact Or.inr h

theorem gather_iff (files : Nat → Option FnIndex) (address : Nat) (l : List Nat)
    (out : List (Nat × Location)) (h : gather files address l = .ok out) (x : Nat × Location) :
    x ∈ out ↔ ∃ df ∈ l, ∃ ix here, files df = some ix ∧
      addressToLocations ix address = .ok here ∧ x ∈ here := by
  induction l generalizing out with
  | nil => cases h; simp
  | cons df dfs ih =>
    simp only [gather, Res.bind_eq, Res.bind_eq_ok] at h
    obtain ⟨here, hh, more, hm, h⟩ := h
    cases h
    rw [List.mem_append, ih more hm]
    constructor
    · rintro (h | ⟨d, h1, h2⟩)
      · cases hf : files df with
        | none => rw [hf] at hh; cases hh; simp at h
        | some ix => rw [hf] at hh; exact ⟨df, by simp, ix, here, hf, hh, h⟩
      · exact ⟨d, List.mem_cons_of_mem _ h1, h2⟩
    · rintro ⟨d, h1, ix, here', h2, h3, h4⟩
      rcases List.mem_cons.1 h1 with rfl | h1
      · left; rw [h2] at hh; simp only at hh; rw [hh] at h3; cases h3; exact h4
      · right; exact ⟨d, h1, ix, here', h2, h3, h4⟩

/-- C46 (partial): an address lookup reports exactly the descriptions found in the debug files of
the symbols nearest at or below the address. Missing: descriptions in other debug files, see
`C46_complete_fails`. -/
theorem C46_address_lookup_exact_partial (sym : Symbols.SymbolIndex) (files : Nat → Option FnIndex)
    (info : Nat → List FnInfo)
    (hb : ∀ df ix, files df = some ix → Built (info df) ix.tree)
    (address start : Nat) (syms : List Symbols.Symbol)
    (hs : sym.functionAtAddress address = some (start, syms))
    (out : List (Nat × Location)) (h : findAllByAddress sym files address = .ok out)
    (name : Nat) (loc : Location) :
    (name, loc) ∈ out ↔
      ∃ s ∈ syms, ∃ ix, files s.debugFile = some ix ∧
        Describes ix (info s.debugFile) address name loc := by
  unfold findAllByAddress at h
  rw [hs] at h
  simp only at h
  rw [gather_iff files address _ out h]
  have desc : ∀ df ix here, files df = some ix → addressToLocations ix address = .ok here →
      ((name, loc) ∈ here ↔ Describes ix (info df) address name loc) := by
    intro df ix here hf ha
    unfold addressToLocations at ha
    rw [addressToLocationsList_iff ix address _ here ha]
    have hq := C01_query_absolute_exact (info df) ix.tree (hb df ix hf) address
    constructor
    · rintro ⟨f, hf, unit, h1, h2, h3⟩
      have := hq.mem_iff.1 hf
      simp only [List.mem_filter, decide_eq_true_eq] at this
      exact ⟨f, unit, this.1, this.2.1, this.2.2, h1, h2, h3⟩
    · rintro ⟨f, unit, h1, h2, h3, h4, h5, h6⟩
      refine ⟨f, hq.mem_iff.2 ?_, unit, h4, h5, h6⟩
      simp only [List.mem_filter, decide_eq_true_eq]
      exact ⟨h1, h2, h3⟩
  have tot : ∀ l o, gather files address l = .ok o → ∀ df ∈ l, ∀ ix, files df = some ix →
      ∃ here, addressToLocations ix address = .ok here := by
    intro l
    induction l with
    | nil => simp
    | cons d ds ih =>
      intro o ho df hdf ix hix
      simp only [gather, Res.bind_eq, Res.bind_eq_ok] at ho
      obtain ⟨here, hh, more, hm, _⟩ := ho
      rcases List.mem_cons.1 hdf with rfl | hdf
      · rw [hix] at hh; exact ⟨here, hh⟩
      · exact ih more hm df hdf ix hix
  constructor
  · rintro ⟨df, hdf, ix, here, h1, h2, h3⟩
    rw [mem_uniqueL] at hdf
    obtain ⟨s, hs1, rfl⟩ := List.mem_map.1 hdf.1
    exact ⟨s, hs1, ix, h1, (desc _ _ _ h1 h2).1 h3⟩
  · rintro ⟨s, hs1, ix, h1, h2⟩
    have hm : s.debugFile ∈ uniqueL (syms.map (·.debugFile)) [] := by
      rw [mem_uniqueL]; exact ⟨List.mem_map.2 ⟨s, hs1, rfl⟩, by simp⟩
    obtain ⟨here, hh⟩ := tot _ out h _ hm ix h1
    exact ⟨_, hm, ix, here, h1, hh, (desc _ _ _ h1 hh).2 h2⟩

/-- C46: in particular every reported name is a function whose absolute range contains the
address. -/
theorem C46_reported_function_contains_address (sym : Symbols.SymbolIndex)
    (files : Nat → Option FnIndex) (info : Nat → List FnInfo)
    (hb : ∀ df ix, files df = some ix → Built (info df) ix.tree)
    (address : Nat) (out : List (Nat × Location))
    (h : findAllByAddress sym files address = .ok out) (name : Nat) (loc : Location)
    (hm : (name, loc) ∈ out) :
    ∃ df, ∃ f ∈ info df, f.name = name ∧ f.absStart ≤ address ∧ address < f.absEnd := by
  cases hs : sym.functionAtAddress address with
  | none => unfold findAllByAddress at h; rw [hs] at h; cases h; simp at hm
  | some p =>
    obtain ⟨start, syms⟩ := p
    obtain ⟨s, _, ix, _, f, unit, h1, h2, h3, h4, _⟩ :=
      (C46_address_lookup_exact_partial sym files info hb address start syms hs out h name loc).1 hm
    exact ⟨_, f, h1, h4, h2, h3⟩

/-- Two debug files: file 0 has a function at [100,200) whose code is interrupted by a function
[120,130) of file 1. -/
def outerFn : FnInfo := ⟨100, 200, 0, 100, 0, 7⟩
def innerFn : FnInfo := ⟨120, 130, 0, 10, 1, 8⟩
def outerLp : LineProgram :=
  { version := 4, files := [some ([.normal (chars! "a.rs")])], rows := [.row ⟨false, 50, 1, some 3, none⟩] }
def twoFiles : Nat → Option FnIndex
  | 0 => some ⟨new [outerFn], fun _ => some (some outerLp)⟩
  | 1 => some ⟨new [innerFn], fun _ => some none⟩
  | _ => none
def twoInfo : Nat → List FnInfo
  | 0 => [outerFn]
  | 1 => [innerFn]
  | _ => []
def aSym (raw : Str) (addr df : Nat) : Symbols.Symbol :=
  { name := { lookupName := raw, hash := [], modulePath := [], fullPath := raw }, address := addr, debugFile := df }
def twoSyms : Symbols.SymbolIndex :=
  { functionsByAddress := ⟨[(100, [aSym (chars! "outer") 100 0]), (120, [aSym (chars! "inner") 120 1])]⟩ }

/-- C46, negative: address 150 lies in `outer` (file 0, line 3 of a.rs), but the nearest symbol is
`inner`, so the lookup reports nothing. -/
theorem C46_complete_fails :
    (∀ df ix, twoFiles df = some ix → Built (twoInfo df) ix.tree) ∧
    (∃ ix, twoFiles 0 = some ix ∧ Describes ix (twoInfo 0) 150 7 ⟨[.normal (chars! "a.rs")], 3, none⟩) ∧
    findAllByAddress twoSyms twoFiles 150 = .ok [] := by
  refine ⟨?_, ⟨_, rfl, outerFn, some outerLp, by simp [twoInfo], by decide, by decide, rfl, rfl, by decide⟩, ?_⟩
  · intro df ix h
    match df, h with
    | 0, h => cases h; exact built_new _
    | 1, h => cases h; exact built_new _
    | n + 2, h => cases h
  · have e : twoFiles 1 = some ⟨⟨.node innerFn 120 130 130 .nil .nil, .node innerFn 0 10 10 .nil .nil⟩,
        fun _ => some none⟩ := by
      simp [twoFiles, new_single, innerFn]
    unfold findAllByAddress
    have f : twoSyms.functionAtAddress 150 = some (120, [aSym (chars! "inner") 120 1]) := by decide
    rw [f]
    simp only [aSym, List.map_cons, List.map_nil]
    have u : uniqueL [1] [] = [1] := by decide
    rw [u]
    simp only [gather, e]
    decide

end Rudy.Resolve
