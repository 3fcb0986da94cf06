import Verif.Model.Image
import Verif.Props.Entries
import Verif.Props.FnIndex
import Verif.Props.Resolve
import Verif.Props.Symbols
/-
C96: from the executable to what is printed.
-/
namespace Rudy.Image
open Rudy Rudy.Walker Rudy.Dwarf Rudy.Parse Rudy.Layout Rudy.Data Rudy.Symbols Rudy.Address Rudy.Resolve Rudy.FnIndex Rudy.Entries Rudy.Declared Rudy.Modules
open Rudy.TypeRes (resolveType shallow)
open Rudy.Discovery (okOf)
open Rudy.Whole (TypesFrom)
open Rudy.Shown (pieces Called RVal Holds Known emptyText)
open Rudy.Listing (rd page)

/-! ### Vocabulary -/

/-- The executable `x` has the debug information `us`, as a compiler writes it: entries are at different offsets, units start with their compilation unit, which states its language, and do not overlap,
modules have names, fields and variants are told apart by their names, linkage names are text, and no function extends past the end of the address space. -/
structure Compiled (w : Libs) (x : Executable) (us : List UnitOf) : Prop where
  units : x.units = us.map encUnit
  file : FileOk us
  offsets : Offsets us
  apart : NamesApart us
  functions : Readable (syms w x) false us
  /-- the libraries: the tokenizer does not crash, and sorting sorts -/
  tokenizes : w.lib.Tokenizes
  sorts : ∀ fns, Built fns (w.tree fns)

/-- The symbol table has the name `l`, of a function at the address `a`; it stands for `n`. -/
structure SymbolAt (w : Libs) (x : Executable) (l : Str) (n : SymbolName) (a : Nat) : Prop where
  text : ∃ e ∈ x.symbols, e.raw = l ∧ e.isText = true
  address : ∀ e ∈ x.symbols, e.raw = l → e.address = a
  named : demangle w.demangler l = some n

/-- An entry of a function in the modules and structures of a Rust unit of the file, with the linkage name. -/
def Function (us : List UnitOf) (d : Die) (l : Str) : Prop :=
  d ∈ candidates us ∧ d.tag = .subprogram ∧ d.attr .linkageName = some (.str l)

/-- The first row at the address is the one for this line (of a file in the table), and no row before it is damaged. -/
structure LineAt (u : UnitFiles) (rel line : Nat) : Prop where
  row : ∃ (lp : LineProgram) (pre post : List RowItem) (r : Row) (file : Remap.Path), u.lines = some lp ∧ lp.rows = pre ++ .row r :: post ∧ .bad ∉ pre ∧
    (∀ r', .row r' ∈ pre → r'.endSeq = false → r'.address ≠ rel) ∧ r.address = rel ∧ r.endSeq = false ∧ r.line = some line ∧
    lp.fileAt r.fileIndex = some (some file)

/-- The tree `t` is the code of a function of the unit `u`, and the program counter `pc` is in it, at `rel` in the addresses of the debug file: the symbol table
has its linkage name; no other function extends over `pc`, and no other has the same name. -/
structure StoppedIn (w : Libs) (x : Executable) (us : List UnitOf) (t : Tree Die) (pc rel : Nat) : Prop where
  found : ∃ l n a lo hi, Function us t.die l ∧ SymbolAt w x l n a ∧ t.die.range = some (lo, hi) ∧ a ≤ pc ∧ rel = lo + (pc - a) ∧ rel < hi ∧
    (∀ d l', Function us d l' → demangle w.demangler l' = some n → d = t.die)
  alone : ∀ d l' e lo hi, Function us d l' → e ∈ x.symbols → e.raw = l' → (demangle w.demangler l').isSome → d.range = some (lo, hi) →
    e.address ≤ pc → pc - e.address < hi - lo → d = t.die

/-! ### Proofs -/

/-- What a symbol of the table contributes. -/
def evAt (w : Libs) (e : Listed) : Option Ev := (demangle w.demangler e.raw).map fun n => ⟨e.raw, ⟨n, e.address, 0⟩, e.isText⟩

theorem inserted_eq (w : Libs) (x : Executable) : inserted [.binary (entries w x) 0] = x.symbols.filterMap (evAt w) := by
  simp only [inserted, entries, List.append_nil, List.filterMap_map]
  rfl

theorem mem_inserted (w : Libs) (x : Executable) (v : Ev) :
    v ∈ inserted [.binary (entries w x) 0] ↔ ∃ e ∈ x.symbols, ∃ n, demangle w.demangler e.raw = some n ∧ v = ⟨e.raw, ⟨n, e.address, 0⟩, e.isText⟩ := by
  rw [inserted_eq, List.mem_filterMap]
  simp only [evAt, Option.map_eq_some_iff]
  constructor
  · rintro ⟨e, he, n, hn, rfl⟩; exact ⟨e, he, n, hn, rfl⟩
  · rintro ⟨e, he, n, hn, rfl⟩; exact ⟨e, he, n, hn, rfl⟩

theorem nameAt_nameId (w : Libs) (x : Executable) (n : SymbolName) (h : ∃ e ∈ x.symbols, demangle w.demangler e.raw = some n) :
    nameAt w x (nameId w x n) = some n := by
  obtain ⟨e, he, hn⟩ := h
  have hx : ∃ r ∈ entries w x, decide (r.demangled = some n) = true :=
    ⟨_, List.mem_map.2 ⟨e, he, rfl⟩, by simpa using hn⟩
  have hlt := List.findIdx_lt_length_of_exists hx
  have := List.findIdx_getElem (w := hlt)
  simp only [nameAt, nameId, List.getElem?_eq_getElem hlt, Option.bind_some]
  simpa using this

theorem syms_some (w : Libs) (x : Executable) (l : Str) (s : Sym) (h : syms w x l = some s) :
    ∃ e ∈ x.symbols, ∃ n, e.raw = l ∧ demangle w.demangler l = some n ∧ s = ⟨nameId w x n, e.address⟩ := by
  simp only [syms, symbolIndex, C06_symbols_by_file_last_wins, Option.map_eq_some_iff] at h
  obtain ⟨y, hy, rfl⟩ := h
  have := List.mem_of_getLast? hy
  simp only [List.mem_map, List.mem_filter, Bool.and_eq_true, beq_iff_eq, mem_inserted] at this
  obtain ⟨_, ⟨⟨e, he, n, hn, rfl⟩, -, rfl⟩, rfl⟩ := this
  exact ⟨e, he, n, rfl, hn, rfl⟩

theorem syms_at (w : Libs) (x : Executable) (l : Str) (n : SymbolName) (a : Nat) (h : SymbolAt w x l n a) :
    syms w x l = some ⟨nameId w x n, a⟩ := by
  cases hs : syms w x l with
  | some s =>
    obtain ⟨e, he, n', hr, hn, rfl⟩ := syms_some w x l s hs
    rw [h.named] at hn
    cases hn
    rw [h.address e he hr]
  | none =>
    obtain ⟨e, he, hr, -⟩ := h.text
    simp only [syms, symbolIndex, C06_symbols_by_file_last_wins, Option.map_eq_none_iff, List.getLast?_eq_none_iff, List.map_eq_nil_iff,
      List.filter_eq_nil_iff] at hs
    have := hs ⟨e.raw, ⟨n, e.address, 0⟩, e.isText⟩ ((mem_inserted w x _).2 ⟨e, he, n, by rw [hr]; exact h.named, rfl⟩)
    simp [hr] at this

theorem linked_iff (w : Libs) (x : Executable) (us : List UnitOf) (d : Die) (s : Sym) (hd : d ∈ candidates us)
    (h : linked (syms w x) false d = some s) :
    ∃ l, Function us d l ∧ ∃ e ∈ x.symbols, ∃ n, e.raw = l ∧ demangle w.demangler l = some n ∧ s = ⟨nameId w x n, e.address⟩ := by
  simp only [linked, Bool.false_eq_true, if_false] at h
  split at h
  · rename_i ht
    split at h
    · rename_i l hl
      exact ⟨l, ⟨hd, ht, hl⟩, syms_some w x l s h⟩
    · cases h
  · cases h

theorem insertedFns_at (w : Libs) (x : Executable) (l : Str) (n : SymbolName) (a : Nat) (h : SymbolAt w x l n a) :
    (⟨n, a, 0⟩ : Symbol) ∈ insertedFns [.binary (entries w x) 0] := by
  obtain ⟨e, he, hr, ht⟩ := h.text
  have := h.address e he hr
  subst this
  simp only [insertedFns, List.mem_map, List.mem_filter]
  exact ⟨⟨e.raw, ⟨n, e.address, 0⟩, e.isText⟩, ⟨(mem_inserted w x _).2 ⟨e, he, n, by rw [hr]; exact h.named, rfl⟩, ht⟩, rfl⟩

theorem insertedFns_file (w : Libs) (x : Executable) (s : Symbol) (h : s ∈ insertedFns [.binary (entries w x) 0]) : s.debugFile = 0 := by
  simp only [insertedFns, List.mem_map, List.mem_filter] at h
  obtain ⟨v, ⟨hv, -⟩, rfl⟩ := h
  obtain ⟨e, -, n, -, rfl⟩ := (mem_inserted w x v).1 hv
  rfl

/-- The symbol index knows the function. -/
theorem getFunction_at (w : Libs) (x : Executable) (l : Str) (n : SymbolName) (a : Nat) (h : SymbolAt w x l n a) :
    ∃ s, (symbolIndex w x).getFunction n = some s ∧ s.debugFile = 0 := by
  have hm := insertedFns_at w x l n a h
  have hg := C06_get_function_last_wins [.binary (entries w x) 0] n
  cases hs : (symbolIndex w x).getFunction n with
  | some s =>
    refine ⟨s, rfl, insertedFns_file w x s ?_⟩
    rw [symbolIndex, hg] at hs
    exact (List.mem_filter.1 (List.mem_of_getLast? hs)).1
  | none =>
    rw [symbolIndex, hg, List.getLast?_eq_none_iff, List.filter_eq_nil_iff] at hs
    exact absurd (hs _ hm) (by simp)

/-- The files of the unit of an entry. -/
theorem unitFiles_of (x : Executable) (us : List UnitOf) (hu : x.units = us.map encUnit) (ho : Offsets us) (u : UnitOf) (files : UnitFiles)
    (hz : (u, files) ∈ us.zip x.files) (t : Tree Die) (ht : t ∈ subtrees u.1) : unitFiles x t.die.off = files := by
  unfold unitFiles
  rw [hu]
  suffices h : ((us.map encUnit).zip x.files).find? (fun p => (fromEntry t.die.off p.1).isSome) = some (encUnit u, files) by rw [h]; rfl
  generalize x.files = fs at hz
  clear hu
  induction us generalizing fs with
  | nil => simp at hz
  | cons v us ih =>
    cases fs with
    | nil => simp at hz
    | cons f fs =>
      simp only [List.zip_cons_cons, List.map_cons, List.find?_cons]
      simp only [Offsets, nodes, List.flatMap_cons, List.map_append, List.nodup_append, List.mem_map] at ho
      rcases List.mem_cons.1 hz with hz | hz
      · cases hz
        obtain ⟨tr, e⟩ := fromEntry_enc u.1 t (List.replicate u.2 .null) ht ho.1
        have : (fromEntry t.die.off (encUnit u)).isSome = true := by rw [encUnit, e]; rfl
        rw [this]
      · have hmem : u ∈ us := (List.of_mem_zip hz).1
        have hn : fromEntry t.die.off (encUnit v) = none := by
          rw [encUnit, fromEntry_skip _ v.1 _ fun k hk e => ho.2.2 _ ⟨k, hk, rfl⟩ _ ⟨t, List.mem_flatMap.2 ⟨u, hmem, ht⟩, rfl⟩ e, fromEntry_nulls]
        rw [hn]
        exact ih ho.2.1 fs hz

theorem reached_subtree {down : Die → Bool} {r k t : Tree Die} (hk : k ∈ subtrees r) (h : Reached down k t) : t ∈ subtrees r := by
  induction h with
  | root => exact hk
  | child _ _ hc ih => exact subtrees_trans _ _ ih _ hc

/-- The answer, once for each function found, if there is a line. -/
def answers (l : List FnInfo) (fn : Nat) (loc : Option Location) : List (Nat × Location) :=
  match loc with
  | none => []
  | some loc => l.map fun _ => (fn, loc)

theorem locations_same (ix : FnIndex) (pc : Nat) (f : FnInfo) (rel : Nat) (unit : Option LineProgram) (l : List FnInfo)
    (hl : ∀ g ∈ l, g = f) (hr : toRelative f pc = .ok rel) (hu : ix.unitOf f.name = some unit) :
    addressToLocationsList ix pc l = .ok (answers l f.name (addressToLocation unit rel)) := by
  induction l with
  | nil => unfold answers; cases addressToLocation unit rel <;> rfl
  | cons g gs ih =>
    cases hl g (by simp)
    simp only [addressToLocationsList, Res.bind_eq, hr, Res.bind_ok, ih fun g hg => hl g (by simp [hg]), hu]
    unfold answers
    cases addressToLocation unit rel <;> rfl

theorem uniqueL_zeros (l : List Nat) (seen : List Nat) (h : ∀ y ∈ l, y = 0) (hs : 0 ∈ seen) : uniqueL l seen = [] := by
  induction l with
  | nil => rfl
  | cons y ys ih =>
    cases h y (by simp)
    simp only [uniqueL, List.contains_iff_mem, hs, if_true]
    exact ih fun z hz => h z (by simp [hz])

theorem gather_one (ix : FnIndex) (pc : Nat) (l : List Nat) (h : ∀ y ∈ l, y = 0) (hne : l ≠ []) :
    gather (fun _ => some ix) pc (uniqueL l []) = (addressToLocations ix pc).bind fun here => .ok here := by
  cases l with
  | nil => exact absurd rfl hne
  | cons y ys =>
    cases h y (by simp)
    have : uniqueL (0 :: ys) [] = [0] := by
      simp only [uniqueL, List.contains_nil, Bool.false_eq_true, if_false]
      rw [uniqueL_zeros ys [0] (fun z hz => h z (by simp [hz])) (by simp)]
    rw [this]
    simp only [gather, Res.bind_eq, Res.bind_ok]
    cases addressToLocations ix pc with
    | ok here => simp [Res.bind, pure]
    | err => rfl
    | panic => rfl

/-- What is found out of the function the program is stopped in. -/
theorem stopped {w : Libs} {x : Executable} {us : List UnitOf} (hc : Compiled w x us) {u : UnitOf} {files : UnitFiles} (hz : (u, files) ∈ us.zip x.files)
    {t : Tree Die} (ht : t ∈ subtrees u.1) {pc rel : Nat} (hs : StoppedIn w x us t pc rel) :
    ∃ fns ix fn l, functionIndex (syms w x) 0 false x.units = .ok fns ∧ moduleIndex x.units = .ok ix ∧ l ≠ [] ∧
      findAllByAddress (symbolIndex w x) (fun _ => some (fnIndex w x fns)) pc = .ok (answers l fn (addressToLocation files.lines rel)) ∧
      ∀ depth, ∃ base trailing,
      (vars w depth x fns ix).getFunction fn = some { toks := enc t ++ trailing, frameBase := x.frameBase t.die } ∧
      (vars w depth x fns ix).baseAddress fn = some base := by
  have hmem : u ∈ us := (List.of_mem_zip hz).1
  have htn : t ∈ nodes us := List.mem_flatMap.2 ⟨u, hmem, ht⟩
  obtain ⟨⟨l, n, a, lo, hi, hf, hsym, hrg, hpc, rfl, hrel, huniq⟩, halone⟩ := hs
  obtain ⟨fns, hfns, hby⟩ := C53_by_name (syms w x) 0 false us hc.functions
  obtain ⟨fns', hfns', hba⟩ := C53_by_address (syms w x) 0 false us hc.functions
  cases hfns.symm.trans hfns'
  obtain ⟨ix, hix, -⟩ := C39_entry_in_its_module us hc.file
  have hlk : linked (syms w x) false t.die = some ⟨nameId w x n, a⟩ := by
    simp only [linked, hf.2.1, if_true, hf.2.2, Bool.false_eq_true, if_false, syms_at w x l n a hsym]
  have hin : (t.die, ⟨nameId w x n, a⟩) ∈ linkedFns (syms w x) false us := by
    simp only [linkedFns, List.mem_filterMap]
    exact ⟨t.die, hf.1, by simp [hlk]⟩
  have hlisted : ∃ e ∈ x.symbols, demangle w.demangler e.raw = some n := by
    obtain ⟨e, he, hr, -⟩ := hsym.text
    exact ⟨e, he, by rw [hr]; exact hsym.named⟩
  -- the entry under the name
  have hfn : fns.functions (nameId w x n) = some { die := t.die, range := t.die.range } := by
    rw [hby]
    cases hfd : (linkedFns (syms w x) false us).reverse.find? fun p => decide (p.2.name = nameId w x n) with
    | none =>
      rw [List.find?_eq_none] at hfd
      exact absurd (hfd _ (by simpa using hin)) (by simp)
    | some p =>
      have hp1 := List.find?_some hfd
      have hp2 := List.mem_of_find?_eq_some hfd
      simp only [List.mem_reverse, linkedFns, List.mem_filterMap, Option.map_eq_some_iff] at hp2
      obtain ⟨d, hd, s, hsl, rfl⟩ := hp2
      obtain ⟨l', hf', e, he, n', hr', hn', rfl⟩ := linked_iff w x us d s hd hsl
      simp only [decide_eq_true_eq] at hp1
      have h1 := nameAt_nameId w x n hlisted
      have h2 := nameAt_nameId w x n' ⟨e, he, by rw [hr']; exact hn'⟩
      rw [hp1, h1] at h2
      cases h2
      cases huniq d l' hf' hn'
      rfl
  have hunit : unitFiles x t.die.off = files := unitFiles_of x us hc.units hc.offsets u files hz t ht
  -- where it is
  have hrange := hc.functions.ranges _ hf.1 _ hlk lo hi hrg
  simp only at hrange
  let f : FnInfo := { absStart := a, absEnd := a + hi - lo, relStart := lo, relEnd := hi, file := 0, name := nameId w x n }
  have hall : ∀ g ∈ (w.tree fns.byAddress).queryAddress pc true, g = f := by
    intro g hg
    rw [(hba _ (hc.sorts _) pc).mem_iff, List.mem_filter, List.mem_filterMap] at hg
    obtain ⟨⟨⟨d, s⟩, hp, hi'⟩, hcov⟩ := hg
    simp only [linkedFns, List.mem_filterMap, Option.map_eq_some_iff] at hp
    obtain ⟨d', hd, s', hsl, hds⟩ := hp
    cases hds
    obtain ⟨l', hf', e, he, n', hr', hn', rfl⟩ := linked_iff w x us d s hd hsl
    simp only [infoOf, Option.map_eq_some_iff] at hi'
    obtain ⟨⟨lo', hi''⟩, hrg', rfl⟩ := hi'
    simp only [decide_eq_true_eq] at hcov
    have hr2 := hc.functions.ranges _ hd _ hsl lo' hi'' hrg'
    cases halone d l' e lo' hi'' hf' he hr' (by rw [hn']; rfl) hrg' hcov.1 (by omega)
    rw [hrg] at hrg'
    cases hrg'
    rw [hlk] at hsl
    obtain ⟨h1, h2⟩ : nameId w x n = nameId w x n' ∧ a = e.address := by simpa using hsl
    simp only [f, h1, h2]
  have hsome : f ∈ (w.tree fns.byAddress).queryAddress pc true := by
    rw [(hba _ (hc.sorts _) pc).mem_iff, List.mem_filter, List.mem_filterMap]
    refine ⟨⟨_, hin, by simp [infoOf, hrg, f]⟩, ?_⟩
    simp only [f, decide_eq_true_eq]; omega
  have hto : toRelative f pc = .ok (lo + (pc - a)) := by
    simp only [toRelative, subU, addU, Res.bind_eq, f, if_pos hpc, Res.bind_ok]
    rw [if_pos (by omega)]
  have hlocs := locations_same (fnIndex w x fns) pc f (lo + (pc - a)) files.lines _ hall hto
    (by simp only [fnIndex, f, hfn, Option.map_some, hunit])
  have hgather : findAllByAddress (symbolIndex w x) (fun _ => some (fnIndex w x fns)) pc =
      .ok (answers ((w.tree fns.byAddress).queryAddress pc true) (nameId w x n) (addressToLocation files.lines (lo + (pc - a)))) := by
    unfold findAllByAddress
    cases hfa : (symbolIndex w x).functionAtAddress pc with
    | none =>
      have := (C05_none_iff _ pc).1 hfa _ (insertedFns_at w x l n a hsym)
      simp only at this; omega
    | some bv =>
      obtain ⟨b, v⟩ := bv
      obtain ⟨-, -, hv, hvne⟩ := C05_nearest_is_greatest _ pc b v hfa
      simp only
      rw [gather_one _ _ _ ?_ (by simpa using hvne)]
      · unfold addressToLocations
        rw [show (fnIndex w x fns).tree = w.tree fns.byAddress from rfl, hlocs]; rfl
      · intro y hy
        obtain ⟨s, hsv, rfl⟩ := List.mem_map.1 hy
        rw [hv] at hsv
        exact insertedFns_file w x s (List.mem_filter.1 hsv).1
  obtain ⟨s, hgf, hdf⟩ := getFunction_at w x l n a hsym
  obtain ⟨tr, hrd⟩ := readFrom_node us hc.offsets t htn
  refine ⟨fns, ix, nameId w x n, _, by rw [hc.units]; exact hfns, by rw [hc.units]; exact hix, ?_, hgather, fun depth => ⟨s.address, tr, ?_, ?_⟩⟩
  · intro hq
    rw [hq] at hsome
    cases hsome
  · have hent := entry_node us hc.offsets t htn
    have hgf' : Discovery.getFunction (world w depth x fns ix) n = some (0, t.die.off) := by
      unfold SymbolIndex.getFunction at hgf
      simp only [Discovery.getFunction, world, SymbolIndex.byLookupName]
      cases hm : (symbolIndex w x).functions.get compare n.lookupName with
      | none => rw [hm] at hgf; cases hgf
      | some m =>
        rw [hm] at hgf
        simp only at hgf ⊢
        rw [hgf]
        simp [hfn, hdf]
    simp only [vars, nameAt_nameId w x n hlisted, Option.bind_some, hgf', hc.units, hrd, hent, Option.map_some]
  · simp only [vars, nameAt_nameId w x n hlisted, Option.bind_some, hgf, Option.map_some]

theorem LineAt.location {files : UnitFiles} {rel line : Nat} (hl : LineAt files rel line) :
    ∃ loc, addressToLocation files.lines rel = some loc ∧ loc.line = line := by
  obtain ⟨lp, pre, post, r, file, hlp, hrows, hbad, hne, hra, hend, hline, hfile⟩ := hl.row
  refine ⟨⟨file, line, r.column⟩, ?_, rfl⟩
  rw [hlp, ← hra]
  exact C07_address_to_location_of_row lp pre post r hrows hbad (by rw [hra]; exact hne) hend line hline file hfile

/-- The entry of a variable is an entry of the unit. -/
theorem variable_node {u : UnitOf} {t : Tree Die} (ht : t ∈ subtrees u.1) {d : Die} (hd : VariableEntry t d) : ∃ k ∈ subtrees u.1, k.die = d := by
  obtain ⟨k, hk, rfl⟩ := reach_reached _ _ _ hd.1
  exact ⟨k, reached_subtree ht hk, rfl⟩

/-- C96: the executable can be used: no index crashes, whatever is in it besides. -/
theorem C96_opens {w : Libs} {x : Executable} {us : List UnitOf} (hc : Compiled w x us) (stack depth : Nat) :
    ∃ b, binary w stack depth x = .ok b ∧ TypesFrom b (typedef w.lib x) (fileDb x.units) w.lossy w.floatStr depth ∧
      Reading b.vars (shallow (typedef w.lib x) (fileDb x.units) depth) (fun d => unitFiles x d.off) (fileDb x.units) x.loc := by
  obtain ⟨fns, hfns, -⟩ := C53_by_name (syms w x) 0 false us hc.functions
  obtain ⟨ix, hix, -⟩ := C39_entry_in_its_module us hc.file
  refine ⟨_, by simp only [binary, hc.units, hfns, hix, Res.bind_ok]; rfl, ⟨?_, ?_, rfl, rfl⟩, ⟨?_⟩⟩ <;> simp only [world, vars, hc.units]

/-- C96: the types of its entries are those their names stand for (see C95); finding them out does not crash. -/
theorem C96_types {w : Libs} {x : Executable} {us : List UnitOf} (hc : Compiled w x us) (e : Nat) :
    fileTypedef w.lib x.units e = .ok (typedef w.lib x e) := by
  obtain ⟨ty, h⟩ := C95_total w.lib hc.tokenizes us hc.file
  rw [typedef, hc.units, h]
  rfl

/-- C96, from the executable to what is printed: the user types `rd print v` while the program is stopped at the start of a line of the function `t` (of a unit with the files `files`). If one of its
variables and parameters is called `v`, its entry gives it the type described at `e` and says it is at `o` from the register of the frame base, then what is printed is the name of the
type described at `e` and the value that memory holds there: whatever else is in the executable, provided that the types of the variables of this function are understood and no
other function extends over the program counter. -/
theorem C96_printed_partial {w : Libs} {x : Executable} {us : List UnitOf} (hc : Compiled w x us)
    {m : Mem} {n a e : Nat} {val : RVal} {name : Str} (hn : n ≤ 4)
    (h : Holds (typedef w.lib x) (fileDb x.units) m w.lossy w.floatStr n a e val) (hne : ¬ val.Has (emptyText w.lossy))
    (hcl : Called (typedef w.lib x) (fileDb x.units) w.lib.render e name)
    {u : UnitOf} {files : UnitFiles} (hz : (u, files) ∈ us.zip x.files) {t : Tree Die} (ht : t ∈ subtrees u.1)
    (hty : ∀ d ty, VariableEntry t d → d.attr .type = some (.ref ty) → Known (typedef w.lib x) (fileDb x.units) ty) :
    ∃ N, ∀ stack depth, N ≤ stack → N ≤ depth → ∃ b, binary w stack depth x = .ok b ∧
      ∀ (σ : Type) (L : Remote.Lldb σ) (mem : σ → Mem) (other : Wire.Json → Str) (s : σ) (fr : Remote.Frame) (text v : Str),
      Remote.ReadsMemory L mem → Remote.Live L s → Remote.Selected L s fr → mem s = m → Whole.Typed text (.var v) →
      ∀ rel line, StoppedIn w x us t fr.pc rel → LineAt files rel line →
      -- `d` is the entry of the variable `v`, the only one of this name
      ∀ (d : Die), VariableEntry t d → d.attr .name = some (.str v) → (∀ d', VariableEntry t d' → d'.attr .name = some (.str v) → d' = d) →
      -- it has the type described at `e`, is declared in a file of the unit or nowhere …
      d.attr .type = some (.ref e) → (∃ p, DeclaredAt files (fileDb x.units) d.off p) →
      -- … and is at `a`
      ∀ (r o fp : Nat), x.frameBase t.die = some (Vars.inReg r) → Calls.readRegisterByIndex fr.registers r = some fp →
      x.loc d = some (Vars.fbreg o) → a = (fp + o) % u64Max1 →
      rd L other b.program.backend s text = some (.text (page [chars! "type: " ++ name, chars! "value: " ++ val.text]), s) := by
  have hw : TypeRes.WellFormed (fileDb x.units) := by rw [hc.units]; exact C95_well_formed us hc.offsets hc.apart
  have hdec : TypeRes.Decodes (fileDb x.units) := C95_decodes _
  have hmem : u ∈ us := (List.of_mem_zip hz).1
  have hent : ∀ d, VariableEntry t d → (fileDb x.units).entry d.off = some d := by
    intro d hd
    obtain ⟨k, hk, rfl⟩ := variable_node ht hd
    rw [hc.units]
    exact entry_node us hc.offsets k (List.mem_flatMap.2 ⟨u, hmem, hk⟩)
  have hfiles : ∀ d, VariableEntry t d → unitFiles x d.off = files := by
    intro d hd
    obtain ⟨k, hk, rfl⟩ := variable_node ht hd
    exact unitFiles_of x us hc.units hc.offsets u files hz k hk
  obtain ⟨N, hN⟩ := C94_printed_partial hw hdec hn h hne hcl
  obtain ⟨M, hM⟩ := Shown.list_bound (reach Vars.opened t)
    (fun d depth => VariableEntry t d → ∀ ty, d.attr .type = some (.ref ty) → shallow (typedef w.lib x) (fileDb x.units) depth ty ≠ .panic) (by
      intro d _
      by_cases hd : VariableEntry t d ∧ ∃ ty, d.attr .type = some (.ref ty)
      · obtain ⟨hd, ty, hdt⟩ := hd
        obtain ⟨M, hM⟩ := Shown.known_shallow hw hdec (hty d ty hd hdt)
        refine ⟨M, fun depth hdep _ ty' h' => ?_⟩
        rw [hdt] at h'
        cases h'
        rw [hM depth hdep]
        simp
      · exact ⟨0, fun depth _ hv ty h' => absurd ⟨hv, ty, h'⟩ hd⟩)
  refine ⟨max N M, fun stack depth hst hdp => ?_⟩
  obtain ⟨b, hb, hT, hE⟩ := C96_opens hc stack depth
  refine ⟨b, hb, fun σ L mem other s fr text v hL hlive hsel hm htx rel line hstop hline d hdv hdn hdu hdt hdp r o fp hfb hreg hloc ha => ?_⟩
  obtain ⟨fns, ix, fn, l, hfns, hix, hlne, hfind, hrest⟩ := stopped hc hz ht hstop
  obtain ⟨base, trailing, h2, h3⟩ := hrest depth
  obtain ⟨loc, hloc', hlline⟩ := hline.location
  have h1 : (vars w depth x fns ix).lookupAddress fr.pc = some (fn, line) := by
    simp only [vars, hfind, hloc', okOf, Option.bind_some, lookupAddress, answers, List.map_const', List.getLast?_replicate]
    rw [if_neg (by simpa using hlne)]
    simp [hlline]
  simp only [binary, hfns, hix, Res.bind_ok, Res.ok.injEq] at hb
  subst hb
  refine hN σ L mem other _ s fr text v depth (fun d => unitFiles x d.off) x.loc (by omega) (by simp only; omega) hL hlive hsel hm hT hE htx fn line base
    _ t trailing h1 h2 rfl h3 ?_ d hdv ⟨d, hent d hdv, hdn⟩ ?_ ⟨d, hent d hdv, hdt⟩ ?_ r o fp hfb hreg hloc ha
  · rintro d' ty hd' ⟨d'', he, hdt'⟩
    rw [hent d' hd'] at he
    cases he
    exact hM depth (by omega) d' hd'.1 hd' ty hdt'
  · rintro d' hd' ⟨d'', he, hdn'⟩
    rw [hent d' hd'] at he
    cases he
    exact hdu d' hd' hdn'
  · rw [hfiles d hdv]; exact hdp

/-- C96 fails inside a line: where no row of the line table starts exactly at the program counter (as in the callers of the innermost function, which are stopped after a call), no variable is known, whatever
the entries say. -/
theorem C96_inside_line_fails {w : Libs} {x : Executable} {us : List UnitOf} (hc : Compiled w x us) {u : UnitOf} {files : UnitFiles} (hz : (u, files) ∈ us.zip x.files)
    {t : Tree Die} (ht : t ∈ subtrees u.1) {pc rel : Nat} (hs : StoppedIn w x us t pc rel)
    (hno : ∀ lp r, files.lines = some lp → .row r ∈ lp.rows → r.endSeq = false → r.address ≠ rel) (stack depth : Nat) :
    ∃ b, binary w stack depth x = .ok b ∧
      ∀ (σ : Type) (L : Remote.Lldb σ) (other : Wire.Json → Str) (s : σ) (fr : Remote.Frame) (text v : Str),
      Remote.Live L s → Remote.Selected L s fr → fr.pc = pc → Whole.Typed text (.var v) → rd L other b.program.backend s text = some (.error, s) := by
  obtain ⟨b, hb, hT, hE⟩ := C96_opens hc stack depth
  refine ⟨b, hb, fun σ L other s fr text v hlive hsel hpc htx => ?_⟩
  obtain ⟨fns, ix, fn, l, hfns, hix, hlne, hfind, hrest⟩ := stopped hc hz ht hs
  have hloc : addressToLocation files.lines rel = none := by
    cases hl : files.lines with
    | none => rfl
    | some lp =>
      cases ha : addressToLocation (some lp) rel with
      | none => rfl
      | some loc =>
        obtain ⟨r, h1, h2, h3, -⟩ := C07_location_is_a_row lp rel loc ha
        exact absurd h3 (hno lp r hl h1 h2)
  have h1 : (vars w depth x fns ix).lookupAddress pc = none := by
    simp only [vars, hfind, hloc, okOf, Option.bind_some, lookupAddress, answers, List.getLast?_nil, Option.map_none]
  have hbv : b.vars = vars w depth x fns ix := by
    simp only [binary, hfns, hix, Res.bind_ok, Res.ok.injEq] at hb
    rw [← hb]
  obtain ⟨sub, a, as, h4, h5, h6⟩ := htx
  refine Listing.C84_value_error L other _ s text sub a as h4 h5 s (.inr ⟨_, h6, ?_⟩)
  have hfr : (b.info.world L).frame s = some pc := by
    show Remote.okOf (Remote.talk L Remote.getPc s) = _
    rw [Remote.C77_pc L hlive hsel, hpc]; rfl
  have hvar : (b.info.world L).variableAt s pc v = .ok none := by
    show (Vars.getVariableAtPc (b.info.variables L s) pc v).bind _ = _
    have : (b.info.variables L s).lookupAddress pc = none := by rw [← h1, ← hbv]; rfl
    simp only [Vars.getVariableAtPc, this]
    rfl
  rw [Whole.C86_evaluated]
  simp only [Eval.evaluate, Eval.variableRef, Eval.Ev.bind, Eval.getPc, Eval.St.new, hfr, Eval.Ev.reading, hvar]
  rfl

/-! ### An example -/

/-- The libraries: all symbols are called `shop::run`. -/
def shopLibs : Libs where
  demangler := fun _ => some (chars! "shop::run")
  lib := TypeNames.plainLib false
  tree := Address.new
  lossy := fun _ => []
  floatStr := fun _ _ => []
  isFloat := fun _ => false
  inWorkspace := true

/-- The lines of the unit in Rust: the code of line 5 is at 24. -/
def shopLines : UnitFiles where
  lines := some { version := 4, files := [some [.normal (chars! "main.rs")]], rows := [.row ⟨false, 16, 1, some 4, none⟩, .row ⟨false, 24, 1, some 5, none⟩] }
  own := none

/-- An executable with the file of C95: `shop::run` is at 4088, and its variable `s` is at 99 from the contents of the first register. -/
def shopImage : Executable where
  symbols := [⟨chars! "_ZN4shop3runE", 4088, true, 32⟩]
  units := shopFile.map encUnit
  files := [shopLines, ⟨none, none⟩]
  loc := fun d => if d.off = 41 then some (Vars.fbreg 99) else none
  frameBase := fun _ => some (Vars.inReg 0)

/-- The function and its entries. -/
def shopVar : Die := { off := 41, tag := .variable, attrs := [(.name, .str (chars! "s")), (.type, .ref 30), (.declFile, .file 1), (.declLine, .data 4)] }
/-- See `shopVar`. -/
def shopBad : Die := { off := 42, tag := .variable, attrs := [(.name, .str (chars! "bad"))] }
/-- See `shopVar`. -/
def shopRunDie : Die := { off := 40, tag := .subprogram, attrs := [(.name, .str (chars! "run")), (.linkageName, .str (chars! "_ZN4shop3runE"))], range := some (16, 48) }
/-- See `shopVar`. -/
def shopRun : Tree Die := .node shopRunDie true true [.node shopVar false false [], .node shopBad false false []]

theorem shop_function {d : Die} {l : Str} (h : Function shopFile d l) : d = shopRunDie := by
  obtain ⟨h1, h2, -⟩ := h
  exact (by decide : ∀ d ∈ candidates shopFile, d.tag = .subprogram → d = shopRunDie) d h1 h2

theorem shop_symbol : SymbolAt shopLibs shopImage (chars! "_ZN4shop3runE") ⟨chars! "run", [], [chars! "shop"], chars! "shop::run"⟩ 4088 := by
  refine ⟨⟨_, List.mem_singleton.2 rfl, rfl, rfl⟩, ?_, by with_unfolding_all decide⟩
  intro e he _
  cases List.mem_singleton.1 he
  rfl

theorem shop_compiled : Compiled shopLibs shopImage shopFile where
  units := rfl
  file := shopFile_ok
  offsets := shopFile_offsets
  apart := shopFile_apart
  functions := by
    refine ⟨by decide, ?_, ?_, ?_⟩
    · intro u hu
      simp only [shopFile, List.mem_cons, List.not_mem_nil, or_false] at hu
      rcases hu with rfl | rfl
      · exact ⟨true, rfl⟩
      · exact ⟨false, rfl⟩
    · intro d hd ht
      cases (by decide : ∀ d ∈ candidates shopFile, d.tag = .subprogram → d = shopRunDie) d hd ht
      exact .inr ⟨_, rfl⟩
    · intro d hd s hs lo hi hr
      obtain ⟨l, hf, e, he, n, -, -, rfl⟩ := linked_iff _ _ _ _ _ hd hs
      cases shop_function hf
      cases hr
      cases List.mem_singleton.1 he
      exact ⟨by simp, by simp [u64Max1]⟩
  tokenizes := plainLib_tokenizes false
  sorts := built_new

theorem shop_stopped : StoppedIn shopLibs shopImage shopFile shopRun 4096 24 where
  found := ⟨_, _, 4088, 16, 48, ⟨by decide, rfl, rfl⟩, shop_symbol, rfl, by omega, rfl, by omega, fun _ _ h _ => shop_function h⟩
  alone := fun _ _ _ _ _ h _ _ _ _ _ _ => shop_function h

theorem shop_line : LineAt shopLines 24 5 :=
  ⟨⟨_, [.row ⟨false, 16, 1, some 4, none⟩], [], ⟨false, 24, 1, some 5, none⟩, [.normal (chars! "main.rs")], rfl, rfl, by decide, by simp, rfl, rfl, rfl, rfl⟩⟩

theorem shop_var {d : Die} (h : VariableEntry shopRun d) : d = shopVar ∨ d = shopBad := by
  obtain ⟨h1, h2⟩ := h
  have he : reach Vars.opened shopRun = [shopRunDie, shopVar, shopBad] := by decide
  rw [he] at h1
  simp only [List.mem_cons, List.not_mem_nil, or_false] at h1
  rcases h1 with rfl | h1
  · rcases h2 with h2 | h2 <;> cases h2
  · exact h1

/-- The types of the file. -/
theorem shop_types : typedef shopLibs.lib shopImage 30 = some (.alias (chars! "S")) ∧ typedef shopLibs.lib shopImage 60 = some (.uint 1) := by
  have h30 := C96_types shop_compiled 30
  have h60 := C96_types shop_compiled 60
  have e30 : fileTypedef shopLibs.lib shopImage.units 30 = .ok (some (.alias (chars! "S"))) := by
    refine C95_named (TypeNames.plainLib false) (TypeNames.plainLib_lexes false) _ shopFile_ok shopFile_offsets
      { off := 30, tag := .structureType, attrs := [(.name, .str (chars! "S")), (.byteSize, .data 1), (.alignment, .data 1)] }
      [chars! "shop"] ⟨_, List.mem_cons_self .., rfl, by decide⟩ (chars! "S") (chars! "shop::S") _ rfl ?_
    refine .path _ _ _ (.other [chars! "shop"] (chars! "S") [] [] [] ⟨by simp [TypeNames.IsIdent]; decide, by simp [TypeNames.IsIdent]; decide, by decide⟩ (by decide) (by intro h; cases h) ?_ .nil)
    rintro (h | ⟨r, rs, h, hr⟩)
    · cases h
    · cases h; exact absurd hr (by decide)
  have e60 : fileTypedef shopLibs.lib shopImage.units 60 = .ok (some (.uint 1)) :=
    C95_named (TypeNames.plainLib false) (TypeNames.plainLib_lexes false) _ shopFile_ok shopFile_offsets
      { off := 60, tag := .baseType, attrs := [(.name, .str (chars! "u8")), (.byteSize, .data 1)] }
      [] ⟨_, List.mem_cons_self .., rfl, by decide⟩ (chars! "u8") (chars! "u8") _ rfl (TypeNames.names_u8 _)
  rw [e30] at h30
  rw [e60] at h60
  exact ⟨(Res.ok.inj h30).symm, (Res.ok.inj h60).symm⟩

theorem shop_is : Shown.Is (typedef shopLibs.lib shopImage) (fileDb shopImage.units) 30 (.struct (chars! "S") 1 1 [(chars! "a", 0, 60)]) := by
  refine ⟨⟨?_, ⟨_, rfl, rfl⟩, ⟨_, rfl, rfl⟩, ⟨_, rfl, rfl⟩, ⟨_, rfl, rfl⟩, [31], rfl, ?_, ?_⟩, ?_⟩
  · simp [TypeRes.Ordinary, shop_types.1]
  · intro c hc
    simp only [List.mem_singleton] at hc
    subst hc
    rintro ⟨d, h1, h2⟩
    cases h1
    cases h2
  · exact .cons ⟨⟨_, rfl, rfl⟩, ⟨_, rfl, rfl⟩, ⟨_, rfl, rfl⟩⟩ .nil
  · simp only [Shown.Desc.parts, List.map_cons, List.map_nil, List.mem_singleton, forall_eq]
    exact .built (d := .plain (.uint 1)) (by simp [TypeRes.Ordinary, shop_types.2]) ⟨shop_types.2, by simp [Shown.Plain]⟩ (by simp [Shown.Desc.parts])

theorem shop_holds : Holds (typedef shopLibs.lib shopImage) (fileDb shopImage.units) (pieces [(100, [7])]) (fun _ => []) (fun _ _ => []) 1 100 30
    (.record (chars! "S") [(chars! "a", .leaf (chars! "7"))]) := by
  refine .struct (vs := [(chars! "a", 0, 60, .leaf (chars! "7"))]) shop_is (.refl _) (by simp) ?_ (by decide)
  simp only [List.mem_singleton, forall_eq]
  refine .plain (l := .uint 1) ⟨⟨shop_types.2, by simp [Shown.Plain]⟩, by simp [Shown.Desc.parts]⟩ ⟨7, ?_, ?_⟩
  · unfold Mem.HoldsNat; decide
  · rw [← natStr_toString]; rfl

/-- `C96_printed_partial` at work: the user types `rd p s`. -/
example (other : Wire.Json → Str) : ∃ N b, binary shopLibs N N shopImage = .ok b ∧ rd Remote.toy other b.program.backend ⟨pieces [(100, [7])], 0⟩ (chars! "p s") =
    some (.text (chars! "type: S\nvalue: S {\n  a: 7\n}\n"), ⟨pieces [(100, [7])], 0⟩) := by
  obtain ⟨hlive, hL, -⟩ := Remote.toy_ok
  obtain ⟨f, hf, hpc, hreg⟩ := Whole.toy_selected ⟨pieces [(100, [7])], 0⟩
  have hne : ¬ (RVal.record (chars! "S") [(chars! "a", .leaf (chars! "7"))]).Has (emptyText shopLibs.lossy) := by
    intro h
    cases h with
    | record h1 h2 =>
      cases List.mem_singleton.1 h1
      cases h2
  obtain ⟨N, hN⟩ := C96_printed_partial shop_compiled (by omega) shop_holds hne (.struct shop_is) (files := shopLines) (List.mem_cons_self ..) (t := shopRun) (List.mem_cons_of_mem _ (List.mem_append_left _ (List.mem_cons_of_mem _ (List.mem_append_right _ (List.mem_append_left _ (List.mem_cons_self ..)))))) (by
      intro d ty hd hty
      rcases shop_var hd with rfl | rfl
      · cases hty; exact .user (by simp [TypeRes.Ordinary, shop_types.1])
      · cases hty)
  obtain ⟨b, hb, hb'⟩ := hN N N (Nat.le_refl _) (Nat.le_refl _)
  refine ⟨N, b, hb, ?_⟩
  have := hb' Remote.Toy Remote.toy Remote.Toy.mem other ⟨pieces [(100, [7])], 0⟩ f (chars! "p s") (chars! "s") hL (hlive _) hf rfl
    ⟨chars! "p", chars! "s", [], rfl, .inl rfl, by with_unfolding_all rfl⟩ 24 5 (by rw [hpc]; exact shop_stopped) shop_line shopVar ⟨by decide, .inr rfl⟩ rfl ?_ rfl
    ⟨some ⟨[.normal (chars! "main.rs")], 4, none⟩, (C94_position _ _ _ _).1 rfl⟩ 0 99 1 rfl hreg rfl (by decide)
  · rw [this]; congr 2
  · intro d hd hx
    rcases shop_var hd with rfl | rfl
    · rfl
    · exact absurd hx (by decide)

/-- The same executable, but the code of line 5 starts at 20, so that the program is stopped in the middle of it. -/
def innerLines : UnitFiles where
  lines := some { version := 4, files := [some [.normal (chars! "main.rs")]], rows := [.row ⟨false, 16, 1, some 4, none⟩, .row ⟨false, 20, 1, some 5, none⟩] }
  own := none

/-- `C96_inside_line_fails` at work. -/
example (other : Wire.Json → Str) : ∃ b, binary shopLibs 9 9 { shopImage with files := [innerLines, ⟨none, none⟩] } = .ok b ∧
    rd Remote.toy other b.program.backend ⟨pieces [(100, [7])], 0⟩ (chars! "p s") = some (.error, ⟨pieces [(100, [7])], 0⟩) := by
  obtain ⟨hlive, hL, -⟩ := Remote.toy_ok
  obtain ⟨f, hf, hpc, hreg⟩ := Whole.toy_selected ⟨pieces [(100, [7])], 0⟩
  have hc : Compiled shopLibs { shopImage with files := [innerLines, ⟨none, none⟩] } shopFile :=
    ⟨rfl, shopFile_ok, shopFile_offsets, shopFile_apart, shop_compiled.functions, plainLib_tokenizes false, built_new⟩
  have hs : StoppedIn shopLibs { shopImage with files := [innerLines, ⟨none, none⟩] } shopFile shopRun 4096 24 :=
    ⟨⟨_, _, 4088, 16, 48, ⟨by decide, rfl, rfl⟩, ⟨shop_symbol.1, shop_symbol.2, shop_symbol.3⟩, rfl, by omega, rfl, by omega, fun _ _ h _ => shop_function h⟩,
      fun _ _ _ _ _ h _ _ _ _ _ _ => shop_function h⟩
  obtain ⟨b, hb, h⟩ := C96_inside_line_fails hc (files := innerLines) (List.mem_cons_self ..) (t := shopRun)
    (List.mem_cons_of_mem _ (List.mem_append_left _ (List.mem_cons_of_mem _ (List.mem_append_right _ (List.mem_append_left _ (List.mem_cons_self ..)))))) hs (by
      intro lp r hl hr _
      cases hl
      simp only [List.mem_cons, RowItem.row.injEq, List.not_mem_nil, or_false] at hr
      rcases hr with rfl | rfl <;> simp) 9 9
  exact ⟨b, hb, h Remote.Toy Remote.toy other _ f (chars! "p s") (chars! "s") (hlive _) hf hpc ⟨chars! "p", chars! "s", [], rfl, .inl rfl, by with_unfolding_all rfl⟩⟩

end Rudy.Image
