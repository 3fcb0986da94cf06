import Verif.Proof.SymbolIndex
import Verif.Proof.SymbolNorm
/-
Property theorems about symbol names and the symbol index: C05, C06, C11-C14.

Specification vocabulary: `depth`, `NoTopSep`, `joinSep`, `IsTopSplit`, `words`, `normalise`
(Verif.Proof.SymbolSplit, first section); `inserted`/`insertedFns` (Verif.Proof.SymbolIndex).
-/
namespace Rudy.Symbols
open Rudy

/-! ## C05: nearest symbol lookup -/

theorem lookup_entries (ix : SymbolIndex) (l : List Ev) (h : AddrInv ix l) (b : Nat) (v : List Symbol)
    (hm : (b, v) ∈ ix.functionsByAddress.entries) :
    v = (fnsOf l).filter (fun s => s.address == b) ∧ v ≠ [] := by
  have hg := OMap.get_of_mem compare _ b v h.1 hm
  rw [h.2 b] at hg
  simp only at hg
  split at hg
  · cases hg
  · rename_i hne
    cases hg
    exact ⟨rfl, by simpa using hne⟩

/-- C05: for every history of insertions, a lookup that answers gives the greatest function address
not above the queried one, together with all functions registered there in insertion order. -/
theorem C05_nearest_is_greatest (ops : List IndexOp) (a b : Nat) (v : List Symbol)
    (h : (buildIndex ops).functionAtAddress a = some (b, v)) :
    b ≤ a ∧ (∀ s ∈ insertedFns ops, s.address ≤ a → s.address ≤ b) ∧
    v = (insertedFns ops).filter (fun s => s.address == b) ∧ v ≠ [] := by
  have hinv := addrInv ops
  unfold SymbolIndex.functionAtAddress at h
  rw [List.getLast?_eq_some_iff] at h
  obtain ⟨ys, hys⟩ := h
  have hmem : (b, v) ∈ (buildIndex ops).functionsByAddress.entries.filter
      (fun p => decide (p.1 ≤ a)) := by rw [hys]; simp
  rw [List.mem_filter] at hmem
  obtain ⟨h1, h2⟩ := hmem
  obtain ⟨hv, hne⟩ := lookup_entries _ _ hinv b v h1
  refine ⟨by simpa using h2, ?_, hv, hne⟩
  intro s hs hsa
  -- the address of `s` is a key
  have hg := hinv.2 s.address
  have hsm : s ∈ (fnsOf (inserted ops)).filter (fun x => x.address == s.address) := by
    rw [List.mem_filter]; exact ⟨hs, by simp⟩
  have hne' : ((fnsOf (inserted ops)).filter (fun x => x.address == s.address)).isEmpty = false := by
    cases hh : (fnsOf (inserted ops)).filter (fun x => x.address == s.address) with
    | nil => rw [hh] at hsm; simp at hsm
    | cons x xs => rfl
  simp only [hne', Bool.false_eq_true, if_false] at hg
  obtain ⟨k', hk', hmem'⟩ := OMap.mem_of_get _ _ _ _ hg
  have hk : s.address = k' := Std.LawfulEqCmp.eq_of_compare hk'
  subst hk
  have hf : (s.address, (fnsOf (inserted ops)).filter (fun x => x.address == s.address)) ∈
      (buildIndex ops).functionsByAddress.entries.filter (fun p => decide (p.1 ≤ a)) := by
    rw [List.mem_filter]; exact ⟨hmem', by simpa using hsa⟩
  have hsorted : ((buildIndex ops).functionsByAddress.entries.filter
      (fun p => decide (p.1 ≤ a))).Pairwise (fun x y => compare x.1 y.1 = .lt) :=
    List.Pairwise.filter _ hinv.1
  rw [hys] at hf hsorted
  rw [List.pairwise_append] at hsorted
  rcases List.mem_append.1 hf with hf | hf
  · have := hsorted.2.2 _ hf (b, v) (by simp)
    have := Nat.compare_eq_lt.1 this
    omega
  · simp at hf; omega

/-- C05: the lookup is empty exactly when no function is registered at or below the address. -/
theorem C05_none_iff (ops : List IndexOp) (a : Nat) :
    (buildIndex ops).functionAtAddress a = none ↔ ∀ s ∈ insertedFns ops, a < s.address := by
  have hinv := addrInv ops
  unfold SymbolIndex.functionAtAddress
  rw [List.getLast?_eq_none_iff, List.filter_eq_nil_iff]
  constructor
  · intro h s hs
    have hg := hinv.2 s.address
    have hsm : s ∈ (fnsOf (inserted ops)).filter (fun x => x.address == s.address) := by
      rw [List.mem_filter]; exact ⟨hs, by simp⟩
    have hne' : ((fnsOf (inserted ops)).filter (fun x => x.address == s.address)).isEmpty
        = false := by
      cases hh : (fnsOf (inserted ops)).filter (fun x => x.address == s.address) with
      | nil => rw [hh] at hsm; simp at hsm
      | cons x xs => rfl
    simp only [hne', Bool.false_eq_true, if_false] at hg
    obtain ⟨k', hk', hmem'⟩ := OMap.mem_of_get _ _ _ _ hg
    have hk : s.address = k' := Std.LawfulEqCmp.eq_of_compare hk'
    have := h _ hmem'
    simp at this; omega
  · rintro h ⟨b, v⟩ hm
    obtain ⟨hv, hne⟩ := lookup_entries _ _ hinv b v hm
    cases v with
    | nil => exact absurd rfl hne
    | cons s rest =>
      have hs : s ∈ (fnsOf (inserted ops)).filter (fun x => x.address == b) := by rw [← hv]; simp
      rw [List.mem_filter] at hs
      have h1 := h s hs.1
      have h2 : s.address = b := by simpa using hs.2
      simp; omega

/-! ## C06: the index agrees with the insertion history -/

/-- C06: a lookup by full name answers with the last inserted function of that name, and answers
nothing exactly when no function of that name was inserted. Two names are the same for the index
when short name, module path and full path agree. -/
theorem C06_get_function_last_wins (ops : List IndexOp) (n : SymbolName) :
    (buildIndex ops).getFunction n =
      ((insertedFns ops).filter (fun s => decide (n.lookupName = s.name.lookupName ∧
        n.modulePath = s.name.modulePath ∧ n.fullPath = s.name.fullPath))).getLast? := by
  have h := (fnInv ops).2.2.2 n
  rw [h]
  unfold insertedFns fnsOf
  congr 2
  funext s
  rw [Bool.eq_iff_iff]
  simp [cmp_eq_iff]

/-- C06: a lookup by short name fails exactly when no function with this short name was inserted. -/
theorem C06_lookup_name_none_iff (ops : List IndexOp) (n : Str) :
    (buildIndex ops).byLookupName n = none ↔ ∀ s ∈ insertedFns ops, s.name.lookupName ≠ n :=
  (fnInv ops).1 n

/-- C06: everything found under a short name is an inserted *function* with this short name, filed
under its own name; non-function symbols are never returned. -/
theorem C06_lookup_name_sound (ops : List IndexOp) (n : Str) (m : OMap SymbolName Symbol)
    (h : (buildIndex ops).byLookupName n = some m) (k : SymbolName) (s : Symbol)
    (hk : (k, s) ∈ m.entries) :
    s ∈ insertedFns ops ∧ s.name.lookupName = n ∧ k.fullPath = s.name.fullPath := by
  obtain ⟨h1, h2, h3⟩ := (fnInv ops).2.2.1 n m h k s hk
  exact ⟨h1, h2, ((cmp_eq_iff _ _).1 h3).2.2⟩

/-- C06: every inserted function is found under its short name (possibly replaced by a later
insertion with the same name). -/
theorem C06_lookup_name_complete (ops : List IndexOp) (s : Symbol) (hs : s ∈ insertedFns ops) :
    ∃ m k s', (buildIndex ops).byLookupName s.name.lookupName = some m ∧ (k, s') ∈ m.entries ∧
      k.fullPath = s.name.fullPath := by
  have hg := C06_get_function_last_wins ops s.name
  have hne : (buildIndex ops).getFunction s.name ≠ none := by
    rw [hg]
    intro hn
    rw [List.getLast?_eq_none_iff, List.filter_eq_nil_iff] at hn
    exact hn s hs (by simp)
  unfold SymbolIndex.getFunction at hne
  cases hm : (buildIndex ops).functions.get compare s.name.lookupName with
  | none => rw [hm] at hne; simp at hne
  | some m =>
    rw [hm] at hne
    simp only at hne
    cases hk : m.get SymbolName.cmp s.name with
    | none => exact absurd hk hne
    | some s' =>
      obtain ⟨k', h1, h2⟩ := OMap.mem_of_get _ _ _ _ hk
      exact ⟨m, k', s', hm, h2, (((cmp_eq_iff _ _).1 h1).2.2).symm⟩

/-- C06: the per-file table maps a raw symbol name to the last symbol inserted for it. -/
theorem C06_symbols_by_file_last_wins (ops : List IndexOp) (df : Nat) (raw : Str) :
    ((buildIndex ops).symbolsByFile.get compare df).bind (fun m => m.get compare raw) =
    (((inserted ops).filter (fun e => e.sym.debugFile == df && e.raw == raw)).map
      (·.sym)).getLast? :=
  fileInv ops df raw

/-- C06: resolving `module::name` answers a function with exactly this short name whose module path
ends with the given one, and fails only if there is no such function. -/
theorem C06_find_closest_sound (ops : List IndexOp) (q : Str) (n : SymbolName) (df : Nat)
    (h : findClosestFunction (buildIndex ops) q = some (n, df)) :
    ∃ s ∈ insertedFns ops, s.debugFile = df ∧ s.name.fullPath = n.fullPath ∧
      (splitNaive q []).getLast? = some n.lookupName ∧
      ∃ pre, n.modulePath = pre ++ (splitNaive q []).dropLast := by
  unfold findClosestFunction at h
  simp only at h
  split at h
  · cases h
  · rename_i name hname
    split at h
    · cases h
    · rename_i m hm
      rw [Option.map_eq_some_iff] at h
      obtain ⟨⟨k, s⟩, hf, he⟩ := h
      cases he
      have hmem := List.mem_of_find?_eq_some hf
      have hp := List.find?_some hf
      obtain ⟨h1, h2, h3⟩ := C06_lookup_name_sound ops name m hm k s hmem
      simp only [SymbolName.matchesNameAndModule, Bool.and_eq_true, beq_iff_eq,
        decide_eq_true_eq] at hp
      refine ⟨s, h1, rfl, h3.symm, ?_, ?_⟩
      · rw [hname, hp.1]
      · obtain ⟨pre, hpre⟩ := hp.2
        exact ⟨pre, hpre.symm⟩

/-- C06: completeness of `module::name` resolution. -/
theorem C06_find_closest_complete (ops : List IndexOp) (q : Str) (s : Symbol)
    (hs : s ∈ insertedFns ops)
    (hname : (splitNaive q []).getLast? = some s.name.lookupName)
    (hmod : (splitNaive q []).dropLast <:+ s.name.modulePath) :
    ∃ n df, findClosestFunction (buildIndex ops) q = some (n, df) := by
  have hg := C06_get_function_last_wins ops s.name
  unfold findClosestFunction SymbolIndex.byLookupName
  simp only [hname]
  have hne : (buildIndex ops).getFunction s.name ≠ none := by
    rw [hg]
    intro hn
    rw [List.getLast?_eq_none_iff, List.filter_eq_nil_iff] at hn
    exact hn s hs (by simp)
  unfold SymbolIndex.getFunction at hne
  cases hm : (buildIndex ops).functions.get compare s.name.lookupName with
  | none => rw [hm] at hne; simp at hne
  | some m =>
    rw [hm] at hne
    simp only at hne ⊢
    cases hk : m.get SymbolName.cmp s.name with
    | none => exact absurd hk hne
    | some s' =>
      obtain ⟨k', h1, h2⟩ := OMap.mem_of_get _ _ _ _ hk
      obtain ⟨e1, e2, e3⟩ := (cmp_eq_iff _ _).1 h1
      have hmatch : k'.matchesNameAndModule s.name.lookupName (splitNaive q []).dropLast = true := by
        simp [SymbolName.matchesNameAndModule, ← e1, ← e2, hmod]
      cases hf : m.entries.find? (fun e => e.1.matchesNameAndModule s.name.lookupName
          (splitNaive q []).dropLast) with
      | none =>
        rw [List.find?_eq_none] at hf
        exact absurd hmatch (by simpa using hf (k', s') h2)
      | some e => exact ⟨e.1, e.2.debugFile, by simp⟩

theorem splitNaive_segment (a rest cur : Str) (h : ∀ c ∈ a, c ≠ ':') :
    splitNaive (a ++ ':' :: ':' :: rest) cur = (cur ++ a) :: splitNaive rest [] := by
  induction a generalizing cur with
  | nil => simp [splitNaive]
  | cons c cs ih =>
    have hc : c ≠ ':' := h c (by simp)
    have ih' := ih (cur ++ [c]) (fun x hx => h x (List.mem_cons_of_mem _ hx))
    cases cs with
    | nil =>
      simp only [List.cons_append, List.nil_append] at ih' ⊢
      rw [splitNaive, if_neg (fun hh => hc hh.1), ih']
      simp
    | cons d ds =>
      simp only [List.cons_append] at ih' ⊢
      rw [splitNaive, if_neg (fun hh => hc hh.1), ih']
      simp

theorem splitNaive_last (a cur : Str) (h : ∀ c ∈ a, c ≠ ':') : splitNaive a cur = [cur ++ a] := by
  induction a generalizing cur with
  | nil => simp [splitNaive]
  | cons c cs ih =>
    have hc : c ≠ ':' := h c (by simp)
    have ih' := ih (cur ++ [c]) (fun x hx => h x (List.mem_cons_of_mem _ hx))
    cases cs with
    | nil => simp [splitNaive]
    | cons d ds =>
      rw [splitNaive, if_neg (fun hh => hc hh.1), ih']
      simp

theorem splitNaive_join (mods : List Str) (name : Str) (hm : ∀ p ∈ mods, ∀ c ∈ p, c ≠ ':')
    (hn : ∀ c ∈ name, c ≠ ':') : splitNaive (joinSep (mods ++ [name])) [] = mods ++ [name] := by
  induction mods with
  | nil => simpa [joinSep] using splitNaive_last name [] hn
  | cons p ps ih =>
    have ih' := ih (fun q hq => hm q (List.mem_cons_of_mem _ hq))
    cases ps with
    | nil =>
      simp only [List.cons_append, List.nil_append, joinSep] at ih' ⊢
      rw [splitNaive_segment p _ [] (hm p (by simp)), ih']
      simp
    | cons q qs =>
      simp only [List.cons_append, joinSep] at ih' ⊢
      rw [splitNaive_segment p _ [] (hm p (by simp)), ih']
      simp

/-- C06: resolving `m1::..::mk::name` succeeds exactly when a function of that short name was
inserted whose module path ends with `m1, .., mk` (segments without colons). -/
theorem C06_closest_path_iff (ops : List IndexOp) (mods : List Str) (name : Str)
    (hm : ∀ p ∈ mods, ∀ c ∈ p, c ≠ ':') (hn : ∀ c ∈ name, c ≠ ':') :
    (∃ n df, findClosestFunction (buildIndex ops) (joinSep (mods ++ [name])) = some (n, df)) ↔
      ∃ s ∈ insertedFns ops, s.name.lookupName = name ∧ mods <:+ s.name.modulePath := by
  have e := splitNaive_join mods name hm hn
  constructor
  · rintro ⟨n, df, h⟩
    unfold findClosestFunction at h
    simp only [e, List.getLast?_append, List.getLast?_singleton, Option.some_or,
      List.dropLast_concat] at h
    split at h
    · cases h
    · rename_i m hmm
      rw [Option.map_eq_some_iff] at h
      obtain ⟨⟨k, s⟩, hf, he⟩ := h
      cases he
      have hp := List.find?_some hf
      obtain ⟨h1, h2, h3⟩ := C06_lookup_name_sound ops name m hmm k s (List.mem_of_find?_eq_some hf)
      simp only [SymbolName.matchesNameAndModule, Bool.and_eq_true, beq_iff_eq,
        decide_eq_true_eq] at hp
      refine ⟨s, h1, ?_, ?_⟩
      · exact h2
      · have : k.modulePath = s.name.modulePath := by
          exact ((cmp_eq_iff _ _).1
            ((fnInv ops).2.2.1 name m hmm k s (List.mem_of_find?_eq_some hf)).2.2).2.1
        rw [← this]; exact hp.2
  · rintro ⟨s, hs, rfl, h2⟩
    exact C06_find_closest_complete ops _ s hs (by rw [e]; simp) (by rw [e]; simpa using h2)

/-! ## C11: splitting of demangled symbols -/

/-- C11 (naive brackets): every text has exactly one decomposition at its top-level `::`
separators, and parsing succeeds with exactly its non-blank pieces (white space normalised), in
order, as module path, name and optional hash; it fails exactly when there is no piece, or only a
hash. Bracket depth counts every `>` as a closing bracket, including the one of `->`: see
`C11_arrow_is_not_a_bracket_fails`. -/
theorem C11_split_exact_partial (s : Str) :
    ∃ pieces, IsTopSplit s pieces ∧ (∀ other, IsTopSplit s other → other = pieces) ∧
      (∀ r, parseSymbol s = some r →
        r.modulePath ++ [r.name] ++ r.hash.toList = (pieces.filter hasText).map normalise) ∧
      (parseSymbol s = none ↔ (pieces.filter hasText).map normalise = [] ∨
        ∃ x, (pieces.filter hasText).map normalise = [x] ∧ looksLikeHash x = true) := by
  obtain ⟨pieces, h1, h2⟩ := scan_segments s
  refine ⟨pieces, h1, fun o ho => topSplit_unique _ _ s ho h1, ?_, ?_⟩
  · intro r hr
    rw [parse_segments s r hr, h2]; rfl
  · rw [parse_none, h2]; rfl

/-- A segment in normal form: non-empty, white space normalised, brackets closed, and no top-level
`::` in it or created by the separator following it. -/
structure CleanSegment (p : Str) : Prop where
  ne : p ≠ []
  norm : normalise p = p
  closed : depth p = 0
  noSep : NoTopSep (p ++ [':'])

theorem hasText_of_norm (p : Str) (hne : p ≠ []) (hn : normalise p = p) : hasText p = true := by
  cases h : hasText p with
  | true => rfl
  | false =>
    exfalso
    have hc : collapse p = [] := by
      have := collapse_isEmpty p
      rw [h] at this
      simpa using this
    have := trim_collapse p
    rw [hc, hn] at this
    exact hne this.symm

theorem scan_join (segs : List Str) (hne : segs ≠ []) (hc : ∀ p ∈ segs, CleanSegment p) :
    scan (joinSep segs) [] [] 0 = segs := by
  obtain ⟨pieces, h1, h2⟩ := scan_segments (joinSep segs)
  have hs : IsTopSplit (joinSep segs) segs :=
    ⟨hne, rfl, fun p hp => (hc p hp).noSep.prefix,
      fun p hp => ⟨(hc p (List.dropLast_subset _ hp)).closed,
        (hc p (List.dropLast_subset _ hp)).noSep⟩⟩
  have := topSplit_unique _ _ _ h1 hs
  subst this
  rw [h2]
  unfold specSegments
  have e1 : pieces.filter hasText = pieces := by
    rw [List.filter_eq_self]
    intro p hp
    exact hasText_of_norm p (hc p hp).ne (hc p hp).norm
  rw [e1]
  conv => rhs; rw [← List.map_id pieces]
  apply List.map_congr_left
  intro p hp
  simpa using (hc p hp).norm

/-- C11: joining clean segments with `::` and parsing gives them back (no hash). -/
theorem C11_roundtrip (ms : List Str) (n : Str) (hm : ∀ p ∈ ms, CleanSegment p)
    (hn : CleanSegment n) (hh : looksLikeHash n = false) :
    parseSymbol (joinSep (ms ++ [n])) = some ⟨ms, n, none⟩ := by
  apply parse_of_segments _ _ _ _ hh
  apply scan_join _ (by simp)
  intro p hp
  rcases List.mem_append.1 hp with hp | hp
  · exact hm p hp
  · simp at hp; subst hp; exact hn

/-- C11: joining clean segments and a hash with `::` and parsing gives them back. -/
theorem C11_roundtrip_hash (ms : List Str) (n x : Str) (hm : ∀ p ∈ ms, CleanSegment p)
    (hn : CleanSegment n) (hx : CleanSegment x) (hh : looksLikeHash x = true) :
    parseSymbol (joinSep (ms ++ [n] ++ [x])) = some ⟨ms, n, some x⟩ := by
  apply parse_of_segments_hash _ _ _ _ _ hh
  apply scan_join _ (by simp)
  intro p hp
  simp only [List.mem_append, List.mem_singleton] at hp
  rcases hp with (hp | hp) | hp
  · exact hm p hp
  · subst hp; exact hn
  · subst hp; exact hx

/-- C11: no segment is empty, provided the text uses only space, tab, CR and LF as white space. -/
theorem C11_no_empty_segment_partial (s : Str) (r : Parsed)
    (hw : ∀ c ∈ s, isRustWhitespace c = true → isBlank c = true)
    (h : parseSymbol s = some r) :
    ∀ seg ∈ r.modulePath ++ [r.name] ++ r.hash.toList, seg ≠ [] := by
  obtain ⟨pieces, h1, h2⟩ := scan_segments s
  rw [parse_segments s r h, h2]
  intro seg hseg
  simp only [specSegments, List.mem_map, List.mem_filter] at hseg
  obtain ⟨p, ⟨hp, ht⟩, rfl⟩ := hseg
  -- every character of a piece is a character of the text
  have hsub : ∀ (ps : List Str), p ∈ ps → ∀ c ∈ p, c ∈ joinSep ps := by
    intro ps
    induction ps with
    | nil => simp
    | cons q qs ih =>
      intro hq c hc
      cases qs with
      | nil => simp at hq; subst hq; simpa [joinSep] using hc
      | cons x xs =>
        simp only [joinSep]
        rcases List.mem_cons.1 hq with rfl | hq
        · exact List.mem_append_left _ hc
        · exact List.mem_append_right _ (by simp [ih hq c hc])
  have hpw : ∀ c ∈ p, isRustWhitespace c = true → isBlank c = true := by
    intro c hc
    have := hsub pieces hp c hc
    rw [h1.join] at this
    exact hw c this
  obtain ⟨c, hc1, hc2, hc3⟩ := collapse_keeps_text p ht
  rw [← trim_collapse]
  intro hnil
  have := hpw c hc2 (trim_nil _ hnil c hc1)
  rw [this] at hc3; cases hc3

/-- C11 negation: a no-break space between separators becomes an *empty* module segment. -/
theorem C11_empty_segment_possible :
    parseSymbol ['a', ':', ':', '\u00A0', ':', ':', 'b'] = some ⟨[['a'], []], ['b'], none⟩ := by
  decide

/-- C11 negation: the `>` of `->` is taken for a closing bracket, so a qualified segment
`<fn() -> u8 as m::T>` is torn apart and the separator after it is missed. -/
theorem C11_arrow_is_not_a_bracket_fails :
    parseSymbol (chars! "<fn() -> u8 as m::T>::f") =
      some ⟨[(chars! "<fn() -> u8 as m")], (chars! "T>::f"), none⟩ := by
  decide

/-- C11: the displayed name is the path without the hash. -/
theorem C11_display_drops_hash (ms : List Str) (n x : Str) (hm : ∀ p ∈ ms, CleanSegment p)
    (hn : CleanSegment n) (hx : CleanSegment x) (hh : looksLikeHash x = true) :
    ∃ sym, SymbolName.parse (joinSep (ms ++ [n] ++ [x])) = some sym ∧
      sym.display = joinSep (ms ++ [n]) ∧ sym.lookupName = n ∧ sym.modulePath = ms ∧ sym.hash = x := by
  refine ⟨_, by rw [SymbolName.parse, C11_roundtrip_hash ms n x hm hn hx hh]; rfl, ?_, rfl, rfl, rfl⟩
  have happ : ∀ (l : List Str) (y : Str), l ≠ [] →
      joinSep (l ++ [y]) = joinSep l ++ ':' :: ':' :: y := by
    intro l y
    induction l with
    | nil => simp
    | cons a t ih =>
      intro _
      cases t with
      | nil => simp [joinSep]
      | cons b t' =>
        have := ih (by simp)
        simp only [List.cons_append] at this ⊢
        simp only [joinSep]
        rw [this]; simp
  have hlast : ∀ (l : List Str), ∃ pre, joinSep (l ++ [n]) = pre ++ n := by
    intro l
    cases l with
    | nil => exact ⟨[], by simp [joinSep]⟩
    | cons a t => exact ⟨joinSep (a :: t) ++ [':', ':'], by rw [happ _ _ (by simp)]; simp⟩
  -- the name does not end in a colon
  have hncolon : ∀ a, n ≠ a ++ [':'] := by
    intro a ha
    have h1 := hn.noSep a [] (by simp [ha])
    have h2 := hn.closed
    rw [ha, depth_append] at h2
    simp [depth] at h2
    exact h1 h2
  obtain ⟨pre, hpre⟩ := hlast ms
  have hxne : x ≠ [] := hx.ne
  have hxlast : ∀ a, x ≠ a ++ [':'] := by
    intro a ha
    have h1 := hx.noSep a [] (by simp [ha])
    have h2 := hx.closed
    rw [ha, depth_append] at h2
    simp [depth] at h2
    exact h1 h2
  simp only [SymbolName.display, Option.getD]
  have hfull : joinSep (ms ++ [n] ++ [x]) = joinSep (ms ++ [n]) ++ [':', ':'] ++ x := by
    rw [happ _ _ (by simp)]; simp
  rw [hfull]
  have one : ∀ (pat y : Str), pat ≠ [] → ¬ pat <:+ y →
      trimEndMatches pat (y ++ pat) = y := by
    intro pat y hp hs
    unfold trimEndMatches
    have hl : 0 < (y ++ pat).length := by
      have := List.length_pos_iff.2 hp
      simp; omega
    obtain ⟨k, hk⟩ : ∃ k, (y ++ pat).length = k + 1 := ⟨(y ++ pat).length - 1, by omega⟩
    rw [hk]
    simp only [trimEndMatchesAux]
    rw [if_pos ⟨hp, List.suffix_append _ _⟩]
    have : (y ++ pat).take ((y ++ pat).length - pat.length) = y := by simp
    rw [this]
    cases k with
    | zero => rfl
    | succ k => simp [trimEndMatchesAux, hs]
  rw [one x _ hxne, one [':', ':'] _ (by simp)]
  · rintro ⟨z, hz⟩
    rw [hpre] at hz
    rcases List.eq_nil_or_concat n with h | ⟨a, c, h⟩
    · exact hn.ne h
    · have h' : n = a ++ [c] := by rw [h]; simp
      rw [h', ← List.append_assoc, show z ++ [':', ':'] = (z ++ [':']) ++ [':'] by simp] at hz
      have := (List.append_inj' hz rfl).2
      simp at this
      exact hncolon a (by rw [h', this])
  · rintro ⟨z, hz⟩
    rcases List.eq_nil_or_concat x with h | ⟨a, c, h⟩
    · exact hxne h
    · have h' : x = a ++ [c] := by rw [h]; simp
      rw [h', ← List.append_assoc, show joinSep (ms ++ [n]) ++ [':', ':'] =
        (joinSep (ms ++ [n]) ++ [':']) ++ [':'] by simp] at hz
      have := (List.append_inj' hz rfl).2
      simp at this
      exact hxlast a (by rw [h', this])

/-! ## C12: hashes -/

/-- A legacy mangling hash: `h` and 16 hexadecimal digits. -/
def IsLegacyHash (x : Str) : Prop := ∃ ds : Str, x = 'h' :: ds ∧ ds.length = 16 ∧ ∀ c ∈ ds, isHex c = true

/-- C12, exact rule of the code: the last segment is dropped as hash iff it is `h` followed by any
number (even zero) of hexadecimal digits. -/
theorem C12_hash_rule_partial (s : Str) (r : Parsed) (h : parseSymbol s = some r) :
    (∀ x, r.hash = some x → ∃ ds : Str, x = 'h' :: ds ∧ ∀ c ∈ ds, isHex c = true) ∧
    (r.hash = none → ¬ ∃ ds : Str, r.name = 'h' :: ds ∧ ∀ c ∈ ds, isHex c = true) := by
  obtain ⟨h1, h2⟩ := parse_hash s r h
  have key : ∀ x : Str, looksLikeHash x = true ↔ ∃ ds : Str, x = 'h' :: ds ∧ ∀ c ∈ ds, isHex c = true := by
    intro x
    unfold looksLikeHash
    split
    · simp
    · rename_i hne
      constructor
      · intro h; cases h
      · rintro ⟨ds, rfl, _⟩; exact absurd rfl (hne ds)
  refine ⟨fun x hx => (key x).1 (h1 x hx), ?_⟩
  intro hn hex
  rw [← key] at hex
  rw [h2 hn] at hex; cases hex

/-- C12: every legacy hash is recognised: a clean path followed by a legacy hash parses to the path
without it. -/
theorem C12_legacy_hash_recognised (ms : List Str) (n x : Str) (hm : ∀ p ∈ ms, CleanSegment p)
    (hn : CleanSegment n) (hx : CleanSegment x) (hl : IsLegacyHash x) :
    parseSymbol (joinSep (ms ++ [n] ++ [x])) = some ⟨ms, n, some x⟩ := by
  apply C11_roundtrip_hash ms n x hm hn hx
  obtain ⟨ds, rfl, _, hd⟩ := hl
  simpa [looksLikeHash] using hd

/-- C12 negation: the ordinary function `list::head` is parsed as function `list` with hash `head`,
so the claim "only legacy hashes are dropped" is false of the code. -/
theorem C12_only_hashes_dropped_fails :
    ¬ ∀ s r x, parseSymbol s = some r → r.hash = some x → IsLegacyHash x := by
  intro h
  have h1 : parseSymbol (chars! "list::head") = some ⟨[], (chars! "list"), some (chars! "head")⟩ := by
    decide
  obtain ⟨ds, h2, h3, _⟩ := h _ _ _ h1 rfl
  cases h2
  simp at h3

/-- C12 negation: a symbol consisting of one ordinary name can be rejected altogether. -/
theorem C12_plain_name_rejected : parseSymbol (chars! "had") = none := by decide

/-! ## C13: ordering of names -/

/-- C13: the order on symbol names is reflexive, antisymmetric (swapping the arguments swaps the
result), transitive and total. -/
theorem C13_symbol_order_lawful (a b c : SymbolName) :
    a.cmp a = .eq ∧ a.cmp b = (b.cmp a).swap ∧
    (a.cmp b ≠ .gt → b.cmp c ≠ .gt → a.cmp c ≠ .gt) ∧
    (a.cmp b = .lt ∨ a.cmp b = .eq ∨ a.cmp b = .gt) := by
  refine ⟨Std.ReflCmp.compare_self, Std.OrientedCmp.eq_swap, ?_, ?_⟩
  · intro h1 h2
    have := Std.TransCmp.isLE_trans (cmp := SymbolName.cmp) (a := a) (b := b) (c := c)
      (by simpa [Ordering.ne_gt_iff_isLE] using h1) (by simpa [Ordering.ne_gt_iff_isLE] using h2)
    simpa [Ordering.ne_gt_iff_isLE] using this
  · cases a.cmp b <;> simp

/-- C13: parsed symbol names that compare equal are equal. -/
theorem C13_symbol_order_eq_iff (p q : Str) (a b : SymbolName)
    (ha : SymbolName.parse p = some a) (hb : SymbolName.parse q = some b) :
    a.cmp b = .eq ↔ a = b := by
  rw [cmp_eq_iff]
  constructor
  · rintro ⟨_, _, h⟩
    have pa : a.fullPath = p := by
      simp only [SymbolName.parse, Option.map_eq_some_iff] at ha
      obtain ⟨_, _, rfl⟩ := ha; rfl
    have pb : b.fullPath = q := by
      simp only [SymbolName.parse, Option.map_eq_some_iff] at hb
      obtain ⟨_, _, rfl⟩ := hb; rfl
    rw [pa, pb] at h
    subst h
    rw [ha] at hb
    exact Option.some.inj hb
  · rintro rfl; simp

/-- C13: type names: the order is lawful and agrees with the equality of the code. -/
theorem C13_type_order_lawful (a b c : TypeName) :
    a.cmp b = (b.cmp a).swap ∧ (a.cmp b ≠ .gt → b.cmp c ≠ .gt → a.cmp c ≠ .gt) ∧
    (a.cmp b = .eq ↔ a.beq b = true) := by
  refine ⟨Std.OrientedCmp.eq_swap, ?_, ?_⟩
  · intro h1 h2
    have := Std.TransCmp.isLE_trans (cmp := TypeName.cmp) (a := a) (b := b) (c := c)
      (by simpa [Ordering.ne_gt_iff_isLE] using h1) (by simpa [Ordering.ne_gt_iff_isLE] using h2)
    simpa [Ordering.ne_gt_iff_isLE] using this
  · simp [TypeName.cmp, TypeName.beq, Ordering.then_eq_eq, Std.LawfulEqCmp.compare_eq_iff_eq]

/-! ## C14: matching by name and module -/

/-- C14: matching is equality of the short name and suffix of the module path. -/
theorem C14_match_iff_suffix (n : SymbolName) (name : Str) (modul : List Str) :
    n.matchesNameAndModule name modul = true ↔
      n.lookupName = name ∧ ∃ pre, n.modulePath = pre ++ modul := by
  simp only [SymbolName.matchesNameAndModule, Bool.and_eq_true, beq_iff_eq, decide_eq_true_eq]
  constructor
  · rintro ⟨h, pre, hp⟩; exact ⟨h, pre, hp.symm⟩
  · rintro ⟨h, pre, hp⟩; exact ⟨h, pre, hp.symm⟩

/-- C14: dropping leading modules of the query never loses a match. -/
theorem C14_match_monotone (n : SymbolName) (name : Str) (pre modul : List Str)
    (h : n.matchesNameAndModule name (pre ++ modul) = true) :
    n.matchesNameAndModule name modul = true := by
  rw [C14_match_iff_suffix] at h ⊢
  obtain ⟨h1, p, hp⟩ := h
  exact ⟨h1, p ++ pre, by simp [hp]⟩

/-- C14: the empty module matches every symbol with the short name. -/
theorem C14_empty_module (n : SymbolName) : n.matchesNameAndModule n.lookupName [] = true := by
  rw [C14_match_iff_suffix]; exact ⟨rfl, n.modulePath, by simp⟩

/-! ## Non-vacuity -/

def sName (s : Str) : SymbolName := (SymbolName.parse s).getD ⟨[], [], [], []⟩

def sampleOps : List IndexOp :=
  [ .binary [ ⟨['x'], some (sName (chars! "a::f")), 100, true, 0⟩, ⟨['y'], some (sName (chars! "a::G")), 90, false, 8⟩,
              ⟨['z'], none, 50, true, 0⟩ ] 1,
    .mapped [ ⟨['w'], some (sName (chars! "b::f")), 200, false, 16⟩ ] 2 ]

example : ∃ v, (buildIndex sampleOps).functionAtAddress 150 = some (100, v) := by
  refine ⟨[⟨sName (chars! "a::f"), 100, 1⟩], by decide⟩
example : (insertedFns sampleOps).map (·.address) = [100, 200] := by decide
example : ∃ r, findClosestFunction (buildIndex sampleOps) (chars! "b::f") = some r := by
  refine ⟨(sName (chars! "b::f"), 2), by decide⟩
example : IsTopSplit (chars! "a<b::c>::d") [(chars! "a<b::c>"), (chars! "d")] := by
  obtain ⟨p, h1, h2⟩ := scan_spec (chars! "a<b::c>::d") [] [] noTopSep_nil (by
    intro _ a b hab
    have := congrArg List.length hab
    simp at this; omega)
  refine ⟨by simp, by decide, ?_, ?_⟩
  · intro p hp
    simp only [List.mem_cons, List.not_mem_nil, or_false] at hp
    have hdec : ∀ (q : Str), (∀ i ≤ q.length, q.drop i = ':' :: ':' :: q.drop (i + 2) →
        depth (q.take i) ≠ 0) → NoTopSep q := by
      intro q hq a b hab
      have := hq a.length (by simp [hab]) (by simp [hab])
      simpa [hab] using this
    rcases hp with rfl | rfl
    · apply hdec; decide
    · apply hdec; decide
  · intro p hp
    have : p = (chars! "a<b::c>") := by simpa [List.dropLast] using hp
    subst this
    refine ⟨by decide, ?_⟩
    intro a b hab
    have hq : ∀ i ≤ ((chars! "a<b::c>") ++ [':']).length,
        ((chars! "a<b::c>") ++ [':']).drop i = ':' :: ':' :: ((chars! "a<b::c>") ++ [':']).drop (i + 2) →
        depth (((chars! "a<b::c>") ++ [':']).take i) ≠ 0 := by decide
    have := hq a.length (by rw [hab]; simp) (by rw [hab]; simp)
    rw [hab] at this
    simpa using this

/-- Decision procedure for the clean-segment predicate, used for the examples. -/
theorem clean_of_check (p : Str) (h1 : p ≠ []) (h2 : normalise p = p) (h3 : depth p = 0)
    (h4 : ∀ i ≤ (p ++ [':']).length, (p ++ [':']).drop i = ':' :: ':' :: (p ++ [':']).drop (i + 2) →
      depth ((p ++ [':']).take i) ≠ 0) : CleanSegment p :=
  ⟨h1, h2, h3, fun a b hab => by
    have := h4 a.length (by rw [hab]; simp) (by rw [hab]; simp)
    rw [hab] at this
    simpa using this⟩

example : CleanSegment (chars! "<T as core::fmt::Debug>") :=
  clean_of_check _ (by decide) (by decide) (by decide) (by decide)
example : CleanSegment (chars! "h0123456789abcdef") ∧ IsLegacyHash (chars! "h0123456789abcdef") :=
  ⟨clean_of_check _ (by decide) (by decide) (by decide) (by decide),
   (chars! "0123456789abcdef"), by decide, by decide, by decide⟩
example : (SymbolName.parse (chars! "a::b::f")).isSome = true := by decide
example : (sName (chars! "a::b::f")).matchesNameAndModule ['f'] [['b']] = true := by decide

end Rudy.Symbols
