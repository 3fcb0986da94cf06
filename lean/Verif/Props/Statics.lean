import Verif.Props.SourceIndex
import Verif.Proof.Discovery
/-
C90: statics by name. C91: symbol names as the linker writes them on Linux and macOS.
-/
namespace Rudy.SourceIndex
open Rudy Rudy.Symbols
open Rudy.Discovery (SameName sameName_iff getLast_filter)

/-! ### C90: statics by name -/

/-- The static is in force after a history of symbol tables: a symbol that is not a function was read, and none of the same
full name after it. -/
def StaticInForce (ops : List IndexOp) (s : Symbol) : Prop :=
  ∃ before after, insertedStatics ops = before ++ s :: after ∧ ∀ t ∈ after, ¬ SameName t.name s.name

/-- One symbol comes before another: by the path of their modules, then by their full names. -/
def Earlier (a b : Symbol) : Prop :=
  compare a.name.modulePath b.name.modulePath = .lt ∨
    (a.name.modulePath = b.name.modulePath ∧ compare a.name.fullPath b.name.fullPath = .lt)

theorem earlier_iff (a b : Symbol) (h : a.name.lookupName = b.name.lookupName) :
    Earlier a b ↔ a.name.cmp b.name = .lt := by
  simp [Earlier, SymbolName.cmp, h, Std.ReflCmp.compare_self, Ordering.then_eq_lt]

theorem static_get (ops : List IndexOp) (n : Str) (m : OMap SymbolName Symbol)
    (h : (buildIndex ops).symbols.get compare n = some m) (s : Symbol) :
    (∃ k, (k, s) ∈ m.entries) ↔ StaticInForce ops s ∧ s.name.lookupName = n := by
  obtain ⟨h1, h2, h3, h4⟩ := staticInv ops
  rw [fnsOf_swap] at h1 h3 h4
  have hs := h2 n m h
  constructor
  · rintro ⟨k, hk⟩
    obtain ⟨g1, g2, g3⟩ := h3 n m h k s hk
    have hg := OMap.get_of_mem SymbolName.cmp m k s hs hk
    have h5 := h4 k
    have hkn : k.lookupName = n := ((cmp_eq_iff _ _).1 g3).1.trans g2
    have : (buildIndex ops).swap.getFunction k = some s := by
      simp only [SymbolIndex.getFunction, SymbolIndex.swap, hkn, h, hg]
    rw [this] at h5
    obtain ⟨b, c, e1, e2, e3⟩ := (getLast_filter _ _ _).1 h5.symm
    refine ⟨⟨b, c, e1, fun t ht hst => ?_⟩, g2⟩
    have h6 := e3 t ht
    have h7 : k.cmp t.name = .eq := (sameName_iff _ _).1 (by
      obtain ⟨a1, a2, a3⟩ := (sameName_iff _ _).2 g3
      obtain ⟨b1, b2, b3⟩ := hst
      exact ⟨a1.trans b1.symm, a2.trans b2.symm, a3.trans b3.symm⟩)
    rw [h7] at h6
    simp at h6
  · rintro ⟨⟨b, c, e1, e2⟩, hn⟩
    have h5 := h4 s.name
    rw [(getLast_filter (fun x : Symbol => s.name.cmp x.name == .eq) _ s).2 ⟨b, c, e1, by simp [Std.ReflCmp.compare_self],
      fun t ht => by
        have := e2 t ht
        rw [Bool.eq_false_iff]
        intro hh
        exact this ((sameName_iff _ _).2 (Std.OrientedCmp.eq_symm (by simpa using hh)))⟩] at h5
    simp only [SymbolIndex.getFunction, SymbolIndex.swap, hn, h] at h5
    obtain ⟨k', _, hk⟩ := OMap.mem_of_get _ _ _ _ h5
    exact ⟨k', hk⟩

/-- C90: a name finds a static exactly if it is a static of that name (the last part of its path) read from the symbol tables, and no
other static of that name comes before it. -/
theorem C90_found_iff (w : World) (ops : List IndexOp) (hw : w.index.symbols = buildIndex ops) (n : Str) (s : Symbol) :
    w.findSymbol n = some s ↔ StaticInForce ops s ∧ s.name.lookupName = n ∧
      ∀ t, StaticInForce ops t → t.name.lookupName = n → t = s ∨ Earlier s t := by
  obtain ⟨h1, h2, h3, _⟩ := staticInv ops
  rw [fnsOf_swap] at h1 h3
  simp only [World.findSymbol, hw]
  cases h : (buildIndex ops).symbols.get compare n with
  | none =>
    simp only [reduceCtorEq, false_iff]
    rintro ⟨⟨b, c, e, _⟩, hn, _⟩
    exact (h1 n).1 h s (by show s ∈ insertedStatics ops; rw [e]; simp) hn
  | some m =>
    have hs : m.Sorted SymbolName.cmp := h2 n m h
    have hg := static_get ops n m h
    simp only
    obtain ⟨es⟩ := m
    cases es with
    | nil =>
      simp only [List.head?_nil, Option.map_none, reduceCtorEq, false_iff]
      rintro ⟨g1, g2, _⟩
      obtain ⟨k, hk⟩ := (hg s).2 ⟨g1, g2⟩
      cases hk
    | cons e es =>
      have key : ∀ k x, (k, x) ∈ e :: es → k.cmp x.name = .eq := fun k x hk => (h3 n _ h k x hk).2.2
      have first : ∀ t, StaticInForce ops t → t.name.lookupName = n → t = e.2 ∨ Earlier e.2 t := by
        intro t ht hn
        obtain ⟨k, hk⟩ := (hg t).2 ⟨ht, hn⟩
        rcases List.mem_cons.1 hk with hk | hk
        · exact Or.inl (by rw [← hk])
        · refine Or.inr ((earlier_iff _ _ ?_).2 ?_)
          · exact ((hg e.2).1 ⟨e.1, by simp⟩).2.trans hn.symm
          · have hlt : e.1.cmp k = .lt := by
              have := (List.pairwise_cons.1 hs).1 _ hk
              simpa using this
            have ha := Std.OrientedCmp.eq_symm (key e.1 e.2 (by simp))
            have hb := key k t (by simp [hk])
            exact Std.TransCmp.lt_of_lt_of_eq (Std.TransCmp.lt_of_eq_of_lt ha hlt) hb
      simp only [List.head?_cons, Option.map_some, Option.some.injEq]
      constructor
      · rintro rfl
        obtain ⟨g1, g2⟩ := (hg e.2).1 ⟨e.1, by simp⟩
        exact ⟨g1, g2, first⟩
      · rintro ⟨g1, g2, g3⟩
        obtain ⟨i1, i2⟩ := (hg e.2).1 ⟨e.1, by simp⟩
        rcases first s g1 g2 with hh | hh
        · exact hh.symm
        · rcases g3 e.2 i1 i2 with hh' | hh'
          · exact hh'
          · have a1 := (earlier_iff _ _ (i2.trans g2.symm)).1 hh
            have a2 := (earlier_iff _ _ (g2.trans i2.symm)).1 hh'
            rw [Std.OrientedCmp.gt_of_lt a1] at a2
            cases a2

/-- C90: a name finds nothing exactly if no static has it; a function is never found. -/
theorem C90_none_iff (w : World) (ops : List IndexOp) (hw : w.index.symbols = buildIndex ops) (n : Str) :
    w.findSymbol n = none ↔ ∀ s ∈ insertedStatics ops, s.name.lookupName ≠ n := by
  obtain ⟨h1, h2, h3, h4⟩ := staticInv ops
  rw [fnsOf_swap] at h1 h3 h4
  rw [← h1 n]
  simp only [World.findSymbol, hw, SymbolIndex.swap]
  cases h : (buildIndex ops).symbols.get compare n with
  | none => simp
  | some m =>
    simp only [reduceCtorEq, iff_false]
    obtain ⟨es⟩ := m
    cases es with
    | cons e es => simp
    | nil =>
      exfalso
      have : (buildIndex ops).symbols.get compare n ≠ none := by rw [h]; simp
      apply this
      rw [show (buildIndex ops).symbols = (buildIndex ops).swap.functions from rfl, h1 n]
      intro s hs hn
      have h5 := h4 s.name
      simp only [SymbolIndex.getFunction, SymbolIndex.swap, hn, h] at h5
      have := List.getLast?_eq_none_iff.1 (h5.symm.trans rfl)
      rw [List.filter_eq_nil_iff] at this
      exact this s hs (by simp [Std.ReflCmp.compare_self])

/-- C90: in particular what was found is a static of the program, not a function, with its address. -/
theorem C90_sound (w : World) (ops : List IndexOp) (hw : w.index.symbols = buildIndex ops) (n : Str) (s : Symbol)
    (h : w.findSymbol n = some s) : s ∈ insertedStatics ops ∧ s.name.lookupName = n := by
  obtain ⟨⟨b, c, e, _⟩, hn, _⟩ := (C90_found_iff w ops hw n s).1 h
  exact ⟨by rw [e]; simp, hn⟩

/-- A data symbol and a function of the same name, and a second data symbol of that name in another module. -/
def twoStatics : List IndexOp :=
  [.binary
    [⟨chars! "a", SymbolName.parse (chars! "app::net::LIMIT"), 0x2000, false, 8⟩,
     ⟨chars! "b", SymbolName.parse (chars! "app::disk::LIMIT"), 0x2008, false, 8⟩,
     ⟨chars! "c", SymbolName.parse (chars! "app::a::LIMIT"), 0x1000, true, 8⟩] 0]

/-- The program of `twoStatics`. -/
def twoStaticsWorld : World :=
  { index := { symbols := buildIndex twoStatics },
    units := fun _ => [], fns := fun _ => ⟨{}, fun _ => none⟩ }

/-- The hypotheses of C90 are met: of two statics the first by module is found, and not the function before both. -/
example : (twoStaticsWorld.findSymbol (chars! "LIMIT")).map (·.address) = some 0x2008 := by with_unfolding_all decide

/-- C90: a static is only found by the last part of its path; asked for by its path, which would say which one is meant, it is not found. -/
theorem C90_path_not_found : twoStaticsWorld.findSymbol (chars! "net::LIMIT") = none ∧
    twoStaticsWorld.findSymbol (chars! "app::net::LIMIT") = none := by
  constructor <;> with_unfolding_all decide

/-! ### C91: symbol names on Linux and macOS -/

/-- C91: the additional underscore macOS puts before a mangled name makes no difference. -/
theorem C91_underscore (dm : Str → Option Str) (r : Str) :
    demangle dm ('_' :: '_' :: 'Z' :: r) = demangle dm ('_' :: 'Z' :: r) := by
  simp [demangle, stripUnderscore]

/-- C91: any other name is given to the demangler as it is. -/
theorem C91_as_it_is (dm : Str → Option Str) (raw : Str) (h : ¬ ['_', '_', 'Z'] <+: raw) :
    demangle dm raw = (dm raw).bind SymbolName.parse := by
  simp only [demangle, stripUnderscore, h, if_false]
  cases dm raw <;> rfl

/-- The entry of the macOS symbol table for an entry of a Linux one. -/
def macOf (dm : Str → Option Str) (e : RawEntry) : RawEntry :=
  { e with raw := '_' :: e.raw, demangled := demangle dm ('_' :: e.raw) }

/-- The same for a history of symbol tables. -/
def macOp (dm : Str → Option Str) : IndexOp → IndexOp
  | .binary es df => .binary (es.map (macOf dm)) df
  | .mapped es df => .mapped (es.map (macOf dm)) df

/-- The entries of a history. -/
def entriesOf : IndexOp → List RawEntry
  | .binary es _ => es
  | .mapped es _ => es

/-- An entry whose name is known as `demangle` says, and whose name is mangled the way the code strips underscores from, or the demangler
itself does not mind the underscore. -/
def Plain (dm : Str → Option Str) (e : RawEntry) : Prop :=
  e.demangled = demangle dm e.raw ∧ demangle dm ('_' :: e.raw) = demangle dm e.raw

/-- Names mangled the older way are plain whatever the demangler does. -/
theorem plain_of_Z (dm : Str → Option Str) (e : RawEntry) (r : Str) (h : e.raw = '_' :: 'Z' :: r) (hd : e.demangled = demangle dm e.raw) :
    Plain dm e := ⟨hd, by rw [h]; exact C91_underscore dm r⟩

theorem evOf_mac (dm : Str → Option Str) (f : RawEntry → Bool) (hf : ∀ e, f (macOf dm e) = f e) (df : Nat) (es : List RawEntry)
    (hp : ∀ e ∈ es, Plain dm e) :
    (es.map (macOf dm)).filterMap (evOf f df) = (es.filterMap (evOf f df)).map fun x => { x with raw := '_' :: x.raw } := by
  induction es with
  | nil => rfl
  | cons e es ih =>
    have h1 : evOf f df (macOf dm e) = (evOf f df e).map fun x => { x with raw := '_' :: x.raw } := by
      have := hp e (by simp)
      simp only [evOf, hf]
      simp only [macOf, this.2, ← this.1]
      cases e.demangled <;> rfl
    simp only [List.map_cons, List.filterMap_cons, h1]
    cases evOf f df e with
    | none => exact ih fun x hx => hp x (by simp [hx])
    | some x =>
      simp only [Option.map_some, List.map_cons]
      rw [ih fun x hx => hp x (by simp [hx])]

theorem inserted_mac (dm : Str → Option Str) (ops : List IndexOp) (hp : ∀ op ∈ ops, ∀ e ∈ entriesOf op, Plain dm e) :
    inserted (ops.map (macOp dm)) = (inserted ops).map fun x => { x with raw := '_' :: x.raw } := by
  induction ops with
  | nil => rfl
  | cons op ops ih =>
    have h2 := ih fun o ho => hp o (by simp [ho])
    have h1 := hp op (by simp)
    cases op with
    | binary es df =>
      simp only [List.map_cons, macOp, inserted, List.map_append, h2]
      rw [evOf_mac dm (·.isText) (fun _ => rfl) df es h1]
    | mapped es df =>
      simp only [List.map_cons, macOp, inserted, List.map_append, h2]
      rw [evOf_mac dm (fun s => decide (s.size > 0)) (fun _ => rfl) df es h1]

/-- C91: a program built for macOS is indexed as the same program built for Linux: the same functions and statics are found by name and by
address, and each symbol of a file under its own, longer name. -/
theorem C91_same_index (dm : Str → Option Str) (ops : List IndexOp) (hp : ∀ op ∈ ops, ∀ e ∈ entriesOf op, Plain dm e) :
    insertedFns (ops.map (macOp dm)) = insertedFns ops ∧ insertedStatics (ops.map (macOp dm)) = insertedStatics ops ∧
    (∀ n, (buildIndex (ops.map (macOp dm))).getFunction n = (buildIndex ops).getFunction n) ∧
    (∀ df raw, ((buildIndex (ops.map (macOp dm))).symbolsByFile.get compare df).bind (·.get compare ('_' :: raw)) =
      ((buildIndex ops).symbolsByFile.get compare df).bind (·.get compare raw)) := by
  have h := inserted_mac dm ops hp
  have hf : insertedFns (ops.map (macOp dm)) = insertedFns ops := by
    simp only [insertedFns, h, List.filter_map, List.map_map]; rfl
  refine ⟨hf, by simp only [insertedStatics, h, List.filter_map, List.map_map]; rfl, fun n => ?_, fun df raw => ?_⟩
  · rw [C06_get_function_last_wins, C06_get_function_last_wins, hf]
  · have h1 := C06_symbols_by_file_last_wins (ops.map (macOp dm)) df ('_' :: raw)
    have h2 := C06_symbols_by_file_last_wins ops df raw
    rw [h1, h2, h]
    simp only [List.filter_map, List.map_map]
    congr 2

/-- The two entries of a table for Linux are plain for a demangler that only knows one name. -/
example : ∀ e ∈ ([⟨chars! "_ZN3app3runE", SymbolName.parse (chars! "app::run"), 0x1000, true, 8⟩] : List RawEntry),
    Plain (fun s => if s = chars! "_ZN3app3runE" then some (chars! "app::run") else none) e := by
  intro e he
  simp only [List.mem_singleton] at he
  subst he
  exact plain_of_Z _ _ _ rfl (by with_unfolding_all decide)

end Rudy.SourceIndex
