import Verif.Model.Symbols
/- Ordering instances and index invariants for Verif.Props.Symbols. -/
namespace Rudy.Symbols
open Rudy

theorem cmp_eq_lex : SymbolName.cmp =
    compareLex (compareLex (compareOn SymbolName.lookupName) (compareOn SymbolName.modulePath))
      (compareOn SymbolName.fullPath) := by
  funext a b; rfl

instance : Std.TransCmp SymbolName.cmp := by
  rw [cmp_eq_lex]; infer_instance

theorem tcmp_eq_lex : TypeName.cmp = compareLex (compareOn TypeName.modul) (compareOn TypeName.name) := by
  funext a b; rfl

instance : Std.TransCmp TypeName.cmp := by
  rw [tcmp_eq_lex]; infer_instance

theorem cmp_eq_iff (a b : SymbolName) : a.cmp b = .eq ↔
    a.lookupName = b.lookupName ∧ a.modulePath = b.modulePath ∧ a.fullPath = b.fullPath := by
  simp [SymbolName.cmp, Ordering.then_eq_eq, Std.LawfulEqCmp.compare_eq_iff_eq, and_assoc]

/-- An inserted symbol: raw name, symbol, whether it was classified as a function. -/
structure Ev where
  raw : Str
  sym : Symbol
  isFn : Bool

/-- What one symbol-table entry contributes. -/
def evOf (isFunction : RawEntry → Bool) (df : Nat) (s : RawEntry) : Option Ev :=
  s.demangled.map fun d => ⟨s.raw, ⟨d, s.address, df⟩, isFunction s⟩

/-- Specification: the symbols inserted by a history, oldest first: every entry with a demangled
name; executable symbols are functions iff they are text symbols, mapped symbols iff they have a
size. -/
def inserted : List IndexOp → List Ev
  | [] => []
  | .binary es df :: ops => es.filterMap (evOf (·.isText) df) ++ inserted ops
  | .mapped es df :: ops => es.filterMap (evOf (fun s => decide (s.size > 0)) df) ++ inserted ops

/-- Specification: the function symbols inserted by a history. -/
def insertedFns (ops : List IndexOp) : List Symbol := ((inserted ops).filter (·.isFn)).map (·.sym)

def applyEv (ix : SymbolIndex) (e : Ev) : SymbolIndex :=
  let ix := { ix with
    symbolsByFile := ix.symbolsByFile.upsert compare e.sym.debugFile ⟨[]⟩
      (fun m => m.insert compare e.raw e.sym) }
  if e.isFn then
    { ix with
      functionsByAddress := ix.functionsByAddress.upsert compare e.sym.address [] (· ++ [e.sym])
      functions := ix.functions.upsert compare e.sym.name.lookupName ⟨[]⟩
        (fun m => m.insert SymbolName.cmp e.sym.name e.sym) }
  else
    { ix with
      symbols := ix.symbols.upsert compare e.sym.name.lookupName ⟨[]⟩
        (fun m => m.insert SymbolName.cmp e.sym.name e.sym) }

theorem indexOne_eq (isF : RawEntry → Bool) (df : Nat) (ix : SymbolIndex) (s : RawEntry) :
    indexOne isF df ix s = match evOf isF df s with
      | none => ix
      | some e => applyEv ix e := by
  unfold indexOne evOf
  cases s.demangled with
  | none => rfl
  | some d => simp only [Option.map, applyEv]

theorem fold_indexOne (isF : RawEntry → Bool) (df : Nat) (es : List RawEntry) (ix : SymbolIndex) :
    es.foldl (indexOne isF df) ix = (es.filterMap (evOf isF df)).foldl applyEv ix := by
  induction es generalizing ix with
  | nil => rfl
  | cons s es ih =>
    simp only [List.foldl_cons, indexOne_eq, List.filterMap_cons]
    cases evOf isF df s <;> simp [ih]

/-- A relation between an index and the events inserted so far that every insertion keeps and that
`touchFile` keeps holds for every history. -/
theorem history_induction (Inv : SymbolIndex → List Ev → Prop)
    (h0 : Inv {} [])
    (hins : ∀ ix l e, Inv ix l → Inv (applyEv ix e) (l ++ [e]))
    (htouch : ∀ ix l df, Inv ix l → Inv (touchFile ix df) l) (ops : List IndexOp) :
    Inv (buildIndex ops) (inserted ops) := by
  have fold : ∀ es ix l, Inv ix l → Inv (es.foldl applyEv ix) (l ++ es) := by
    intro es
    induction es with
    | nil => intro ix l h; simpa using h
    | cons e es ih =>
      intro ix l h
      have := ih _ _ (hins ix l e h)
      simpa using this
  have main : ∀ ops ix l, Inv ix l → Inv (ops.foldl applyOp ix) (l ++ inserted ops) := by
    intro ops
    induction ops with
    | nil => intro ix l h; simpa [inserted] using h
    | cons op ops ih =>
      intro ix l h
      cases op with
      | binary es df =>
        have h1 : Inv (applyOp ix (.binary es df)) (l ++ es.filterMap (evOf (·.isText) df)) := by
          simp only [applyOp, indexBinary, fold_indexOne]
          exact fold _ _ _ (htouch _ _ _ h)
        have := ih _ _ h1
        simpa [inserted] using this
      | mapped es df =>
        have h1 : Inv (applyOp ix (.mapped es df))
            (l ++ es.filterMap (evOf (fun s => decide (s.size > 0)) df)) := by
          simp only [applyOp, indexMappedFile, fold_indexOne]
          exact fold _ _ _ (htouch _ _ _ h)
        have := ih _ _ h1
        simpa [inserted] using this
  have := main ops {} [] h0
  rw [List.nil_append] at this
  exact this

def fnsOf (l : List Ev) : List Symbol := (l.filter (·.isFn)).map (·.sym)

theorem fnsOf_append (l : List Ev) (e : Ev) :
    fnsOf (l ++ [e]) = fnsOf l ++ if e.isFn then [e.sym] else [] := by
  simp only [fnsOf, List.filter_append, List.map_append]
  cases h : e.isFn <;> simp [h]

/-- Address map invariant. -/
def AddrInv (ix : SymbolIndex) (l : List Ev) : Prop :=
  ix.functionsByAddress.Sorted compare ∧
  ∀ a, ix.functionsByAddress.get compare a =
    let v := (fnsOf l).filter (fun s => s.address == a)
    if v.isEmpty then none else some v

theorem addrInv (ops : List IndexOp) : AddrInv (buildIndex ops) (inserted ops) := by
  apply history_induction AddrInv
  · refine ⟨OMap.sorted_empty _, ?_⟩
    intro a; simp [OMap.get, OMap.getL, fnsOf]
  · intro ix l e ⟨hs, hg⟩
    unfold AddrInv
    rw [fnsOf_append]
    unfold applyEv
    cases hf : e.isFn
    · simp only [Bool.false_eq_true, if_false, List.append_nil]
      exact ⟨hs, hg⟩
    · simp only [if_true]
      refine ⟨OMap.sorted_insert _ _ _ _ hs, ?_⟩
      intro a
      rw [OMap.get_upsert, hg, hg]
      simp only [List.filter_append]
      by_cases h : a = e.sym.address
      · subst h
        simp only [Std.ReflCmp.compare_self, if_true]
        cases hv : ((fnsOf l).filter (fun s => s.address == e.sym.address)) with
        | nil => simp
        | cons x xs => simp
      · have hne : compare a e.sym.address ≠ .eq := by
          intro hc; exact h (Std.LawfulEqCmp.eq_of_compare hc)
        have h' : (e.sym.address == a) = false := by
          simp; exact fun hh => h hh.symm
        simp [hne, h']
  · intro ix l df h; exact h

/-- Function name map invariant. -/
def FnInv (ix : SymbolIndex) (l : List Ev) : Prop :=
  (∀ n : Str, ix.functions.get compare n = none ↔ ∀ s ∈ fnsOf l, s.name.lookupName ≠ n) ∧
  (∀ (n : Str) m, ix.functions.get compare n = some m → m.Sorted SymbolName.cmp) ∧
  (∀ (n : Str) m, ix.functions.get compare n = some m →
    ∀ k s, (k, s) ∈ m.entries → s ∈ fnsOf l ∧ s.name.lookupName = n ∧ SymbolName.cmp k s.name = .eq) ∧
  (∀ n : SymbolName, ix.getFunction n =
    ((fnsOf l).filter (fun s => n.cmp s.name == .eq)).getLast?)

theorem fnInv_step (ix : SymbolIndex) (l : List Ev) (e : Ev) (h : FnInv ix l) : FnInv (applyEv ix e) (l ++ [e]) := by
  obtain ⟨h1, h1s, h2, h3⟩ := h
  unfold FnInv SymbolIndex.getFunction
  rw [fnsOf_append]
  unfold applyEv
  cases hf : e.isFn
  · simp only [Bool.false_eq_true, if_false, List.append_nil]
    exact ⟨h1, h1s, h2, h3⟩
  · simp only [if_true]
    have hgetD : ∀ k s, (k, s) ∈ (((ix.functions.get compare e.sym.name.lookupName).getD ⟨[]⟩).entries) →
        s ∈ fnsOf l ∧ s.name.lookupName = e.sym.name.lookupName ∧ SymbolName.cmp k s.name = .eq := by
      intro k s hm
      cases hg : ix.functions.get compare e.sym.name.lookupName with
      | none => rw [hg] at hm; simp at hm
      | some m => rw [hg] at hm; exact h2 _ m hg k s (by simpa using hm)
    have hgetS : ((ix.functions.get compare e.sym.name.lookupName).getD ⟨[]⟩).Sorted SymbolName.cmp := by
      cases hg : ix.functions.get compare e.sym.name.lookupName with
      | none => simp [OMap.Sorted]
      | some m => exact h1s _ m hg
    refine ⟨?_, ?_, ?_, ?_⟩
    · intro n
      rw [OMap.get_upsert]
      by_cases h : n = e.sym.name.lookupName
      · subst h
        simp only [Std.ReflCmp.compare_self, if_true]
        simp only [reduceCtorEq, false_iff]
        intro hh
        exact hh e.sym (by simp) rfl
      · have hne : compare n e.sym.name.lookupName ≠ .eq := by
          intro hc; exact h (Std.LawfulEqCmp.eq_of_compare hc)
        simp only [hne, if_false]
        rw [h1]
        constructor
        · intro hh s hs
          rcases List.mem_append.1 hs with hs | hs
          · exact hh s hs
          · simp at hs; subst hs; exact fun hc => h hc.symm
        · intro hh s hs
          exact hh s (List.mem_append_left _ hs)
    · intro n m hm
      rw [OMap.get_upsert] at hm
      split at hm
      · cases hm; exact OMap.sorted_insert _ _ _ _ hgetS
      · exact h1s n m hm
    · intro n m hm k s hks
      rw [OMap.get_upsert] at hm
      split at hm
      · rename_i hc
        have hn : n = e.sym.name.lookupName := Std.LawfulEqCmp.eq_of_compare hc
        subst hn
        cases hm
        rcases OMap.mem_insertL _ _ _ _ _ hks with hk | ⟨hk1, hk2⟩ | hk
        · obtain ⟨g1, g2, g3⟩ := hgetD k s hk
          exact ⟨List.mem_append_left _ g1, g2, g3⟩
        · simp at hk1; subst hk1
          exact ⟨by simp, rfl, Std.OrientedCmp.eq_symm hk2⟩
        · cases hk
          exact ⟨by simp, rfl, Std.ReflCmp.compare_self⟩
      · obtain ⟨g1, g2, g3⟩ := h2 n m hm k s hks
        exact ⟨List.mem_append_left _ g1, g2, g3⟩
    · intro n
      have h3n := h3 n
      unfold SymbolIndex.getFunction at h3n
      rw [OMap.get_upsert]
      simp only [List.filter_append]
      by_cases h : n.lookupName = e.sym.name.lookupName
      · have hc : compare n.lookupName e.sym.name.lookupName = .eq := by
          rw [h]; exact Std.ReflCmp.compare_self
        simp only [hc, if_true]
        rw [OMap.get_insert]
        by_cases h4 : n.cmp e.sym.name = .eq
        · simp [h4]
        · have h4' : (n.cmp e.sym.name == .eq) = false := by simpa using h4
          simp only [h4, if_false, h4', List.filter_cons, List.filter_nil, Bool.false_eq_true,
            List.append_nil]
          rw [← h3n, h]
          cases hg : ix.functions.get compare e.sym.name.lookupName with
          | none => simp [OMap.get, OMap.getL]
          | some m => simp
      · have hne : compare n.lookupName e.sym.name.lookupName ≠ .eq := by
          intro hc; exact h (Std.LawfulEqCmp.eq_of_compare hc)
        have h4' : (n.cmp e.sym.name == .eq) = false := by
          have : n.cmp e.sym.name ≠ .eq := by
            intro hc; exact h ((cmp_eq_iff _ _).1 hc).1
          simpa using this
        simp only [hne, if_false, h4', List.filter_cons, List.filter_nil, Bool.false_eq_true,
          List.append_nil]
        exact h3n

theorem fnInv (ops : List IndexOp) : FnInv (buildIndex ops) (inserted ops) := by
  apply history_induction FnInv
  · refine ⟨?_, ?_, ?_, ?_⟩ <;> simp [OMap.get, OMap.getL, fnsOf, SymbolIndex.getFunction]
  · exact fnInv_step
  · intro ix l df h; exact h

/-- Specification: the symbols inserted by a history that are not functions. -/
def insertedStatics (ops : List IndexOp) : List Symbol := ((inserted ops).filter (!·.isFn)).map (·.sym)

/-- The index with the roles of functions and other symbols exchanged. -/
def SymbolIndex.swap (ix : SymbolIndex) : SymbolIndex := { ix with functions := ix.symbols, symbols := ix.functions }

def Ev.swap (e : Ev) : Ev := { e with isFn := !e.isFn }

theorem FnInv.congr {ix ix' : SymbolIndex} (h : ix.functions = ix'.functions) {l : List Ev} (hi : FnInv ix l) : FnInv ix' l := by
  simpa only [FnInv, SymbolIndex.getFunction, h] using hi

theorem staticInv (ops : List IndexOp) : FnInv (buildIndex ops).swap ((inserted ops).map Ev.swap) := by
  apply history_induction fun ix l => FnInv ix.swap (l.map Ev.swap)
  · refine ⟨?_, ?_, ?_, ?_⟩ <;> simp [OMap.get, OMap.getL, fnsOf, SymbolIndex.getFunction, SymbolIndex.swap]
  · intro ix l e h
    rw [List.map_append]
    refine (fnInv_step _ _ (Ev.swap e) h).congr ?_
    unfold applyEv
    cases hf : e.isFn <;> simp [Ev.swap, hf, SymbolIndex.swap]
  · intro ix l df h; exact h

theorem fnsOf_swap (ops : List IndexOp) : fnsOf ((inserted ops).map Ev.swap) = insertedStatics ops := by
  simp only [fnsOf, insertedStatics, List.filter_map, List.map_map]
  rfl

/-- Per-file map invariant. -/
def FileInv (ix : SymbolIndex) (l : List Ev) : Prop :=
  ∀ (df : Nat) (raw : Str),
    ((ix.symbolsByFile.get compare df).bind (fun m => m.get compare raw)) =
    (((l.filter (fun e => e.sym.debugFile == df && e.raw == raw)).map (·.sym)).getLast?)

theorem fileInv (ops : List IndexOp) : FileInv (buildIndex ops) (inserted ops) := by
  apply history_induction FileInv
  · intro df raw; simp [OMap.get, OMap.getL]
  · intro ix l e h df raw
    have e1 : (applyEv ix e).symbolsByFile = ix.symbolsByFile.upsert compare e.sym.debugFile ⟨[]⟩
      (fun m => m.insert compare e.raw e.sym) := by
      unfold applyEv; cases e.isFn <;> rfl
    rw [e1, OMap.get_upsert]
    simp only [List.filter_append, List.map_append]
    by_cases hd : df = e.sym.debugFile
    · subst hd
      simp only [Std.ReflCmp.compare_self, if_true, Option.bind_some]
      rw [OMap.get_insert]
      by_cases hr : raw = e.raw
      · subst hr
        simp [Std.ReflCmp.compare_self]
      · have hne : compare raw e.raw ≠ .eq := by
          intro hc; exact hr (Std.LawfulEqCmp.eq_of_compare hc)
        have hr' : (e.raw == raw) = false := by simp; exact fun hh => hr hh.symm
        have hx := h e.sym.debugFile raw
        simp only [hne, if_false, hr', Bool.and_false, List.filter_cons, List.filter_nil,
          Bool.false_eq_true, List.map_nil, List.append_nil, ← hx]
        cases ix.symbolsByFile.get compare e.sym.debugFile with
        | none => simp [OMap.get, OMap.getL]
        | some m => simp
    · have hne : compare df e.sym.debugFile ≠ .eq := by
        intro hc; exact hd (Std.LawfulEqCmp.eq_of_compare hc)
      have hd' : (e.sym.debugFile == df) = false := by simp; exact fun hh => hd hh.symm
      simp only [hne, if_false, hd', Bool.false_and, List.filter_cons, List.filter_nil,
          Bool.false_eq_true, List.map_nil, List.append_nil]
      exact h df raw
  · intro ix l df' h df raw
    have hx := h df raw
    rw [← hx]
    unfold touchFile
    simp only
    rw [OMap.get_upsert]
    split
    · rename_i hc
      have : df = df' := Std.LawfulEqCmp.eq_of_compare hc
      subst this
      cases ix.symbolsByFile.get compare df with
      | none => simp [OMap.get, OMap.getL]
      | some m => simp
    · rfl

end Rudy.Symbols
