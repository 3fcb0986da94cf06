import Verif.Proof.Address
/-
Property theorems C01-C04 about the function address index.

Specification used in the statements: a function `f` contains `a` in its absolute range iff
`f.absStart ≤ a ∧ a < f.absEnd`, in its relative range iff `f.relStart ≤ a ∧ a < f.relEnd`; it
overlaps the query `[qs, qe)` iff `f.absStart < qe ∧ qs < f.absEnd`. `Perm` is equality as multisets.
-/
namespace Rudy.Address

/-- C01: exact absolute point lookup, for every tree `AddressTree::new` may build. -/
theorem C01_query_absolute_exact (info : List FnInfo) (t : AddressTree) (hb : Built info t)
    (a : Nat) :
    (t.queryAddress a true).Perm
      (info.filter (fun f => decide (f.absStart ≤ a ∧ a < f.absEnd))) := by
  obtain ⟨s₁, s₂, p1, h1, p2, h2, rfl⟩ := hb
  have := queryRec_perm true a (build true s₁) (build_wf true s₁ h1) []
  rw [build_items] at this
  simp only [AddressTree.queryAddress, if_true]
  exact this.trans (p1.filter _)

/-- C02: exact relative point lookup. -/
theorem C02_query_relative_exact (info : List FnInfo) (t : AddressTree) (hb : Built info t)
    (a : Nat) :
    (t.queryAddress a false).Perm
      (info.filter (fun f => decide (f.relStart ≤ a ∧ a < f.relEnd))) := by
  obtain ⟨s₁, s₂, p1, h1, p2, h2, rfl⟩ := hb
  have := queryRec_perm false a (build false s₂) (build_wf false s₂ h2) []
  rw [build_items] at this
  simp only [AddressTree.queryAddress, Bool.false_eq_true, if_false]
  exact this.trans ((p2.trans p1).filter _)

/-- C03: exact range lookup, absolute. -/
theorem C03_query_range_absolute_exact (info : List FnInfo) (t : AddressTree) (hb : Built info t)
    (qs qe : Nat) :
    (t.queryAddressRange qs qe true).Perm
      (info.filter (fun f => decide (f.absStart < qe ∧ qs < f.absEnd))) := by
  obtain ⟨s₁, s₂, p1, h1, p2, h2, rfl⟩ := hb
  have := queryIntervalRec_perm true qs qe (build true s₁) (build_wf true s₁ h1) []
  rw [build_items] at this
  simp only [AddressTree.queryAddressRange, if_true]
  exact this.trans (p1.filter _)

/-- C03: exact range lookup, relative. -/
theorem C03_query_range_relative_exact (info : List FnInfo) (t : AddressTree) (hb : Built info t)
    (qs qe : Nat) :
    (t.queryAddressRange qs qe false).Perm
      (info.filter (fun f => decide (f.relStart < qe ∧ qs < f.relEnd))) := by
  obtain ⟨s₁, s₂, p1, h1, p2, h2, rfl⟩ := hb
  have := queryIntervalRec_perm false qs qe (build false s₂) (build_wf false s₂ h2) []
  rw [build_items] at this
  simp only [AddressTree.queryAddressRange, Bool.false_eq_true, if_false]
  exact this.trans ((p2.trans p1).filter _)

/-- C04: point lookups do not depend on the discovery order (nor on the choices of the unstable
sort). -/
theorem C04_query_order_independent (info info' : List FnInfo) (t t' : AddressTree)
    (hp : info.Perm info') (hb : Built info t) (hb' : Built info' t') (a : Nat) (absolute : Bool) :
    (t.queryAddress a absolute).Perm (t'.queryAddress a absolute) := by
  cases absolute
  · exact ((C02_query_relative_exact info t hb a).trans (hp.filter _)).trans
      (C02_query_relative_exact info' t' hb' a).symm
  · exact ((C01_query_absolute_exact info t hb a).trans (hp.filter _)).trans
      (C01_query_absolute_exact info' t' hb' a).symm

/-- C04: range lookups do not depend on the discovery order. -/
theorem C04_query_range_order_independent (info info' : List FnInfo) (t t' : AddressTree)
    (hp : info.Perm info') (hb : Built info t) (hb' : Built info' t') (qs qe : Nat)
    (absolute : Bool) :
    (t.queryAddressRange qs qe absolute).Perm (t'.queryAddressRange qs qe absolute) := by
  cases absolute
  · exact ((C03_query_range_relative_exact info t hb qs qe).trans (hp.filter _)).trans
      (C03_query_range_relative_exact info' t' hb' qs qe).symm
  · exact ((C03_query_range_absolute_exact info t hb qs qe).trans (hp.filter _)).trans
      (C03_query_range_absolute_exact info' t' hb' qs qe).symm

/-- Every list of functions has a tree (so `Built info t` is satisfiable for every `info`). -/
theorem C01_built_exists (info : List FnInfo) : ∃ t, Built info t := ⟨new info, built_new info⟩

/-- Three functions, overlapping and nested, relative order reversed. -/
def sampleInfos : List FnInfo :=
  [ ⟨300, 320, 0, 20, 0, 3⟩, ⟨100, 400, 50, 350, 0, 1⟩, ⟨100, 110, 20, 30, 0, 2⟩ ]

/- The hypotheses of C01-C04 are met by a concrete non-trivial case, and lookups are non-empty. -/
example : Built sampleInfos (new sampleInfos) := built_new _
example : sampleInfos.Perm sampleInfos.reverse := (List.reverse_perm _).symm
example : (sampleInfos.filter (fun f => decide (f.absStart ≤ 305 ∧ 305 < f.absEnd))).map (·.name)
    = [3, 1] := by decide
example : ∃ f ∈ (new sampleInfos).queryAddress 305 true, f.name = 3 := by
  refine ⟨⟨300, 320, 0, 20, 0, 3⟩, ?_, rfl⟩
  rw [(C01_query_absolute_exact _ _ (built_new _) 305).mem_iff]; decide

end Rudy.Address
