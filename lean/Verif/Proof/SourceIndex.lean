import Verif.Model.SourceIndex
import Verif.Proof.SymbolIndex
/- Ordering of paths and the invariants of the source index, for Verif.Props.SourceIndex. -/
namespace Rudy.SourceIndex
open Rudy Rudy.Address Rudy.Resolve Rudy.Symbols
open Rudy.Remap (Path Comp remapPath components)

theorem cmpComp_eq : cmpComp = compareLex (compareOn rank) (compareOn text) := by
  funext a b; rfl

instance : Std.TransCmp cmpComp := by rw [cmpComp_eq]; infer_instance

theorem comp_ext {a b : Comp} (h1 : rank a = rank b) (h2 : text a = text b) : a = b := by
  cases a <;> cases b <;> simp_all [rank, text]

instance : Std.LawfulEqCmp cmpComp where
  eq_of_compare := by
    intro a b h
    rw [cmpComp_eq, compareLex_eq_eq] at h
    exact comp_ext (Std.LawfulEqCmp.eq_of_compare (cmp := compare) h.1)
      (Std.LawfulEqCmp.eq_of_compare (cmp := compare) h.2)

instance : Std.TransCmp cmpPath := by unfold cmpPath; infer_instance
instance : Std.LawfulEqCmp cmpPath := by unfold cmpPath; infer_instance

theorem cmpPath_eq {a b : Path} : cmpPath a b = .eq ↔ a = b := Std.LawfulEqCmp.compare_eq_iff_eq

example : compare (none : Option Str) (some []) = .lt := rfl

theorem cmpKey_eq' : cmpKey = compareLex (fun a b => cmpPath a.1 b.1) (compareOn (·.2)) := by
  funext a b; rfl

instance : Std.TransCmp (fun a b : Path × Option Str => cmpPath a.1 b.1) where
  eq_swap := Std.OrientedCmp.eq_swap (cmp := cmpPath)
  isLE_trans := Std.TransCmp.isLE_trans (cmp := cmpPath)

instance : Std.TransCmp cmpKey := by rw [cmpKey_eq']; infer_instance

theorem cmpKey_eq {a b : Path × Option Str} : cmpKey a b = .eq ↔ a = b := by
  rw [cmpKey_eq', compareLex_eq_eq]
  constructor
  · rintro ⟨h1, h2⟩
    exact Prod.ext (cmpPath_eq.1 h1) (Std.LawfulEqCmp.eq_of_compare (cmp := compare) h2)
  · rintro rfl
    exact ⟨Std.ReflCmp.compare_self (cmp := cmpPath), Std.ReflCmp.compare_self (cmp := compare)⟩

/-! ### Sources of a file -/

/-- Inserting keys into an ordered set. -/
def insertAll (m : OMap Path Unit) (ps : List Path) : OMap Path Unit :=
  ps.foldl (fun m p => m.insert cmpPath p ()) m

theorem insertAll_sorted (ps : List Path) (m : OMap Path Unit) (h : m.Sorted cmpPath) :
    (insertAll m ps).Sorted cmpPath := by
  induction ps generalizing m with
  | nil => exact h
  | cons p ps ih => exact ih _ (OMap.sorted_insert cmpPath m p () h)

theorem insertAll_get (ps : List Path) (m : OMap Path Unit) (p : Path) :
    (insertAll m ps).get cmpPath p = if p ∈ ps then some () else m.get cmpPath p := by
  induction ps generalizing m with
  | nil => simp [insertAll]
  | cons q ps ih =>
    have := ih (m.insert cmpPath q ())
    simp only [insertAll, List.foldl_cons] at this ⊢
    rw [this, OMap.get_insert]
    by_cases h1 : p ∈ ps
    · simp [h1]
    · by_cases h2 : p = q
      · subst h2; simp
      · simp [h1, h2]

theorem keys_iff {ν : Type} (m : OMap Path ν) (p : Path) (h : m.Sorted cmpPath) :
    p ∈ m.entries.map (·.1) ↔ m.get cmpPath p ≠ none := by
  constructor
  · intro hp
    obtain ⟨⟨q, v⟩, he, rfl⟩ := List.mem_map.1 hp
    rw [OMap.get_of_mem cmpPath m q v h he]; simp
  · intro hp
    cases hg : m.get cmpPath p with
    | none => exact absurd hg hp
    | some v =>
      obtain ⟨k, hk, hm⟩ := OMap.mem_of_get cmpPath m p v hg
      rw [cmpPath_eq] at hk; subst hk
      exact List.mem_map.2 ⟨_, hm, rfl⟩

theorem keys_nodup {ν : Type} (m : OMap Path ν) (h : m.Sorted cmpPath) : (m.entries.map (·.1)).Nodup := by
  rw [List.nodup_iff_pairwise_ne, List.pairwise_map]
  refine List.Pairwise.imp ?_ h
  intro a b hab e
  rw [e, Std.ReflCmp.compare_self (cmp := cmpPath)] at hab
  cases hab

theorem fileSources_sorted (us : List SrcUnit) : (fileSources us).Sorted cmpPath :=
  insertAll_sorted _ _ (OMap.sorted_empty _)

theorem fileSources_keys (us : List SrcUnit) (p : Path) :
    p ∈ (fileSources us).entries.map (·.1) ↔ p ∈ us.flatMap unitSources := by
  rw [keys_iff _ _ (fileSources_sorted us)]
  have := insertAll_get (us.flatMap unitSources) ⟨[]⟩ p
  simp only [fileSources, insertAll] at this ⊢
  rw [this]
  split <;> simp_all [OMap.get, OMap.getL]

/-! ### The source map -/

/-- Adding a file under a list of keys. -/
def addKeys (m : OMap Path (List Nat)) (df : Nat) (ks : List Path) : OMap Path (List Nat) :=
  ks.foldl (fun m k => m.upsert cmpPath k [] (· ++ [df])) m

theorem addSources_keys (m : OMap Path (List Nat)) (df : Nat) (s : OMap Path Unit) :
    addSources m df s = addKeys m df (s.entries.map (·.1)) := by
  simp [addSources, addKeys, List.foldl_map]

theorem addKeys_sorted (ks : List Path) (m : OMap Path (List Nat)) (df : Nat) (h : m.Sorted cmpPath) :
    (addKeys m df ks).Sorted cmpPath := by
  induction ks generalizing m with
  | nil => exact h
  | cons p ps ih => exact ih _ (OMap.sorted_insert cmpPath m p _ h)

theorem addKeys_get (ks : List Path) (hn : ks.Nodup) (m : OMap Path (List Nat)) (df : Nat) (p : Path) :
    (addKeys m df ks).get cmpPath p =
      if p ∈ ks then some ((m.get cmpPath p).getD [] ++ [df]) else m.get cmpPath p := by
  induction ks generalizing m with
  | nil => simp [addKeys]
  | cons k ks ih =>
    rw [List.nodup_cons] at hn
    have := ih hn.2 (m.upsert cmpPath k [] (· ++ [df]))
    simp only [addKeys, List.foldl_cons] at this ⊢
    rw [this, OMap.get_upsert]
    by_cases h : p = k
    · subst h
      simp [hn.1]
    · simp [h]

/-- The source map of some debug files. -/
def sourceMap (units : Nat → List SrcUnit) (dfs : List Nat) (m : OMap Path (List Nat)) : OMap Path (List Nat) :=
  dfs.foldl (fun m df => addSources m df (fileSources (units df))) m

theorem sourceMap_sorted (units : Nat → List SrcUnit) (dfs : List Nat) (m : OMap Path (List Nat)) (h : m.Sorted cmpPath) :
    (sourceMap units dfs m).Sorted cmpPath := by
  induction dfs generalizing m with
  | nil => exact h
  | cons d dfs ih =>
    apply ih
    show (addSources m d (fileSources (units d))).Sorted cmpPath
    rw [addSources_keys]
    exact addKeys_sorted _ _ _ h

theorem sourceMap_get (units : Nat → List SrcUnit) (dfs : List Nat) (m : OMap Path (List Nat)) (p : Path) :
    (sourceMap units dfs m).get cmpPath p =
      if dfs.filter (fun df => decide (p ∈ (units df).flatMap unitSources)) = [] then m.get cmpPath p
      else some ((m.get cmpPath p).getD [] ++ dfs.filter (fun df => decide (p ∈ (units df).flatMap unitSources))) := by
  induction dfs generalizing m with
  | nil => simp [sourceMap]
  | cons d dfs ih =>
    have := ih (addSources m d (fileSources (units d)))
    simp only [sourceMap, List.foldl_cons] at this ⊢
    rw [this, addSources_keys, addKeys_get _ (keys_nodup _ (fileSources_sorted _)), List.filter_cons]
    by_cases h : p ∈ (units d).flatMap unitSources
    · have hk := (fileSources_keys (units d) p).2 h
      rw [if_pos hk]
      simp only [h, decide_true, if_true, List.cons_ne_nil, if_false, Option.getD_some, List.append_assoc,
        List.singleton_append]
      split
      · rename_i he; rw [he]
      · rfl
    · have hk := fun hk => h ((fileSources_keys (units d) p).1 hk)
      rw [if_neg hk]
      simp [h]

end Rudy.SourceIndex
