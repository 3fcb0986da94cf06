import Verif.Proof.TypeMono
import Verif.Model.Variables
/-
Which types are known by name only, and what they are resolved to.
-/
namespace Rudy.TypeRes
open Rudy.Dwarf Rudy.Parse Rudy.Layout
variable {typedef : Nat → Option Layout} {db : Db}

theorem option_not_alias {sh : Sh} {e : Nat} {l : Layout} (h : optionDef sh db e = .ok l) : ∀ n, l ≠ .alias n := by
  simp only [optionDef, Res.bind_eq_ok] at h
  obtain ⟨_, _, _, _, h⟩ := h
  cases h; intro n h; cases h

theorem result_not_alias {sh : Sh} {e : Nat} {l : Layout} (h : resultDef sh db e = .ok l) : ∀ n, l ≠ .alias n := by
  simp only [resultDef, Res.bind_eq_ok] at h
  obtain ⟨_, _, h⟩ := h
  cases h; intro n h; cases h

theorem smart_not_alias {sh : Sh} {v : SmartPtr} {e : Nat} {l : Layout} (h : smartPtr sh v db e = .ok l) : ∀ n, l ≠ .alias n := by
  simp only [smartPtr, Res.bind_eq_ok] at h
  repeat (first | (cases h; intro n h; cases h; done) | (obtain ⟨_, _, h⟩ := h))

theorem tuple_not_alias {sh : Sh} {e : Nat} {l : Layout} (h : tupleType sh db e = .ok l) : ∀ n, l ≠ .alias n := by
  simp only [tupleType, Res.bind_eq_ok] at h
  repeat (first | (cases h; intro n h; cases h; done) | (obtain ⟨_, _, h⟩ := h))

theorem btree_not_alias {sh : Sh} {e : Nat} {l : Layout} (h : btreeMap sh db e = .ok l) : ∀ n, l ≠ .alias n := by
  simp only [btreeMap, Res.bind_eq_ok] at h
  repeat (first | (cases h; intro n h; cases h; done) | (obtain ⟨_, _, h⟩ := h))

theorem map_not_alias {sh : Sh} {v : MapVariant} {e : Nat} {l : Layout} (h : TypeRes.mapType sh v db e = .ok l) : ∀ n, l ≠ .alias n := by
  simp only [TypeRes.mapType, Res.bind_eq_ok] at h
  obtain ⟨_, _, h⟩ := h
  cases v with
  | hashMap =>
    simp only [Res.bind_eq_ok] at h
    obtain ⟨_, _, h⟩ := h
    cases h; intro n h; cases h
  | btreeMap => exact btree_not_alias h
  | indexMap => cases h

theorem primitive_not_alias {sh : Sh} {e : Nat} {k l : Layout} (h : primitive sh k db e = some (.ok l)) : ∀ n, l ≠ .alias n := by
  cases k <;> simp only [primitive, Option.some.injEq, Res.bind_eq_ok, Res.ok.injEq, reduceCtorEq] at h
  all_goals repeat (first | (exact tuple_not_alias h) | (subst h; intro n h; cases h; done) | (obtain ⟨_, _, h⟩ := h))

theorem builtin_not_alias {sh : Sh} {e : Nat} {t : TypeDef} (h : builtin sh typedef db e = .ok (some t)) : ∀ n, t.layout ≠ .alias n := by
  simp only [builtin] at h
  split at h
  · cases h
  · split at h
    · rename_i r hp
      cases r with
      | ok l => cases h; exact primitive_not_alias hp
      | _ => cases h
    · split at h <;> simp only [Res.bind_eq_ok, Res.ok.injEq, Option.some.injEq, reduceCtorEq] at h
      · obtain ⟨l, h1, rfl⟩ := h; exact option_not_alias h1
      · obtain ⟨l, h1, rfl⟩ := h; intro n h; cases h
      · obtain ⟨l, h1, rfl⟩ := h; intro n h; cases h
      · obtain ⟨l, h1, rfl⟩ := h; exact map_not_alias h1
      · obtain ⟨l, h1, rfl⟩ := h; exact result_not_alias h1
      · obtain ⟨l, h1, rfl⟩ := h; exact smart_not_alias h1

/-- The type of a variable is in the end the one its entry refers to, be it known by name only at first or not. -/
theorem fullType_shallow {d e : Nat} {t : TypeDef} (h : shallow typedef db (d + 1) e = .ok t) :
    Vars.fullType (resolveType typedef db (d + 1)) t = resolveType typedef db (d + 1) e := by
  simp only [shallow, Res.bind_eq_ok] at h
  obtain ⟨o, h1, h2⟩ := h
  cases o with
  | some t' =>
    cases h2
    have h3 : resolveType typedef db d e = .ok t := by simp only [resolveType, h1, Res.bind_ok]
    rw [((resolveType_le typedef db d (d + 1) (by omega) e).eq (by rw [h3]; simp)).trans h3]
    have h4 := builtin_not_alias h1
    obtain ⟨loc, l⟩ := t
    cases l with
    | «alias» n => exact absurd rfl (h4 n)
    | _ => rfl
  | none => cases h2; rfl

/-- Whenever a type can be resolved, it is at least known by name. -/
theorem shallow_of_resolveType {d e : Nat} {td : TypeDef} (h : resolveType typedef db d e = .ok td) :
    ∃ t, shallow typedef db (d + 1) e = .ok t := by
  simp only [resolveType, Res.bind_eq_ok] at h
  obtain ⟨o, h5, _⟩ := h
  simp only [shallow, h5, Res.bind_ok]
  cases o <;> exact ⟨_, rfl⟩

end Rudy.TypeRes
