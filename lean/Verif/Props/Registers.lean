import Verif.Model.Calls
import Mathlib.Data.List.Nodup
/-
C73: registers.
-/
namespace Rudy.Calls
open Rudy Rudy.Server Rudy.Expr Rudy.Layout Rudy.Data

/-- C73: asking for a register by number gives the contents of the register with that number in the first set that is long
enough, and an error if there is none or if the register has fewer than 64 bits. -/
theorem C73_index (sets : List (List Reg)) (i v : Nat) :
    readRegisterByIndex sets i = some v ↔
      ∃ before set after r, sets = before ++ set :: after ∧ (∀ s ∈ before, s.length ≤ i) ∧ set[i]? = some r ∧
        8 ≤ r.bytes.length ∧ v = leNat (r.bytes.take 8) := by
  induction sets with
  | nil => simp [readRegisterByIndex]
  | cons s rest ih =>
    have skip : s.length ≤ i → (readRegisterByIndex (s :: rest) i = readRegisterByIndex rest i) := by
      intro hs
      rw [readRegisterByIndex, List.getElem?_eq_none hs]
      split <;> rfl
    constructor
    · intro h
      by_cases hs : s.length ≤ i
      · rw [skip hs] at h
        obtain ⟨b, st, a, r, h1, h2, h3⟩ := ih.1 h
        exact ⟨s :: b, st, a, r, by rw [h1]; rfl, by simpa using ⟨hs, h2⟩, h3⟩
      · rw [readRegisterByIndex, if_pos (by omega), List.getElem?_eq_getElem (by omega)] at h
        simp only [firstWord] at h
        split at h
        · rename_i h8
          exact ⟨[], s, rest, s[i], rfl, by simp, List.getElem?_eq_getElem (by omega), h8, by simpa using h.symm⟩
        · simp at h
    · rintro ⟨b, st, a, r, h1, h2, h3, h4, rfl⟩
      cases b with
      | nil =>
        obtain ⟨rfl, rfl⟩ := List.cons.inj h1
        have hi : i < s.length := by
          by_contra hn
          rw [List.getElem?_eq_none (by omega)] at h3
          simp at h3
        rw [readRegisterByIndex, if_pos (by omega), h3]
        simp [firstWord, h4]
      | cons s' b =>
        obtain ⟨rfl, rfl⟩ := List.cons.inj h1
        rw [skip (h2 s (by simp))]
        exact ih.2 ⟨b, st, a, r, rfl, fun x hx => h2 x (by simp [hx]), h3, h4, rfl⟩

/-- C73: asking for a register by name gives the contents of the first register with that name. -/
theorem C73_name (sets : List (List Reg)) (name : Str) (v : Nat) :
    readRegister sets name = some v ↔
      ∃ before r after, sets.flatten = before ++ r :: after ∧ (∀ x ∈ before, x.name ≠ name) ∧ r.name = name ∧ v = leNat (r.bytes.take 8) := by
  unfold readRegister
  rw [Option.map_eq_some_iff]
  constructor
  · rintro ⟨r, h, rfl⟩
    rw [List.find?_eq_some_iff_append] at h
    obtain ⟨h1, b, a, h2, h3⟩ := h
    exact ⟨b, r, a, h2, fun x hx => by simpa using h3 x hx, by simpa using h1, rfl⟩
  · rintro ⟨b, r, a, h1, h2, h3, rfl⟩
    refine ⟨r, ?_, rfl⟩
    rw [List.find?_eq_some_iff_append]
    exact ⟨by simpa using h3, b, a, h1, fun x hx => by simpa using h2 x hx⟩

/-- C73: if the first set is in the order of the numbering used for the index, the register is the one meant. -/
theorem C73_numbered (numbering : Nat → Option Str) (set : List Reg) (rest : List (List Reg)) (hnum : ∀ i r, set[i]? = some r → numbering i = some r.name)
    (hd : (set.map (·.name)).Nodup) (h8 : ∀ r ∈ set, 8 ≤ r.bytes.length) (i : Nat) (hi : i < set.length) :
    ∃ n, numbering i = some n ∧ readRegisterByIndex (set :: rest) i = readRegister (set :: rest) n ∧ readRegister (set :: rest) n ≠ none := by
  have hr : set[i]? = some set[i] := List.getElem?_eq_getElem hi
  refine ⟨set[i].name, hnum i _ hr, ?_, ?_⟩
  · have h1 : readRegisterByIndex (set :: rest) i = some (leNat (set[i].bytes.take 8)) :=
      (C73_index _ _ _).2 ⟨[], set, rest, set[i], rfl, by simp, hr, h8 _ (List.getElem_mem hi), rfl⟩
    rw [h1]
    symm
    refine (C73_name _ _ _).2 ⟨set.take i, set[i], set.drop (i + 1) ++ rest.flatten, ?_, ?_, rfl, rfl⟩
    · rw [List.flatten_cons, ← List.cons_append, ← List.append_assoc, ← List.drop_eq_getElem_cons hi, List.take_append_drop]
    · intro x hx he
      obtain ⟨j, hj, rfl⟩ := List.mem_iff_getElem.1 hx
      have hj' : j < i := by rw [List.length_take] at hj; omega
      rw [List.getElem_take] at he
      have := (List.nodup_iff_injective_getElem.1 hd) (a₁ := ⟨j, by simp; omega⟩) (a₂ := ⟨i, by simp; omega⟩) (by simpa using he)
      simp at this
      omega
  · intro h
    simp only [readRegister, Option.map_eq_none_iff, List.find?_eq_none, List.flatten_cons, List.mem_append] at h
    exact h set[i] (.inl (List.getElem_mem hi)) (by simp)

/-- The general-purpose registers of x86-64 in the order in which LLDB lists them. -/
def lldbX86 : List Str := [chars! "rax", chars! "rbx", chars! "rcx", chars! "rdx", chars! "rdi", chars! "rsi", chars! "rbp", chars! "rsp",
  chars! "r8", chars! "r9", chars! "r10", chars! "r11", chars! "r12", chars! "r13", chars! "r14", chars! "r15", chars! "rip"]

/-- The register numbers of DWARF for x86-64 (System V ABI, figure 3.36). -/
def dwarfX86 : List Str := [chars! "rax", chars! "rdx", chars! "rcx", chars! "rbx", chars! "rsi", chars! "rdi", chars! "rbp", chars! "rsp",
  chars! "r8", chars! "r9", chars! "r10", chars! "r11", chars! "r12", chars! "r13", chars! "r14", chars! "r15", chars! "rip"]

/-- C73 is false of the code for x86-64: the numbers in debug information are not the positions in LLDB's list. Whatever
the registers contain, asking for DWARF register 1, `rdx`, answers the contents of `rbx`; 3, 4 and 5 are wrong as well. -/
theorem C73_x86_fails (values : List (List UInt8)) (hl : values.length = lldbX86.length) (h8 : ∀ b ∈ values, b.length = 8) (rest : List (List Reg)) :
    let set := (lldbX86.zip values).map fun x => Reg.mk x.1 x.2
    ∀ p ∈ [(1, chars! "rbx"), (3, chars! "rdx"), (4, chars! "rdi"), (5, chars! "rsi")], dwarfX86[p.1]? ≠ some p.2 ∧
      readRegisterByIndex (set :: rest) p.1 = readRegister (set :: rest) p.2 ∧ readRegister (set :: rest) p.2 ≠ none := by
  intro set p hp
  have hset : set.map (·.name) = lldbX86 := by
    show ((lldbX86.zip values).map fun x => Reg.mk x.1 x.2).map (·.name) = _
    rw [List.map_map]
    exact List.map_fst_zip (by omega)
  have hlen : set.length = lldbX86.length := by simpa using congrArg List.length hset
  have hbytes : ∀ r ∈ set, 8 ≤ r.bytes.length := by
    intro r hr
    obtain ⟨x, hx, rfl⟩ := List.mem_map.1 hr
    exact Nat.le_of_eq (h8 _ (List.of_mem_zip hx).2).symm
  have hnum : ∀ (i : Nat) (r : Reg), set[i]? = some r → lldbX86[i]? = some r.name := by
    intro i r h
    rw [← hset, List.getElem?_map, h]
    rfl
  have hd : (set.map (·.name)).Nodup := by rw [hset]; decide
  have hn : ∀ q ∈ [(1, chars! "rbx"), (3, chars! "rdx"), (4, chars! "rdi"), (5, chars! "rsi")], dwarfX86[q.1]? ≠ some q.2 ∧ lldbX86[q.1]? = some q.2 ∧
      q.1 < lldbX86.length := by decide
  obtain ⟨h1, h2, h3⟩ := hn p hp
  obtain ⟨n, e1, e2, e3⟩ := C73_numbered (fun i => lldbX86[i]?) set rest hnum hd hbytes p.1 (by omega)
  obtain rfl : p.2 = n := by simpa using h2.symm.trans e1
  exact ⟨h1, e2, e3⟩

/-- C73 is false of the code for narrow registers: they can be read by name, but not by number. -/
theorem C73_narrow_fails (r : Reg) (h : r.bytes.length < 8) (rest : List (List Reg)) :
    readRegisterByIndex ([r] :: rest) 0 = none ∧ readRegister ([r] :: rest) r.name = some (leNat r.bytes) := by
  constructor
  · simp [readRegisterByIndex, firstWord]
    omega
  · simp [readRegister, asUnsigned, List.take_of_length_le (Nat.le_of_lt h)]

/-- Two sets; the second has more registers. -/
def demoSets : List (List Reg) := [[⟨chars! "a", [1, 0, 0, 0, 0, 0, 0, 0]⟩], [⟨chars! "x", [2, 0, 0, 0]⟩, ⟨chars! "y", [0, 1, 0, 0, 0, 0, 0, 0, 9]⟩]]

example : readRegisterByIndex demoSets 0 = some 1 ∧ readRegisterByIndex demoSets 1 = some 256 ∧ readRegisterByIndex demoSets 2 = none ∧
    readRegister demoSets (chars! "x") = some 2 := by decide

end Rudy.Calls
