import Verif.Model.Memory
/-
Specification vocabulary for memory contents, and helper lemmas for C22–C32, C43.
-/
set_option linter.unusedSimpArgs false
namespace Rudy.Data
open Rudy Rudy.Layout

/-! ### Specification: what memory contains -/

/-- The memory of the debugged process: the byte at each address, `none` where nothing is mapped. -/
abbrev Mem := Nat → Option UInt8

/-- The bytes at `a, a+1, …, a+n-1`; `none` if one of them is not mapped. -/
def Mem.slice (m : Mem) : (a n : Nat) → Option (List UInt8)
  | _, 0 => some []
  | a, n + 1 => match m a, Mem.slice m (a + 1) n with
    | some b, some bs => some (b :: bs)
    | _, _ => none

/-- The target gives access to the memory `m`: a read returns the bytes asked for, or fails if one of
them is not mapped. -/
def Target.Reads (T : Target) (m : Mem) : Prop := ∀ a n, T.read a n = m.slice a n

/-- Memory holds these bytes at `a`. -/
def Mem.HoldsBytes (m : Mem) (a : Nat) (bs : List UInt8) : Prop :=
  ∀ i (h : i < bs.length), m (a + i) = some bs[i]

/-- Memory holds the unsigned `size`-byte little-endian number `v` at `a`. -/
def Mem.HoldsNat (m : Mem) (a size v : Nat) : Prop :=
  v < 256 ^ size ∧ ∀ i < size, m (a + i) = some (UInt8.ofNat (v / 256 ^ i % 256))

/-- Memory holds the signed two's-complement `size`-byte little-endian number `v` at `a`. -/
def Mem.HoldsInt (m : Mem) (a size : Nat) (v : Int) : Prop :=
  -(256 ^ size : Int) ≤ 2 * v ∧ 2 * v < 256 ^ size ∧
    ∀ i < size, m (a + i) = some (UInt8.ofNat (v / 256 ^ i % 256).toNat)

/-- All `size` bytes at `a` are mapped. -/
def Mem.Mapped (m : Mem) (a size : Nat) : Prop := ∀ i < size, (m (a + i)).isSome

/-! ### Slices -/

theorem Mem.slice_eq_some (m : Mem) (a n : Nat) (bs : List UInt8) :
    m.slice a n = some bs ↔ bs.length = n ∧ m.HoldsBytes a bs := by
  induction n generalizing a bs with
  | zero =>
    cases bs with
    | nil => simp [Mem.slice, Mem.HoldsBytes]
    | cons b bs => simp [Mem.slice]
  | succ n ih =>
    simp only [Mem.slice]
    constructor
    · intro h
      split at h
      · rename_i b bs' hb hbs
        cases h
        obtain ⟨hl, hh⟩ := (ih _ _).1 hbs
        refine ⟨by simp [hl], ?_⟩
        intro i hi
        cases i with
        | zero => simpa using hb
        | succ i =>
          have := hh i (by simpa using hi)
          simp only [List.getElem_cons_succ]; rw [← this]; congr 1; omega
      · cases h
    · rintro ⟨hl, hh⟩
      cases bs with
      | nil => simp at hl
      | cons b bs =>
        have h0 := hh 0 (by simp)
        have h1 : m.slice (a + 1) n = some bs := by
          apply (ih _ _).2
          refine ⟨by simpa using hl, fun i hi => ?_⟩
          have := hh (i + 1) (by simpa using hi)
          simp only [List.getElem_cons_succ] at this
          rw [← this]; congr 1; omega
        simp at h0
        rw [h1, h0]

theorem Mem.slice_length (m : Mem) (a n : Nat) (bs : List UInt8) (h : m.slice a n = some bs) :
    bs.length = n := ((m.slice_eq_some a n bs).1 h).1

theorem Mem.slice_none (m : Mem) (a n : Nat) (h : ¬ m.Mapped a n) : m.slice a n = none := by
  cases hs : m.slice a n with
  | none => rfl
  | some bs =>
    exfalso; apply h
    obtain ⟨hl, hh⟩ := (m.slice_eq_some a n bs).1 hs
    intro i hi
    rw [hh i (by omega)]; rfl

theorem Mem.slice_isSome (m : Mem) (a n : Nat) (h : m.Mapped a n) : ∃ bs, m.slice a n = some bs := by
  induction n generalizing a with
  | zero => exact ⟨[], rfl⟩
  | succ n ih =>
    obtain ⟨bs, hbs⟩ := ih (a + 1) (fun i hi => by have := h (i + 1) (by omega); rwa [show a + 1 + i = a + (i + 1) by omega])
    have h0 := h 0 (by omega)
    simp only [Nat.add_zero] at h0
    obtain ⟨b, hb⟩ := Option.isSome_iff_exists.1 h0
    exact ⟨b :: bs, by simp [Mem.slice, hb, hbs]⟩

theorem Mem.slice_congr (m m' : Mem) (a n : Nat) (h : ∀ x, a ≤ x → x < a + n → m x = m' x) :
    m.slice a n = m'.slice a n := by
  induction n generalizing a with
  | zero => rfl
  | succ n ih =>
    simp only [Mem.slice]
    rw [h a (by omega) (by omega), ih (a + 1) (fun x h1 h2 => h x (by omega) (by omega))]

/-! ### Numbers -/

/-- The `n` little-endian bytes of `v`. -/
def encNat : (n v : Nat) → List UInt8
  | 0, _ => []
  | n + 1, v => UInt8.ofNat (v % 256) :: encNat n (v / 256)

theorem encNat_length (n v : Nat) : (encNat n v).length = n := by
  induction n generalizing v with
  | zero => rfl
  | succ n ih => simp [encNat, ih]

theorem encNat_get (n v i : Nat) (h : i < (encNat n v).length) :
    (encNat n v)[i] = UInt8.ofNat (v / 256 ^ i % 256) := by
  induction n generalizing v i with
  | zero => simp [encNat] at h
  | succ n ih =>
    cases i with
    | zero => simp [encNat]
    | succ i =>
      simp only [encNat, List.getElem_cons_succ]
      rw [ih, Nat.div_div_eq_div_mul, Nat.pow_succ, Nat.mul_comm]

theorem leNat_encNat (n v : Nat) : leNat (encNat n v) = v % 256 ^ n := by
  induction n generalizing v with
  | zero => simp [encNat, leNat, Nat.mod_one]
  | succ n ih =>
    simp only [encNat, leNat, ih]
    have h : (UInt8.ofNat (v % 256)).toNat = v % 256 := by
      simp [UInt8.toNat_ofNat']
    rw [h, Nat.pow_succ, Nat.mul_comm (256 ^ n) 256, Nat.mod_mul]

theorem leNat_lt (bs : List UInt8) : leNat bs < 256 ^ bs.length := by
  induction bs with
  | nil => simp [leNat]
  | cons b bs ih =>
    simp only [leNat, List.length_cons, Nat.pow_succ]
    have := b.toNat_lt
    omega

theorem encNat_leNat (bs : List UInt8) : encNat bs.length (leNat bs) = bs := by
  induction bs with
  | nil => rfl
  | cons b bs ih =>
    have hb := b.toNat_lt
    simp only [leNat, List.length_cons, encNat]
    rw [show (b.toNat + 256 * leNat bs) % 256 = b.toNat by omega,
      show (b.toNat + 256 * leNat bs) / 256 = leNat bs by omega, ih]
    simp

theorem Mem.holdsBytes_encNat (m : Mem) (a n v : Nat) :
    m.HoldsBytes a (encNat n v) ↔ ∀ i < n, m (a + i) = some (UInt8.ofNat (v / 256 ^ i % 256)) := by
  constructor
  · intro h i hi
    rw [h i (by simpa [encNat_length] using hi), encNat_get]
  · intro h i hi
    rw [encNat_get]; exact h i (by simpa [encNat_length] using hi)

theorem Mem.holdsNat_iff (m : Mem) (a n v : Nat) :
    m.HoldsNat a n v ↔ ∃ bs, m.slice a n = some bs ∧ leNat bs = v := by
  constructor
  · rintro ⟨h1, h2⟩
    refine ⟨encNat n v, (m.slice_eq_some _ _ _).2 ⟨encNat_length _ _, (m.holdsBytes_encNat a n v).2 h2⟩, ?_⟩
    rw [leNat_encNat, Nat.mod_eq_of_lt h1]
  · rintro ⟨bs, h1, rfl⟩
    obtain ⟨hl, hh⟩ := (m.slice_eq_some _ _ _).1 h1
    subst hl
    refine ⟨leNat_lt bs, ?_⟩
    rw [← m.holdsBytes_encNat, encNat_leNat]; exact hh

theorem Mem.holdsNat_unique (m : Mem) (a n v w : Nat) (h1 : m.HoldsNat a n v) (h2 : m.HoldsNat a n w) :
    v = w := by
  obtain ⟨bs, e1, rfl⟩ := (m.holdsNat_iff _ _ _).1 h1
  obtain ⟨bs', e2, rfl⟩ := (m.holdsNat_iff _ _ _).1 h2
  rw [e1] at e2; cases e2; rfl

/-- The bytes of a signed number are those of its residue. -/
theorem byte_mod (v : Int) (s i : Nat) (h : i < s) :
    (v / 256 ^ i % 256).toNat = (v % 256 ^ s).toNat / 256 ^ i % 256 := by
  have hp : (0:Int) < 256 ^ s := Int.pow_pos (by decide)
  have key : v / 256 ^ i % 256 = (v % 256 ^ s) / 256 ^ i % 256 := by
    have hd : v = v % 256 ^ s + 256 ^ i * (256 ^ (s - i) * (v / 256 ^ s)) := by
      have e : (256:Int) ^ i * 256 ^ (s - i) = 256 ^ s := by
        rw [← Int.pow_add]; congr 1; omega
      rw [← Int.mul_assoc, e]
      have := Int.emod_add_mul_ediv v (256 ^ s); omega
    have hi0 : (256:Int) ^ i ≠ 0 := by
      have : (0:Int) < 256 ^ i := Int.pow_pos (by decide)
      omega
    conv => lhs; rw [hd]
    rw [Int.add_mul_ediv_left _ _ hi0]
    have e2 : (256:Int) ^ (s - i) * (v / 256 ^ s) = 256 * (256 ^ (s - i - 1) * (v / 256 ^ s)) := by
      rw [← Int.mul_assoc]
      congr 1
      conv => lhs; rw [show s - i = (s - i - 1) + 1 by omega]
      rw [Int.pow_succ, Int.mul_comm]
    rw [e2, Int.add_mul_emod_self_left]
  rw [key]
  have hn : 0 ≤ v % 256 ^ s := Int.emod_nonneg _ (by omega)
  obtain ⟨k, hk⟩ := Int.eq_ofNat_of_zero_le hn
  rw [hk]
  have e : ((k : Int) / 256 ^ i % 256) = ((k / 256 ^ i % 256 : Nat) : Int) := by
    rw [Int.natCast_emod, Int.natCast_ediv, Int.natCast_pow]; rfl
  rw [e, Int.toNat_natCast, Int.toNat_natCast]

theorem Mem.holdsInt_iff (m : Mem) (a n : Nat) (v : Int) :
    m.HoldsInt a n v ↔ ∃ bs, m.slice a n = some bs ∧ leInt bs = v := by
  have hp : (0:Int) < 256 ^ n := Int.pow_pos (by decide)
  have hc : ((256 ^ n : Nat) : Int) = 256 ^ n := by rw [Int.natCast_pow]; rfl
  constructor
  · rintro ⟨h1, h2, h3⟩
    have hb : m.HoldsNat a n (v % 256 ^ n).toNat := by
      refine ⟨?_, fun i hi => by rw [h3 i hi, byte_mod v n i hi]⟩
      have := Int.emod_lt_of_pos v hp
      have := Int.emod_nonneg v (Int.ne_of_gt hp)
      omega
    obtain ⟨bs, e1, e2⟩ := (m.holdsNat_iff _ _ _).1 hb
    refine ⟨bs, e1, ?_⟩
    have hl := m.slice_length _ _ _ e1
    unfold leInt
    rw [hl, e2]
    have h0 := Int.emod_nonneg v (Int.ne_of_gt hp)
    have hlt := Int.emod_lt_of_pos v hp
    by_cases hv : 0 ≤ v
    · have : v % 256 ^ n = v := Int.emod_eq_of_lt hv (by omega)
      rw [this] at *
      rw [if_pos (by omega)]; omega
    · have : v % 256 ^ n = v + 256 ^ n := by
        rw [← Int.add_emod_right]
        exact Int.emod_eq_of_lt (by omega) (by omega)
      rw [this] at *
      rw [if_neg (by omega)]; omega
  · rintro ⟨bs, h1, rfl⟩
    have hl := m.slice_length _ _ _ h1
    have hlt := leNat_lt bs
    have hh := (m.slice_eq_some _ _ _).1 h1
    rw [← encNat_leNat bs, hl] at hh
    have h3 := (m.holdsBytes_encNat _ _ _).1 hh.2
    have hmod : leInt bs % 256 ^ n = (leNat bs : Int) := by
      unfold leInt; rw [hl] at *
      split
      · exact Int.emod_eq_of_lt (by omega) (by omega)
      · rw [hc, Int.sub_emod_right]
        exact Int.emod_eq_of_lt (by omega) (by omega)
    refine ⟨?_, ?_, fun i hi => ?_⟩
    · unfold leInt; rw [hl] at *; split <;> omega
    · unfold leInt; rw [hl] at *; split <;> omega
    · rw [h3 i hi, byte_mod _ n i hi, hmod]; rfl

theorem Mem.holdsInt_unique (m : Mem) (a n : Nat) (v w : Int) (h1 : m.HoldsInt a n v)
    (h2 : m.HoldsInt a n w) : v = w := by
  obtain ⟨bs, e1, rfl⟩ := (m.holdsInt_iff _ _ _).1 h1
  obtain ⟨bs', e2, rfl⟩ := (m.holdsInt_iff _ _ _).1 h2
  rw [e1] at e2; cases e2; rfl

theorem natStr_toString (n : Nat) : natStr n = (toString n).toList := by
  simp [natStr, toString, Nat.repr]

theorem intStr_toString (i : Int) : intStr i = (toString i).toList := by
  unfold intStr
  cases i with
  | ofNat n =>
    rw [if_neg (by simp)]
    simp [natStr, toString, Int.repr, Nat.repr]
  | negSucc n =>
    rw [if_pos (Int.negSucc_lt_zero n)]
    simp [natStr, toString, Int.repr, Nat.repr, String.toList_append]

/-! ### Reads -/

section
variable {T : Target} {m : Mem} (hT : T.Reads m)
include hT

theorem readE_ok (a n : Nat) (bs : List UInt8) : T.readE a n = .ok bs ↔ m.slice a n = some bs := by
  unfold Target.readE; rw [hT]; cases m.slice a n <;> simp [Res.ofOption]

omit hT in
theorem readE_noPanic (a n : Nat) : T.readE a n ≠ .panic := by
  unfold Target.readE; cases T.read a n <;> simp [Res.ofOption]

theorem readE_cases (a n : Nat) :
    (∃ bs, m.slice a n = some bs ∧ bs.length = n ∧ T.readE a n = .ok bs) ∨
      (¬ m.Mapped a n ∧ m.slice a n = none ∧ T.readE a n = .err) := by
  by_cases h : m.Mapped a n
  · obtain ⟨bs, hb⟩ := m.slice_isSome a n h
    exact Or.inl ⟨bs, hb, m.slice_length _ _ _ hb, (readE_ok hT _ _ _).2 hb⟩
  · refine Or.inr ⟨h, m.slice_none a n h, ?_⟩
    unfold Target.readE; rw [hT, m.slice_none a n h]; rfl

theorem readExact_eq (a n : Nat) : T.readExact a n = T.readE a n := by
  unfold Target.readExact
  rcases readE_cases hT a n with ⟨bs, _, hl, h⟩ | ⟨_, _, h⟩
  · rw [h]; simp [hl]
  · rw [h]; rfl

theorem readNat_ok (a n v : Nat) : T.readNat a n = .ok v ↔ m.HoldsNat a n v := by
  unfold Target.readNat
  rw [readExact_eq hT, m.holdsNat_iff]
  rcases readE_cases hT a n with ⟨bs, hs, hl, h⟩ | ⟨_, hs, h⟩
  · rw [h, hs]; simp
  · rw [h, hs]; simp

theorem readNat_err (a n : Nat) (h : ¬ m.Mapped a n) : T.readNat a n = .err := by
  unfold Target.readNat
  rw [readExact_eq hT]
  rcases readE_cases hT a n with ⟨bs, hs, hl, _⟩ | ⟨_, hs, h⟩
  · rw [m.slice_none a n h] at hs; cases hs
  · rw [h]; rfl

theorem readAddress_eq (a : Nat) : T.readAddress a = T.readNat a 8 := by
  unfold Target.readAddress Target.readNat
  rw [readExact_eq hT]
  rcases readE_cases hT a 8 with ⟨bs, hs, hl, h⟩ | ⟨_, hs, h⟩
  · rw [h]; simp [hl]
  · rw [h]; rfl

theorem readLen_eq (a : Nat) : T.readLen a = T.readNat a 8 := readAddress_eq hT a

theorem readNat_noPanic (a n : Nat) : T.readNat a n ≠ .panic := by
  unfold Target.readNat
  rw [readExact_eq hT]
  rcases readE_cases hT a n with ⟨bs, hs, hl, h⟩ | ⟨_, hs, h⟩
  · rw [h]; simp
  · rw [h]; simp

end

theorem addU_ok {a b : Nat} (h : a + b < u64Max1) : addU a b = .ok (a + b) := by simp [addU, h]
theorem addU_eq_ok {a b c : Nat} : addU a b = .ok c ↔ a + b < u64Max1 ∧ c = a + b := by
  unfold addU
  split
  · rename_i h; simp only [Res.ok.injEq, h, true_and]; exact eq_comm
  · rename_i h; simp [h]
theorem mulU_ok {a b : Nat} (h : a * b < u64Max1) : mulU a b = .ok (a * b) := by simp [mulU, h]
theorem subU_ok {a b : Nat} (h : b ≤ a) : subU a b = .ok (a - b) := by simp [subU, h]

theorem HoldsNat_lt8 {m : Mem} {a v : Nat} (h : m.HoldsNat a 8 v) : v < u64Max1 := by
  have := h.1; simp [u64Max1]; omega

/-! ### Element loops -/

theorem seqItems_ok (t : TypeDef) (esz a n : Nat) (h : n = 0 ∨ a + n * esz < u64Max1) :
    seqItems t esz a n = .ok ((List.range n).map fun i => .pointer (a + i * esz) t) := by
  induction n generalizing a with
  | zero => rfl
  | succ n ih =>
    have h : a + (n + 1) * esz < u64Max1 := by omega
    rw [Nat.add_mul, Nat.one_mul] at h
    simp only [seqItems]
    rw [addU_ok (by omega)]
    simp only [Res.bind_ok]
    rw [ih (a + esz) (by right; omega)]
    simp only [Res.bind_ok, List.range_succ_eq_map, List.map_cons, List.map_map, Nat.zero_mul, Nat.add_zero]
    congr 2
    apply List.map_congr_left
    intro i _
    simp only [Function.comp, Nat.succ_eq_add_one]
    congr 1
    rw [Nat.add_mul]; omega

theorem seqItems_eq_ok (t : TypeDef) (esz a n : Nat) (vs : List Value) (h : seqItems t esz a n = .ok vs) :
    vs = (List.range n).map fun i => .pointer (a + i * esz) t := by
  induction n generalizing a vs with
  | zero => simp [seqItems] at h; simp [h]
  | succ n ih =>
    simp only [seqItems] at h
    rw [Res.bind_eq_ok] at h
    obtain ⟨a', h1, h2⟩ := h
    rw [Res.bind_eq_ok] at h2
    obtain ⟨r, h3, h4⟩ := h2
    cases h4
    obtain ⟨_, rfl⟩ := addU_eq_ok.1 h1
    rw [ih _ _ h3]
    simp only [List.range_succ_eq_map, List.map_cons, List.map_map, Nat.zero_mul, Nat.add_zero]
    congr 1
    apply List.map_congr_left
    intro i _
    simp only [Function.comp, Nat.succ_eq_add_one]
    congr 1
    rw [Nat.add_mul]; omega

end Rudy.Data
