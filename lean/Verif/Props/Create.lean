import Verif.Model.Index
import Verif.Props.Memory
/-
Property theorems C31: strings created in the target.
-/
set_option linter.unusedSimpArgs false
namespace Rudy.Data
open Rudy Rudy.Layout

/-! ### Specification -/

/-- Memory after writing `bs` at `a`. -/
def Mem.put (m : Mem) (a : Nat) (bs : List UInt8) : Mem :=
  fun x => if a ≤ x ∧ x < a + bs.length then bs[x - a]? else m x

/-- The remote process really has a memory and an allocator: `mem` is its memory, `owned` says which
addresses belong to a live allocation. An allocation returns mapped addresses that were not owned, below
the end of the address space, and touches nothing outside them; a write changes exactly the bytes
written; a read returns the bytes. -/
structure Remote.Backed {σ : Type} (R : Remote σ) (mem : σ → Mem) (owned : σ → Nat → Prop) : Prop where
  alloc_block : ∀ n s a s', R.alloc n s = (some a, s') → a + n < u64Max1 ∧ (mem s').Mapped a n ∧
    (∀ x, x < a ∨ a + n ≤ x → mem s' x = mem s x) ∧
    (∀ x, a ≤ x → x < a + n → ¬ owned s x) ∧
    (∀ x, owned s' x ↔ owned s x ∨ (a ≤ x ∧ x < a + n))
  write_effect : ∀ a bs s s', R.write a bs s = (some (), s') →
    mem s' = (mem s).put a bs ∧ ∀ x, owned s' x ↔ owned s x
  write_mapped : ∀ a bs s, (mem s).Mapped a bs.length → ∃ s', R.write a bs s = (some (), s')
  read_slice : ∀ a n s, R.read a n s = (mem s).slice a n

theorem put_in (m : Mem) (a : Nat) (bs : List UInt8) (x : Nat) (h1 : a ≤ x) (h2 : x < a + bs.length) :
    m.put a bs x = bs[x - a]? := by unfold Mem.put; rw [if_pos ⟨h1, h2⟩]
theorem put_out (m : Mem) (a : Nat) (bs : List UInt8) (x : Nat) (h : x < a ∨ a + bs.length ≤ x) :
    m.put a bs x = m x := by unfold Mem.put; rw [if_neg (by omega)]

theorem put_holds (m : Mem) (a : Nat) (bs : List UInt8) : (m.put a bs).HoldsBytes a bs := by
  intro i hi
  rw [put_in m a bs _ (by omega) (by omega)]
  simp [hi]

theorem put_mapped (m : Mem) (a : Nat) (bs : List UInt8) (b n : Nat) (h : m.Mapped b n) :
    (m.put a bs).Mapped b n := by
  intro i hi
  unfold Mem.put
  split
  · rename_i hc
    simp only [List.getElem?_eq_getElem (show b + i - a < bs.length by omega), Option.isSome_some]
  · exact h i hi

theorem holds_congr (m m' : Mem) (a : Nat) (bs : List UInt8) (h : m.HoldsBytes a bs)
    (he : ∀ x, a ≤ x → x < a + bs.length → m' x = m x) : m'.HoldsBytes a bs := by
  intro i hi
  rw [he _ (by omega) (by omega)]; exact h i hi

theorem le8_length (v : Nat) : (le8 v).length = 8 := rfl

theorem le8_eq (v : Nat) : le8 v = encNat 8 v := by
  have h : ∀ n, UInt8.ofNat (n % 256) = UInt8.ofNat n := by
    intro n; apply UInt8.toNat_inj.1; simp [UInt8.toNat_ofNat']
  simp only [encNat, le8, h, Nat.div_div_eq_div_mul]

theorem holds_le8 (m : Mem) (a v : Nat) (hv : v < u64Max1) : m.HoldsBytes a (le8 v) → m.HoldsNat a 8 v := by
  intro h
  rw [le8_eq] at h
  exact ⟨by simpa [u64Max1] using hv, (m.holdsBytes_encNat a 8 v).1 h⟩

theorem Act.bind_eq_ok {σ α β : Type} {x : Act σ α} {f : α → Act σ β} {s s' : σ} {b : β} :
    x.bind f s = (.ok b, s') ↔ ∃ a s1, x s = (.ok a, s1) ∧ f a s1 = (.ok b, s') := by
  unfold Act.bind
  constructor
  · intro h
    split at h
    · exact ⟨_, _, by assumption, h⟩
    · simp at h
    · simp at h
  · rintro ⟨a, s1, h1, h2⟩
    rw [h1]; exact h2

theorem Act.bind_ok {σ α β : Type} {x : Act σ α} {f : α → Act σ β} {s s1 : σ} {a : α} (h : x s = (.ok a, s1)) : x.bind f s = f a s1 := by
  unfold Act.bind; rw [h]

theorem Act.lift_eq_ok {σ α : Type} {r : Res α} {s s' : σ} {a : α} : Act.lift r s = (.ok a, s') ↔ r = .ok a ∧ s = s' := by
  unfold Act.lift; simp

theorem Res.ofOption_eq_ok {α : Type} {o : Option α} {a : α} : Res.ofOption o = .ok a ↔ o = some a := by
  cases o <;> simp [Res.ofOption]

theorem Remote.allocate_eq_ok {σ : Type} {R : Remote σ} {n a : Nat} {s s' : σ} : R.allocate n s = (.ok a, s') ↔ R.alloc n s = (some a, s') := by
  unfold Remote.allocate
  simp only [Prod.mk.injEq, Res.ofOption_eq_ok]
  constructor
  · rintro ⟨h1, h2⟩; exact Prod.ext h1 h2
  · intro h; rw [h]; exact ⟨rfl, rfl⟩

theorem Remote.store_eq_ok {σ : Type} {R : Remote σ} {a : Nat} {bs : List UInt8} {u : Unit} {s s' : σ} :
    R.store a bs s = (.ok u, s') ↔ R.write a bs s = (some (), s') := by
  unfold Remote.store
  simp only [Prod.mk.injEq, Res.ofOption_eq_ok]
  constructor
  · rintro ⟨h1, h2⟩; exact Prod.ext h1 h2
  · intro h; rw [h]; exact ⟨rfl, rfl⟩

theorem Remote.load_eq_ok {σ : Type} {R : Remote σ} {a n : Nat} {bs : List UInt8} {s s' : σ} :
    R.load a n s = (.ok bs, s') ↔ R.read a n s = some bs ∧ s = s' := by
  unfold Remote.load
  simp only [Prod.mk.injEq, Res.ofOption_eq_ok]

section
variable {σ : Type} {R : Remote σ} {mem : σ → Mem} {owned : σ → Nat → Prop} (hR : R.Backed mem owned)
include hR

/-- The memory after creating a `&str` (the four memory operations). -/
theorem createStr_effect (text : Str) (dataOff lenOff : Nat) (s s' : σ) (addr : Nat)
    (h : createStr R text dataOff lenOff s = (.ok addr, s')) :
    ∃ base s1, R.alloc ((utf8 text).length + 16) s = (some base, s1) ∧ addr = base + (utf8 text).length ∧
      mem s' = (((mem s1).put base (utf8 text)).put (addr + dataOff) (le8 base)).put (addr + lenOff)
        (le8 (utf8 text).length) ∧
      dataOff ≤ 16 ∧ lenOff ≤ 16 ∧ base + (utf8 text).length + 16 < u64Max1 ∧
      (mem s').HoldsNat (addr + dataOff) 8 base ∧ (mem s').HoldsNat (addr + lenOff) 8 (utf8 text).length ∧
      ∃ bs, (mem s').slice base (utf8 text).length = some bs ∧ R.lossy bs = text := by
  unfold createStr at h
  split at h
  · simp [Act.lift] at h
  · rename_i hoff
    simp only [Act.bind_eq_ok, Act.lift_eq_ok, Remote.allocate_eq_ok, Remote.store_eq_ok, Remote.load_eq_ok] at h
    obtain ⟨total, _, ⟨h1, rfl⟩, base, s1, h2, _, s2, h3, fat, _, ⟨h4, rfl⟩, pa, _, ⟨h5, rfl⟩, _, s3, h6, la, _, ⟨h7, rfl⟩, _, s4, h8,
      pb, _, ⟨h9, rfl⟩, lb, _, ⟨h10, rfl⟩, p, _, ⟨h9', rfl⟩, l, _, ⟨h10', rfl⟩, h11⟩ := h
    obtain ⟨_, rfl⟩ := addU_eq_ok.1 h1
    have e3 := (hR.write_effect _ _ _ _ h3).1
    have e6 := (hR.write_effect _ _ _ _ h6).1
    have e8 := (hR.write_effect _ _ _ _ h8).1
    obtain ⟨_, rfl⟩ := addU_eq_ok.1 h4
    obtain ⟨_, rfl⟩ := addU_eq_ok.1 h5
    obtain ⟨_, rfl⟩ := addU_eq_ok.1 h7
    have hb : ∀ a bs v, R.read a 8 s4 = some bs → eightBytes bs = .ok v → (mem s4).HoldsNat a 8 v := by
      intro a bs v hv he
      rw [hR.read_slice] at hv
      rw [Mem.holdsNat_iff]
      unfold eightBytes at he
      split at he
      · cases he; exact ⟨bs, hv, rfl⟩
      · cases he
    split at h11
    · simp [Act.lift] at h11
    · rename_i hp
      simp only [ne_eq, Decidable.not_not] at hp
      split at h11
      · simp [Act.lift] at h11
      · rename_i hl
        simp only [ne_eq, Decidable.not_not] at hl
        split at h11
        · simp [Act.lift] at h11
        · simp only [Act.bind_eq_ok, Act.lift_eq_ok, Remote.load_eq_ok] at h11
          obtain ⟨bs, _, ⟨h12, rfl⟩, h13, rfl⟩ := h11
          split at h13
          · cases h13
          · rename_i hlossy
            simp only [ne_eq, Decidable.not_not] at hlossy
            cases h13
            subst hp hl
            refine ⟨p, s1, h2, rfl, ?_, by omega, by omega, ?_, hb _ _ _ h9 h9', hb _ _ _ h10 h10', bs, ?_, hlossy⟩
            · rw [e8, e6, e3]
            · have := (hR.alloc_block _ _ _ _ h2).1; omega
            · rw [hR.read_slice] at h12; exact h12

/-- C31: a created `&str` reads back as exactly the given text, for every string, every memory and
every allocator, wherever the two fields lie. -/
theorem C31_str_reads_back (text : Str) (dataOff lenOff : Nat) (s s' : σ) (addr : Nat)
    (h : createStr R text dataOff lenOff s = (.ok addr, s'))
    (T : Target) (hT : T.Reads (mem s')) (hl : T.lossy = R.lossy) (f : Nat) (loc : Option Nat) :
    readMem T (f + 1) addr (.mk loc (.strSlice dataOff lenOff)) =
      .ok (.scalar (chars! "str") (chars! "\"" ++ text ++ chars! "\"")) := by
  obtain ⟨base, s1, ha, he, hm, h1, h2, h3, h4, h5, bs, h6, h7⟩ := createStr_effect hR text dataOff lenOff s s' addr h
  have hb := ((mem s').slice_eq_some _ _ _).1 h6
  rw [(C24_str_slice T _ hT f addr loc lenOff dataOff (utf8 text).length base h5 h4
    (by subst he; exact lt_of_ok hR h) (by subst he; exact lt_of_ok' hR h)).1 bs hb.1 hb.2, hl, h7]
where
  lt_of_ok {σ : Type} {R : Remote σ} {mem : σ → Mem} {owned : σ → Nat → Prop} (_ : R.Backed mem owned)
      {text : Str} {dataOff lenOff : Nat} {s s' : σ} {addr : Nat}
      (h : createStr R text dataOff lenOff s = (.ok addr, s')) : addr + lenOff < u64Max1 := by
    unfold createStr at h
    split at h
    · simp [Act.lift] at h
    · simp only [Act.bind_eq_ok, Act.lift_eq_ok, Remote.allocate_eq_ok, Remote.store_eq_ok, Remote.load_eq_ok] at h
      obtain ⟨total, _, ⟨h1, rfl⟩, base, s1, h2, _, s2, h3, fat, _, ⟨h4, rfl⟩, pa, _, ⟨h5, rfl⟩, _, s3, h6, la, _, ⟨h7, rfl⟩, _, s4, h8,
        pb, _, ⟨h9, rfl⟩, lb, _, ⟨h10, rfl⟩, p, _, ⟨h9', rfl⟩, l, _, ⟨h10', rfl⟩, h11⟩ := h
      split at h11
      · simp [Act.lift] at h11
      · split at h11
        · simp [Act.lift] at h11
        · split at h11
          · simp [Act.lift] at h11
          · simp only [Act.bind_eq_ok, Act.lift_eq_ok, Remote.load_eq_ok] at h11
            obtain ⟨bs, _, _, h13, _⟩ := h11
            split at h13
            · cases h13
            · cases h13; exact (addU_eq_ok.1 h7).1
  lt_of_ok' {σ : Type} {R : Remote σ} {mem : σ → Mem} {owned : σ → Nat → Prop} (_ : R.Backed mem owned)
      {text : Str} {dataOff lenOff : Nat} {s s' : σ} {addr : Nat}
      (h : createStr R text dataOff lenOff s = (.ok addr, s')) : addr + dataOff < u64Max1 := by
    unfold createStr at h
    split at h
    · simp [Act.lift] at h
    · simp only [Act.bind_eq_ok, Act.lift_eq_ok, Remote.allocate_eq_ok, Remote.store_eq_ok, Remote.load_eq_ok] at h
      obtain ⟨total, _, ⟨h1, rfl⟩, base, s1, h2, _, s2, h3, fat, _, ⟨h4, rfl⟩, pa, _, ⟨h5, rfl⟩, _, s3, h6, la, _, ⟨h7, rfl⟩, _, s4, h8,
        pb, _, ⟨h9, rfl⟩, lb, _, ⟨h10, rfl⟩, p, _, ⟨h9', rfl⟩, l, _, ⟨h10', rfl⟩, h11⟩ := h
      split at h11
      · simp [Act.lift] at h11
      · split at h11
        · simp [Act.lift] at h11
        · split at h11
          · simp [Act.lift] at h11
          · simp only [Act.bind_eq_ok, Act.lift_eq_ok, Remote.load_eq_ok] at h11
            obtain ⟨bs, _, _, h13, _⟩ := h11
            split at h13
            · cases h13
            · cases h13; exact (addU_eq_ok.1 h5).1

/-- C31: creating a `&str` whose two fields lie in the 16 bytes of a `&str` changes no byte outside the
one block it allocated. -/
theorem C31_str_stays_inside_partial (text : Str) (dataOff lenOff : Nat) (s s' : σ) (addr : Nat)
    (hd : dataOff + 8 ≤ 16) (hl : lenOff + 8 ≤ 16)
    (h : createStr R text dataOff lenOff s = (.ok addr, s')) :
    ∃ base s1, R.alloc ((utf8 text).length + 16) s = (some base, s1) ∧
      base ≤ addr ∧ addr + 16 ≤ base + ((utf8 text).length + 16) ∧
      ∀ x, x < base ∨ base + ((utf8 text).length + 16) ≤ x → mem s' x = mem s x := by
  obtain ⟨base, s1, ha, he, hm, h1, h2, h3, h4, h5, bs, h6, h7⟩ := createStr_effect hR text dataOff lenOff s s' addr h
  refine ⟨base, s1, ha, by omega, by omega, fun x hx => ?_⟩
  rw [hm, put_out _ _ _ _ (by rw [le8_length]; omega), put_out _ _ _ _ (by rw [le8_length]; omega),
    put_out _ _ _ _ (by omega)]
  exact (hR.alloc_block _ _ _ _ ha).2.2.1 x hx

/-- C31 is false of the code for a layout with a field at offset 16, which passes the sanity check
(`<= 16`): the length is written right behind the allocated block. -/
theorem C31_offset_16_fails (text : Str) (s s' : σ) (addr : Nat)
    (h : createStr R text 0 16 s = (.ok addr, s')) :
    ∃ base s1, R.alloc ((utf8 text).length + 16) s = (some base, s1) ∧
      (mem s').HoldsNat (base + ((utf8 text).length + 16)) 8 (utf8 text).length := by
  obtain ⟨base, s1, ha, he, hm, h1, h2, h3, h4, h5, bs, h6, h7⟩ := createStr_effect hR text 0 16 s s' addr h
  exact ⟨base, s1, ha, by rw [he, Nat.add_assoc] at h5; exact h5⟩

/-- C31: creating a `&str` of at most one megabyte does succeed whenever the allocation does, for the
layout rustc uses (pointer and length in either order). -/
theorem C31_str_succeeds (text : Str) (dataOff lenOff : Nat) (s s1 : σ) (base : Nat)
    (ho : (dataOff = 0 ∧ lenOff = 8) ∨ (dataOff = 8 ∧ lenOff = 0))
    (hlen : (utf8 text).length ≤ 1024 * 1024)
    (ha : R.alloc ((utf8 text).length + 16) s = (some base, s1))
    (hlossy : R.lossy (utf8 text) = text) :
    ∃ s', createStr R text dataOff lenOff s = (.ok (base + (utf8 text).length), s') := by
  obtain ⟨hb1, hb2, _⟩ := hR.alloc_block _ _ _ _ ha
  generalize hN : (utf8 text).length = N at *
  have hmap : ∀ b n, base ≤ b → b + n ≤ base + (N + 16) → (mem s1).Mapped b n := by
    intro b n h1 h2 i hi
    have := hb2 (b + i - base) (by omega)
    rwa [show base + (b + i - base) = b + i by omega] at this
  obtain ⟨s2, w2⟩ := hR.write_mapped base (utf8 text) s1 (hmap _ _ (by omega) (by omega))
  have e2 := (hR.write_effect _ _ _ _ w2).1
  obtain ⟨s3, w3⟩ := hR.write_mapped (base + N + dataOff) (le8 base) s2
    (by rw [e2, le8_length]; exact put_mapped _ _ _ _ _ (hmap _ _ (by omega) (by omega)))
  have e3 := (hR.write_effect _ _ _ _ w3).1
  obtain ⟨s4, w4⟩ := hR.write_mapped (base + N + lenOff) (le8 N) s3
    (by rw [e3, e2, le8_length]
        exact put_mapped _ _ _ _ _ (put_mapped _ _ _ _ _ (hmap _ _ (by omega) (by omega))))
  have e4 := (hR.write_effect _ _ _ _ w4).1
  have hold : ∀ a bs, (mem s4).HoldsBytes a bs → R.read a bs.length s4 = some bs := by
    intro a bs h
    rw [hR.read_slice]
    exact ((mem s4).slice_eq_some _ _ _).2 ⟨rfl, h⟩
  have r1 : (mem s4).HoldsBytes (base + N + dataOff) (le8 base) := by
    rw [e4]
    refine holds_congr (mem s3) _ _ _ (by rw [e3]; exact put_holds _ _ _) ?_
    intro x h1 h2
    rw [le8_length] at h2
    exact put_out _ _ _ _ (by rw [le8_length]; omega)
  have r2 : (mem s4).HoldsBytes (base + N + lenOff) (le8 N) := by
    rw [e4]; exact put_holds _ _ _
  have r3 : (mem s4).HoldsBytes base (utf8 text) := by
    rw [e4, e3]
    refine holds_congr (mem s2) _ _ _ (by rw [e2]; exact put_holds _ _ _) ?_
    intro x h1 h2
    rw [put_out _ _ _ _ (by rw [le8_length]; omega), put_out _ _ _ _ (by rw [le8_length]; omega)]
  have dec : ∀ v, v < u64Max1 → leNat (le8 v) = v := by
    intro v hv
    rw [le8_eq, leNat_encNat, Nat.mod_eq_of_lt (by simpa [u64Max1] using hv)]
  have rb : ∀ a v, (mem s4).HoldsBytes a (le8 v) → R.load a 8 s4 = (.ok (le8 v), s4) := by
    intro a v h
    have := hold a (le8 v) h
    rw [le8_length] at this
    exact Remote.load_eq_ok.2 ⟨this, rfl⟩
  have r8 : ∀ v, v < u64Max1 → eightBytes (le8 v) = .ok v := by
    intro v hv
    simp [eightBytes, le8_length, dec v hv]
  have lf : ∀ {α : Type} {r : Res α} {a : α} {s : σ}, r = .ok a → Act.lift r s = (.ok a, s) := fun h => Act.lift_eq_ok.2 ⟨h, rfl⟩
  refine ⟨s4, ?_⟩
  unfold createStr
  simp only [hN]
  rw [if_neg (by omega), Act.bind_ok (lf (addU_ok (by omega))), Act.bind_ok (Remote.allocate_eq_ok.2 ha),
    Act.bind_ok (Remote.store_eq_ok (u := ()).2 w2), Act.bind_ok (lf (addU_ok (by omega))), Act.bind_ok (lf (addU_ok (by omega))),
    Act.bind_ok (Remote.store_eq_ok (u := ()).2 w3), Act.bind_ok (lf (addU_ok (by omega))), Act.bind_ok (Remote.store_eq_ok (u := ()).2 w4),
    Act.bind_ok (rb _ _ r1), Act.bind_ok (rb _ _ r2), Act.bind_ok (lf (r8 _ (by omega))), Act.bind_ok (lf (r8 _ (by omega)))]
  have := hold _ _ r3
  rw [hN] at this
  rw [if_neg (by simp), if_neg (by simp), if_neg (by omega), Act.bind_ok (Remote.load_eq_ok.2 ⟨this, rfl⟩), if_neg (by simp [hlossy])]
  rfl

/-- C31: creating a `String` whose three fields lie, disjoint, in the 24 bytes of a `String` allocates
the contents and the struct, changes no byte outside these two blocks, and reads back as exactly the
given text. -/
theorem C31_string_partial (text : Str) (lenOff dataOff capOff : Nat) (s s' : σ) (addr : Nat)
    (hl : lenOff + 8 ≤ 24) (hd : dataOff + 8 ≤ 24) (hc : capOff + 8 ≤ 24)
    (h1 : lenOff + 8 ≤ dataOff ∨ dataOff + 8 ≤ lenOff) (h2 : lenOff + 8 ≤ capOff ∨ capOff + 8 ≤ lenOff)
    (h3 : capOff + 8 ≤ dataOff ∨ dataOff + 8 ≤ capOff)
    (h : createString R text lenOff dataOff capOff s = (.ok addr, s')) :
    ∃ content s1 s2 s3, R.alloc (utf8 text).length s = (some content, s1) ∧ R.alloc 24 s2 = (some addr, s3) ∧
      (∀ x, x < content ∨ content + (utf8 text).length ≤ x → x < addr ∨ addr + 24 ≤ x → mem s' x = mem s x) ∧
      (mem s').HoldsNat (addr + capOff) 8 (utf8 text).length ∧
      ∀ (T : Target), T.Reads (mem s') → T.lossy (utf8 text) = text → ∀ (f : Nat) (loc : Option Nat) (e : TypeDef),
        readMem T (f + 1) addr (.mk loc (.string lenOff dataOff capOff e)) =
          .ok (.scalar (chars! "String") (chars! "\"" ++ text ++ chars! "\"")) := by
  unfold createString at h
  simp only [Act.bind_eq_ok, Act.lift_eq_ok, Remote.allocate_eq_ok, Remote.store_eq_ok] at h
  obtain ⟨content, s1, a1, _, s2, w1, addr', s3, a2, _, s4, w2, la, _, ⟨f1, rfl⟩, _, s5, w3, pa, _, ⟨f2, rfl⟩, _, s6, w4, ca, _, ⟨f3, rfl⟩, _,
    s7, w5, h, rfl⟩ := h
  simp only [Res.ok.injEq] at h
  subst h
  obtain ⟨i1, rfl⟩ := addU_eq_ok.1 f1
  obtain ⟨i2, rfl⟩ := addU_eq_ok.1 f2
  obtain ⟨i3, rfl⟩ := addU_eq_ok.1 f3
  obtain ⟨b1, b2, b3, b4, b5⟩ := hR.alloc_block _ _ _ _ a1
  obtain ⟨c1, c2, c3, c4, c5⟩ := hR.alloc_block _ _ _ _ a2
  obtain ⟨e1, o1⟩ := hR.write_effect _ _ _ _ w1
  have e2 := (hR.write_effect _ _ _ _ w2).1
  have e3 := (hR.write_effect _ _ _ _ w3).1
  have e4 := (hR.write_effect _ _ _ _ w4).1
  have e5 := (hR.write_effect _ _ _ _ w5).1
  -- the two blocks are disjoint
  have hdis : ∀ x, content ≤ x → x < content + (utf8 text).length → x < addr' ∨ addr' + 24 ≤ x := by
    intro x hx1 hx2
    by_cases hh : x < addr' ∨ addr' + 24 ≤ x
    · exact hh
    · exact absurd ((o1 x).2 ((b5 x).2 (Or.inr ⟨hx1, hx2⟩))) (c4 x (by omega) (by omega))
  have houter : ∀ x, x < addr' ∨ addr' + 24 ≤ x → mem s7 x = mem s2 x := by
    intro x hx
    rw [e5, e4, e3, e2, put_out _ _ _ _ (by rw [le8_length]; omega), put_out _ _ _ _ (by rw [le8_length]; omega),
      put_out _ _ _ _ (by rw [le8_length]; omega), put_out _ _ _ _ (by simp; omega)]
    exact c3 x hx
  have hcont : (mem s7).HoldsBytes content (utf8 text) := by
    refine holds_congr (mem s2) _ _ _ (by rw [e1]; exact put_holds _ _ _) ?_
    intro x hx1 hx2
    exact houter x (hdis x hx1 hx2)
  have hcap : (mem s7).HoldsBytes (addr' + capOff) (le8 (utf8 text).length) := by
    rw [e5]; exact put_holds _ _ _
  have hptr : (mem s7).HoldsBytes (addr' + dataOff) (le8 content) := by
    rw [e5]
    refine holds_congr (mem s6) _ _ _ (by rw [e4]; exact put_holds _ _ _) ?_
    intro x hx1 hx2
    rw [le8_length] at hx2
    exact put_out _ _ _ _ (by rw [le8_length]; omega)
  have hln : (mem s7).HoldsBytes (addr' + lenOff) (le8 (utf8 text).length) := by
    rw [e5, e4]
    refine holds_congr (mem s5) _ _ _ (by rw [e3]; exact put_holds _ _ _) ?_
    intro x hx1 hx2
    rw [le8_length] at hx2
    rw [put_out _ _ _ _ (by rw [le8_length]; omega), put_out _ _ _ _ (by rw [le8_length]; omega)]
  refine ⟨content, s1, s2, s3, a1, a2, ?_, holds_le8 _ _ _ (by omega) hcap, ?_⟩
  · intro x hx1 hx2
    rw [houter x hx2, e1, put_out _ _ _ _ hx1]
    exact b3 x hx1
  · intro T hT hlossy f loc e
    rw [(C24_string T _ hT f addr' loc lenOff dataOff capOff e (utf8 text).length content
      (holds_le8 _ _ _ (by omega) hln) (holds_le8 _ _ _ (by omega) hptr) i1 i2).1 (utf8 text) rfl hcont, hlossy]

end

/-- C31: a string is created only where a `&str` or a `String` is expected. -/
theorem C31_only_strings {σ : Type} (R : Remote σ) (text : Str) (t : TypeDef) (s s' : σ) (a : Nat)
    (h : createTyped R text t s = (.ok a, s')) :
    (∃ d l, t.layout = .strSlice d l ∧ createStr R text d l s = (.ok a, s')) ∨
      (∃ l d c e, t.layout = .string l d c e ∧ createString R text l d c s = (.ok a, s')) := by
  unfold createTyped at h
  generalize t.layout = y at h
  cases y <;> first
    | exact Or.inl ⟨_, _, rfl, h⟩
    | exact Or.inr ⟨_, _, _, _, rfl, h⟩
    | (simp [Act.lift] at h)

/-! A concrete process meeting the hypotheses: a bump allocator over zeroed memory. -/

/-- State: memory and the next free address. -/
def bumpRemote : Remote (Mem × Nat) where
  alloc n s := if s.2 + n < u64Max1 then (some s.2, (s.1.put s.2 (List.replicate n 0), s.2 + n)) else (none, s)
  write a bs s := if (s.1.slice a bs.length).isSome then (some (), (s.1.put a bs, s.2)) else (none, s)
  read a n s := s.1.slice a n
  lossy bs := bs.map fun b => Char.ofNat b.toNat

theorem bumpRemote_backed : bumpRemote.Backed (fun s => s.1) (fun s x => x < s.2) where
  alloc_block := by
    intro n s a s' h
    simp only [bumpRemote] at h
    split at h
    · simp only [Prod.mk.injEq, Option.some.injEq] at h
      obtain ⟨rfl, rfl⟩ := h
      refine ⟨by assumption, ?_, ?_, ?_, ?_⟩
      · intro i hi
        simp only
        rw [put_in _ _ _ _ (by omega) (by simp; omega)]
        simp [hi]
      · intro x hx; exact put_out _ _ _ _ (by simpa using hx)
      · intro x h1 h2; show ¬ x < s.2; omega
      · intro x; show x < s.2 + n ↔ x < s.2 ∨ (s.2 ≤ x ∧ x < s.2 + n); omega
    · simp at h
  write_effect := by
    intro a bs s s' h
    simp only [bumpRemote] at h
    split at h
    · cases h; exact ⟨rfl, fun x => Iff.rfl⟩
    · simp at h
  write_mapped := by
    intro a bs s h
    obtain ⟨b, hb⟩ := Mem.slice_isSome _ _ _ h
    exact ⟨(s.1.put a bs, s.2), by simp [bumpRemote, hb]⟩
  read_slice := fun _ _ _ => rfl

/-- The theorems apply to creating `"hi"`. -/
example : ∃ s', createStr bumpRemote (chars! "hi") 0 8 (fun _ => none, 1000) = (.ok 1002, s') :=
  C31_str_succeeds bumpRemote_backed (chars! "hi") 0 8 (fun _ => none, 1000) _ 1000 (Or.inl ⟨rfl, rfl⟩)
    (by decide) rfl rfl

/-- So does the failing case, when memory behind the block is mapped. -/
example : ∃ s', createStr bumpRemote (chars! "hi") 0 16 (fun _ => some 0, 1000) = (.ok 1002, s') := ⟨_, rfl⟩

example : ∃ s', createString bumpRemote (chars! "hi") 16 8 0 (fun _ => none, 1000) = (.ok 1002, s') := ⟨_, rfl⟩

end Rudy.Data
