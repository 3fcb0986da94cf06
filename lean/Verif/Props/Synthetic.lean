import Verif.Model.Index
import Verif.Props.Memory
/-
Property theorems C26 (Option against is_some/is_none) and C32 (synthetic methods).
-/
set_option linter.unusedSimpArgs false
namespace Rudy.Data
open Rudy Rudy.Layout

/-! ### Specification -/

/-- The displayed result `true` or `false` of type `bool`. -/
def shownBool (b : Bool) : Value := .scalar (chars! "bool") (toString b).toList

/-- The displayed result `n` of type `usize`. -/
def shownUsize (n : Nat) : Value := .scalar (chars! "usize") (toString n).toList

theorem boolValue_eq (b : Bool) : boolValue b = shownBool b := by cases b <;> rfl
theorem usizeValue_eq (n : Nat) : usizeValue n = shownUsize n := by simp [usizeValue, shownUsize, natStr_toString]

theorem shownBool_inj {a b : Bool} (h : shownBool a = shownBool b) : a = b := by
  cases a <;> cases b <;> first | rfl | (exfalso; revert h; simp [shownBool, toString])

theorem beq0 (d : Nat) : (d == 0) = decide (d = 0) := by by_cases h : d = 0 <;> simp [h]
theorem bne0 (d : Nat) : (d != 0) = decide (d ≠ 0) := by by_cases h : d = 0 <;> simp [h]
theorem isEmpty_len (l : List Value) : decide (l.length = 0) = l.isEmpty := by cases l <;> simp

theorem readUsize_ok (T : Target) (m : Mem) (hT : T.Reads m) (a off n : Nat) (h : m.HoldsNat (a + off) 8 n)
    (ha : a + off < u64Max1) : readUsize T a off = .ok n := by
  obtain ⟨bs, h1, h2⟩ := (m.holdsNat_iff _ _ _).1 h
  unfold readUsize usizeFromBytes
  rw [addU_ok ha, Res.bind_ok, (readE_ok hT _ _ _).2 h1, Res.bind_ok, if_pos (m.slice_length _ _ _ h1), h2]

theorem readTag_ok (T : Target) (m : Mem) (hT : T.Reads m) (a d : Nat) (disc : Disc)
    (hs : disc.size ∈ [1, 2, 4, 8])
    (h : m.HoldsNat (a + disc.offset) disc.size d) (ha : a + disc.offset < u64Max1) :
    readTag T a disc = .ok (disc.size, d) := by
  obtain ⟨bs, h1, h2⟩ := (m.holdsNat_iff _ _ _).1 h
  unfold readTag
  have hl := m.slice_length _ _ _ h1
  rw [addU_ok ha, Res.bind_ok, (readE_ok hT _ _ _).2 h1, Res.bind_ok, hl, if_pos (by simpa using hs), h2]

/-! ### C26 -/

section
variable (T : Target) (m : Mem) (hT : T.Reads m) (f a d : Nat) (loc : Option Nat) (name : Str) (disc : Disc)
  (someOff : Nat) (someTy : TypeDef) (size : Nat)
  (ha : a + disc.offset < u64Max1) (hs : disc.size ∈ [1, 2, 4, 8])
  (hd : m.HoldsNat (a + disc.offset) disc.size d)
include hT ha hs hd

/-- C26: `is_some` and `is_none` tell whether the whole stored discriminant is non-zero; they are
complementary. -/
theorem C26_complementary :
    evalSynthetic T a (.mk loc (.option name disc someOff someTy size)) (chars! "is_some") = .ok (shownBool (decide (d ≠ 0))) ∧
    evalSynthetic T a (.mk loc (.option name disc someOff someTy size)) (chars! "is_none") = .ok (shownBool (decide (d = 0))) := by
  simp only [evalSynthetic, TypeDef.layout, optionMethod]
  rw [readTag_ok T m hT a d disc hs hd ha]
  simp only [Res.bind_ok, boolValue_eq]
  constructor
  · rw [if_pos trivial, bne0]
  · rw [if_neg (by decide), if_pos trivial, beq0]

/-- What the display of an option depends on: the lowest byte of the discriminant. -/
theorem option_display :
    readMem T (f + 1) a (.mk loc (.option name disc someOff someTy size)) =
      if d % 256 = 0 then .ok (.scalar (chars! "Option<" ++ someTy.displayName ++ chars! ">") (chars! "None"))
      else (addU a someOff).bind fun sa => (readMem T f sa someTy).bind fun v => .ok (v.wrapType (chars! "Option")) := by
  obtain ⟨bs, h1, h2⟩ := (m.holdsNat_iff _ _ _).1 hd
  have hl := m.slice_length _ _ _ h1
  simp only [readMem, readLayout]
  rw [addU_ok ha, Res.bind_ok, (readE_ok hT _ _ _).2 h1, Res.bind_ok]
  cases bs with
  | nil => exfalso; rw [← hl] at hs; simp at hs
  | cons b bs =>
    have hb := b.toNat_lt
    have hm : d % 256 = b.toNat := by rw [← h2]; simp only [leNat]; omega
    simp only
    by_cases h0 : b = 0
    · rw [if_pos h0, if_pos (by rw [hm, h0]; rfl)]; rfl
    · rw [if_neg h0, if_neg]
      rw [hm]
      intro hc
      apply h0
      exact UInt8.toNat_inj.1 (by simpa using hc)

/-- C26: for a discriminant that fits a byte — in particular the tags 0 and 1 of an ordinary `Option`,
whatever the width of the tag — the displayed value is `None` exactly when `is_none()` is true, and the
displayed value is the payload exactly when `is_some()` is true. -/
theorem C26_agreement_partial (h256 : d < 256) :
    (evalSynthetic T a (.mk loc (.option name disc someOff someTy size)) (chars! "is_none") = .ok (shownBool true) →
      readMem T (f + 1) a (.mk loc (.option name disc someOff someTy size)) =
        .ok (.scalar (chars! "Option<" ++ someTy.displayName ++ chars! ">") (chars! "None"))) ∧
    (evalSynthetic T a (.mk loc (.option name disc someOff someTy size)) (chars! "is_some") = .ok (shownBool true) →
      a + someOff < u64Max1 →
      readMem T (f + 1) a (.mk loc (.option name disc someOff someTy size)) =
        (readMem T f (a + someOff) someTy).bind fun v => .ok (v.wrapType (chars! "Option"))) := by
  obtain ⟨h1, h2⟩ := C26_complementary T m hT a d loc name disc someOff someTy size ha hs hd
  rw [h1, h2, option_display T m hT f a d loc name disc someOff someTy size ha hs hd]
  constructor
  · intro h
    have h : d = 0 := by
      have := shownBool_inj (Res.ok.inj h); simpa using this
    rw [if_pos (by omega)]
  · intro h hso
    have h : d ≠ 0 := by
      have := shownBool_inj (Res.ok.inj h); simpa using this
    rw [if_neg (by omega), addU_ok hso, Res.bind_ok]

/-- C26 is false of the code for every wider discriminant whose lowest byte is zero and which is not
zero itself — e.g. an `Option<Box<T>>` whose box happens to lie at a multiple of 256, the pointer being
its own discriminant: it is displayed as `None` although `is_some()` is true. -/
theorem C26_low_byte_fails (h0 : d ≠ 0) (hl : d % 256 = 0) :
    readMem T (f + 1) a (.mk loc (.option name disc someOff someTy size)) =
        .ok (.scalar (chars! "Option<" ++ someTy.displayName ++ chars! ">") (chars! "None")) ∧
      evalSynthetic T a (.mk loc (.option name disc someOff someTy size)) (chars! "is_some") = .ok (shownBool true) := by
  obtain ⟨h1, _⟩ := C26_complementary T m hT a d loc name disc someOff someTy size ha hs hd
  rw [h1, option_display T m hT f a d loc name disc someOff someTy size ha hs hd, if_pos hl]
  simp [h0]
end

/-- The hypotheses of C26 are met, by a box at 0x1000 (the failing case) and by a tag. -/
example : (demoMem 0 (encNat 8 0x1000)).HoldsNat (0 + 0) 8 0x1000 ∧ (0x1000 : Nat) % 256 = 0 ∧
    (demoMem 0 (encNat 4 1)).HoldsNat (0 + 0) 4 1 :=
  ⟨(Mem.holdsNat_iff _ _ _ _).2 ⟨_, rfl, rfl⟩, rfl, (Mem.holdsNat_iff _ _ _ _).2 ⟨_, rfl, rfl⟩⟩

/-- C26 where the debug info gives the discriminant no integer type: the four bytes at its place decide, and without four bytes there
nothing is told. -/
theorem C26_untyped_tag (T : Target) (m : Mem) (hT : T.Reads m) (a o : Nat) (loc : Option Nat) (name : Str) (someOff : Nat) (someTy : TypeDef)
    (size : Nat) (ha : a + o < u64Max1) :
    (∀ d, m.HoldsNat (a + o) 4 d →
      evalSynthetic T a (.mk loc (.option name ⟨.implicit, o⟩ someOff someTy size)) (chars! "is_some") = .ok (shownBool (decide (d ≠ 0))) ∧
      evalSynthetic T a (.mk loc (.option name ⟨.implicit, o⟩ someOff someTy size)) (chars! "is_none") = .ok (shownBool (decide (d = 0)))) ∧
    ((∀ d, ¬ m.HoldsNat (a + o) 4 d) → ∀ f,
      evalSynthetic T a (.mk loc (.option name ⟨.implicit, o⟩ someOff someTy size)) (chars! "is_some") = .err ∧
      readMem T (f + 1) a (.mk loc (.option name ⟨.implicit, o⟩ someOff someTy size)) = .err) := by
  refine ⟨fun d hd => C26_complementary T m hT a d loc name ⟨.implicit, o⟩ someOff someTy size ha (by simp [Disc.size]) hd, fun h f => ?_⟩
  rcases readE_cases hT (a + o) 4 with ⟨bs, hb, -, -⟩ | ⟨-, -, hr⟩
  · exact absurd ((m.holdsNat_iff _ _ _).2 ⟨bs, hb, rfl⟩) (h _)
  · have hr : T.readE (a + o) 4 = .err := hr
    simp only [evalSynthetic, TypeDef.layout, optionMethod, readMem, readLayout, readTag, addU_ok ha, Res.bind_ok, Disc.size, hr, Res.bind_err]
    simp

/-- The hypotheses of `C26_untyped_tag` are met, by four bytes and by three. -/
example : (demoMem 0 [0, 1, 0, 0]).HoldsNat (0 + 0) 4 256 ∧ (demoMem 0 [0, 1, 0]).slice (0 + 0) 4 = none :=
  ⟨(Mem.holdsNat_iff _ _ _ _).2 ⟨_, rfl, rfl⟩, rfl⟩

/-- C26 is false of the code in another way: the zero test ignores which discriminant value the debug
info gives for `None`. In an `Option<Vec<T>>` the capacity is the discriminant and 2^63 means `None`:
`None` is reported as `is_some()`, and `Some(vec![])` is displayed as `None`. -/
theorem C26_niche_value_fails (T : Target) (m : Mem) (hT : T.Reads m) (f a : Nat) (loc : Option Nat) (name : Str)
    (inner : TypeDef) (size : Nat) (ha : a < u64Max1) :
    (m.HoldsNat a 8 (2 ^ 63) →
      evalSynthetic T a (.mk loc (.option name ⟨.uint 8, 0⟩ 0 inner size)) (chars! "is_none") = .ok (shownBool false)) ∧
    (m.HoldsNat a 8 0 →
      readMem T (f + 1) a (.mk loc (.option name ⟨.uint 8, 0⟩ 0 inner size)) =
        .ok (.scalar (chars! "Option<" ++ inner.displayName ++ chars! ">") (chars! "None"))) := by
  constructor
  · intro h
    have := (C26_complementary T m hT a (2 ^ 63) loc name ⟨.uint 8, 0⟩ 0 inner size ha (by simp [Disc.size]) h).2
    simpa using this
  · intro h
    rw [option_display T m hT f a 0 loc name ⟨.uint 8, 0⟩ 0 inner size ha (by simp [Disc.size]) h]
    simp

/-! ### C32 -/

/-- C32: `len()` of a `Vec` is the number of elements shown when it is read, and `is_empty()` tells
whether there are none. -/
theorem C32_vec (T : Target) (m : Mem) (hT : T.Reads m) (f a : Nat) (loc : Option Nat)
    (lenOff dataOff capOff : Nat) (e : TypeDef) (ty : Str) (items : List Value)
    (h : readMem T (f + 1) a (.mk loc (.vec lenOff dataOff capOff e)) = .ok (.array ty items)) :
    evalSynthetic T a (.mk loc (.vec lenOff dataOff capOff e)) (chars! "len") = .ok (shownUsize items.length) ∧
    evalSynthetic T a (.mk loc (.vec lenOff dataOff capOff e)) (chars! "is_empty") = .ok (shownBool items.isEmpty) := by
  have hla : a + lenOff < u64Max1 := by
    simp only [readMem, readLayout, vecInfo, Res.bind_eq_ok] at h
    obtain ⟨_, _, _, _, _, ⟨la, hla, _⟩, _⟩ := h
    exact (addU_eq_ok.1 hla).1
  obtain ⟨et, esz, len, data, _, _, h3, _, h5⟩ := C24_vec T m hT f a loc lenOff dataOff capOff e _ h
  simp only [Value.array.injEq] at h5
  have hlen : items.length = len := by rw [h5.2]; simp [elements]
  have hr := readUsize_ok T m hT a lenOff len h3 hla
  simp only [evalSynthetic, TypeDef.layout, vecMethod]
  rw [hr, if_pos trivial, if_neg (by decide), if_neg (by decide), if_pos trivial]
  simp only [Res.bind_ok, usizeValue_eq, boolValue_eq, ← hlen, true_and, beq0, isEmpty_len]

/-- C32: `capacity()` of a `Vec` is the stored capacity. -/
theorem C32_capacity (T : Target) (m : Mem) (hT : T.Reads m) (a cap : Nat) (loc : Option Nat)
    (lenOff dataOff capOff : Nat) (e : TypeDef) (h : m.HoldsNat (a + capOff) 8 cap) (ha : a + capOff < u64Max1) :
    evalSynthetic T a (.mk loc (.vec lenOff dataOff capOff e)) (chars! "capacity") = .ok (shownUsize cap) := by
  simp only [evalSynthetic, TypeDef.layout, vecMethod]
  rw [readUsize_ok T m hT a capOff cap h ha, if_neg (by decide), if_pos trivial]
  simp [usizeValue_eq]

/-- C32: `len()` of a slice (length at offset 8, as in every Rust slice) is the number of elements shown
when it is read, and `is_empty()` tells whether there are none. -/
theorem C32_slice (T : Target) (m : Mem) (hT : T.Reads m) (f a : Nat) (loc : Option Nat)
    (dataOff : Nat) (e : TypeDef) (ty : Str) (items : List Value)
    (h : readMem T (f + 1) a (.mk loc (.slice e dataOff 8)) = .ok (.array ty items)) :
    evalSynthetic T a (.mk loc (.slice e dataOff 8)) (chars! "len") = .ok (shownUsize items.length) ∧
    evalSynthetic T a (.mk loc (.slice e dataOff 8)) (chars! "is_empty") = .ok (shownBool items.isEmpty) := by
  have hla : a + 8 < u64Max1 := by
    simp only [readMem, readLayout, Res.bind_eq_ok] at h
    obtain ⟨la, hla, _⟩ := h
    exact (addU_eq_ok.1 hla).1
  obtain ⟨et, esz, len, data, _, _, h3, _, h5⟩ := C24_slice T m hT f a loc dataOff 8 e _ h
  simp only [Value.array.injEq] at h5
  have hlen : items.length = len := by rw [h5.2]; simp [elements]
  have hr := readUsize_ok T m hT a 8 len h3 hla
  simp only [evalSynthetic, TypeDef.layout, sliceMethod]
  rw [hr, if_pos trivial, if_neg (by decide), if_pos trivial]
  simp only [Res.bind_ok, usizeValue_eq, boolValue_eq, ← hlen, true_and, beq0, isEmpty_len]

/-- C32: `len()` of an array is the number of elements shown when it is read. -/
theorem C32_array (T : Target) (f a n : Nat) (loc : Option Nat) (e : TypeDef) (ty : Str) (items : List Value)
    (h : readMem T (f + 1) a (.mk loc (.array e n)) = .ok (.array ty items)) :
    evalSynthetic T a (.mk loc (.array e n)) (chars! "len") = .ok (shownUsize items.length) := by
  obtain ⟨et, esz, _, _, h5⟩ := C24_array T f a loc e n _ h
  simp only [Value.array.injEq] at h5
  have hlen : items.length = n := by rw [h5.2]; simp [elements]
  simp [evalSynthetic, TypeDef.layout, arrayMethod, usizeValue_eq, hlen]

/-- C32: `len()` of a `String` is the number of bytes shown when it is read, and `is_empty()` tells
whether there are none. -/
theorem C32_string (T : Target) (m : Mem) (hT : T.Reads m) (a : Nat) (loc : Option Nat)
    (lenOff dataOff capOff : Nat) (e : TypeDef) (len : Nat)
    (hl : m.HoldsNat (a + lenOff) 8 len) (hla : a + lenOff < u64Max1) :
    evalSynthetic T a (.mk loc (.string lenOff dataOff capOff e)) (chars! "len") = .ok (shownUsize len) ∧
    evalSynthetic T a (.mk loc (.string lenOff dataOff capOff e)) (chars! "is_empty") = .ok (shownBool (decide (len = 0))) := by
  simp only [evalSynthetic, TypeDef.layout, stringMethod, vecMethod]
  rw [readUsize_ok T m hT a lenOff len hl hla]
  simp [usizeValue_eq, boolValue_eq, beq0]

/-- C32: `capacity()` of a `String`, which is not advertised, is answered with the stored capacity. -/
theorem C32_string_capacity (T : Target) (m : Mem) (hT : T.Reads m) (a cap : Nat) (loc : Option Nat)
    (lenOff dataOff capOff : Nat) (e : TypeDef) (hc : m.HoldsNat (a + capOff) 8 cap) (hca : a + capOff < u64Max1) :
    evalSynthetic T a (.mk loc (.string lenOff dataOff capOff e)) (chars! "capacity") = .ok (shownUsize cap) := by
  simp only [evalSynthetic, TypeDef.layout, stringMethod, vecMethod]
  rw [readUsize_ok T m hT a capOff cap hc hca]
  simp [usizeValue_eq]

/-- C32: the same for `&str` (length at offset 8, as in every Rust `&str`). -/
theorem C32_str_slice (T : Target) (m : Mem) (hT : T.Reads m) (a : Nat) (loc : Option Nat)
    (dataOff : Nat) (len : Nat) (hl : m.HoldsNat (a + 8) 8 len) (hla : a + 8 < u64Max1) :
    evalSynthetic T a (.mk loc (.strSlice dataOff 8)) (chars! "len") = .ok (shownUsize len) ∧
    evalSynthetic T a (.mk loc (.strSlice dataOff 8)) (chars! "is_empty") = .ok (shownBool (decide (len = 0))) := by
  simp only [evalSynthetic, TypeDef.layout, sliceMethod]
  rw [readUsize_ok T m hT a 8 len hl hla]
  simp [usizeValue_eq, boolValue_eq, beq0]

/-- C32: `is_ok` and `is_err` are complementary. -/
theorem C32_result_complementary (T : Target) (m : Mem) (hT : T.Reads m) (a d : Nat) (loc : Option Nat) (name : Str)
    (disc : Disc) (ok : TypeDef) (okOff : Nat) (err : TypeDef) (errOff size : Nat)
    (ha : a + disc.offset < u64Max1) (hs : disc.size ∈ [1, 2, 4, 8])
    (hd : m.HoldsNat (a + disc.offset) disc.size d) :
    ∃ b, evalSynthetic T a (.mk loc (.result name disc ok okOff err errOff size)) (chars! "is_ok") = .ok (shownBool b) ∧
      evalSynthetic T a (.mk loc (.result name disc ok okOff err errOff size)) (chars! "is_err") = .ok (shownBool (!b)) := by
  simp only [evalSynthetic, TypeDef.layout, resultMethod]
  rw [readTag_ok T m hT a d disc hs hd ha]
  refine ⟨resultIsOk disc.size d, ?_, ?_⟩
  · simp [boolValue_eq]
  · simp [boolValue_eq]

/-- C32 is false of the code for ordinary tagged results: for a `Result` with a 4- or 8-byte tag (`Ok` 0,
`Err` 1, as rustc lays out `Result<u32, u32>` or `Result<u64, u64>`) an `Err` is reported as `is_ok()`. -/
theorem C32_result_tag_fails (T : Target) (m : Mem) (hT : T.Reads m) (a : Nat) (loc : Option Nat) (name : Str)
    (disc : Disc) (ok : TypeDef) (okOff : Nat) (err : TypeDef) (errOff size : Nat)
    (ha : a + disc.offset < u64Max1) (hs : disc.size = 4 ∨ disc.size = 8)
    (hd : m.HoldsNat (a + disc.offset) disc.size 1) :
    evalSynthetic T a (.mk loc (.result name disc ok okOff err errOff size)) (chars! "is_ok") = .ok (shownBool true) := by
  simp only [evalSynthetic, TypeDef.layout, resultMethod]
  rw [readTag_ok T m hT a 1 disc (by simp; omega) hd ha]
  rcases hs with hs | hs <;> simp [hs, resultIsOk, boolValue_eq]

/-- C32: with a 1- or 2-byte tag, `is_ok()` is true exactly for the tag 0, and for a discriminant of 4 or
8 bytes exactly when its highest bit is clear. -/
theorem C32_result_exact (T : Target) (m : Mem) (hT : T.Reads m) (a d : Nat) (loc : Option Nat) (name : Str)
    (disc : Disc) (ok : TypeDef) (okOff : Nat) (err : TypeDef) (errOff size : Nat)
    (ha : a + disc.offset < u64Max1) (hs : disc.size ∈ [1, 2, 4, 8])
    (hd : m.HoldsNat (a + disc.offset) disc.size d) :
    evalSynthetic T a (.mk loc (.result name disc ok okOff err errOff size)) (chars! "is_ok") =
      .ok (shownBool (if disc.size ≤ 2 then decide (d = 0) else decide (2 * d < 256 ^ disc.size))) := by
  simp only [evalSynthetic, TypeDef.layout, resultMethod]
  rw [readTag_ok T m hT a d disc hs hd ha]
  simp only [Res.bind_ok, if_pos, boolValue_eq]
  congr 2
  simp only [List.mem_cons, List.not_mem_nil, or_false] at hs
  rcases hs with hs | hs | hs | hs <;> simp [hs, resultIsOk]
  · by_cases h : d = 0 <;> simp [h]
  · by_cases h : d = 0 <;> simp [h]
  · omega
  · omega

/-- Specification: everything a synthetic method may look at lies in the address space, and a
discriminant has one of the widths a Rust tag can have. -/
def InSpace (a : Nat) : Layout → Prop
  | .vec lenOff _ capOff _ => a + lenOff < u64Max1 ∧ a + capOff < u64Max1
  | .string lenOff _ capOff _ => a + lenOff < u64Max1 ∧ a + capOff < u64Max1
  | .option _ disc _ _ _ => a + disc.offset < u64Max1 ∧ disc.size ∈ [1, 2, 4, 8]
  | .result _ disc _ _ _ _ _ => a + disc.offset < u64Max1 ∧ disc.size ∈ [1, 2, 4, 8]
  | .slice .. => a + 8 < u64Max1
  | .strSlice .. => a + 8 < u64Max1
  | _ => True

theorem mapped_nat (m : Mem) (hm : ∀ x, (m x).isSome) (a s : Nat) : ∃ n, m.HoldsNat a s n := by
  obtain ⟨bs, hb⟩ := m.slice_isSome a s (fun i _ => hm _)
  exact ⟨leNat bs, (m.holdsNat_iff _ _ _).2 ⟨bs, hb, rfl⟩⟩

/-- C32: every advertised synthetic method can be evaluated, wherever memory is readable. -/
theorem C32_advertised_evaluates (T : Target) (m : Mem) (hT : T.Reads m) (hm : ∀ x, (m x).isSome) (a : Nat)
    (loc : Option Nat) (l : Layout) (h : InSpace a l) (method : Str) (hmem : method ∈ syntheticMethods l) :
    ∃ v, evalSynthetic T a (.mk loc l) method = .ok v := by
  have hru : ∀ off, a + off < u64Max1 → ∃ n, readUsize T a off = .ok n := by
    intro off ho
    obtain ⟨n, hn⟩ := mapped_nat m hm (a + off) 8
    exact ⟨n, readUsize_ok T m hT a off n hn ho⟩
  have hrt : ∀ disc : Disc, a + disc.offset < u64Max1 → disc.size ∈ [1, 2, 4, 8] →
      ∃ n, readTag T a disc = .ok (disc.size, n) := by
    intro disc ho hs
    obtain ⟨n, hn⟩ := mapped_nat m hm (a + disc.offset) disc.size
    exact ⟨n, readTag_ok T m hT a n disc hs hn ho⟩
  cases l <;> simp only [syntheticMethods, List.not_mem_nil, List.mem_cons, or_false] at hmem <;>
    simp only [InSpace] at h <;> simp only [evalSynthetic, TypeDef.layout]
  case array => subst hmem; exact ⟨_, rfl⟩
  case slice =>
    obtain ⟨n, hn⟩ := hru 8 h
    rcases hmem with rfl | rfl <;> simp [sliceMethod, hn]
  case strSlice =>
    obtain ⟨n, hn⟩ := hru 8 h
    rcases hmem with rfl | rfl <;> simp [sliceMethod, hn]
  case option name disc _ _ _ =>
    obtain ⟨n, hn⟩ := hrt disc h.1 h.2
    rcases hmem with rfl | rfl <;> simp [optionMethod, hn]
  case result name disc _ _ _ _ _ =>
    obtain ⟨n, hn⟩ := hrt disc h.1 h.2
    rcases hmem with rfl | rfl <;> simp [resultMethod, hn]
  case string =>
    obtain ⟨n, hn⟩ := hru _ h.1
    rcases hmem with rfl | rfl <;> simp [stringMethod, vecMethod, hn]
  case vec =>
    obtain ⟨n, hn⟩ := hru _ h.1
    obtain ⟨n', hn'⟩ := hru _ h.2
    rcases hmem with rfl | rfl | rfl <;> simp [vecMethod, hn, hn']

/-- C32: asking for anything else (but the `capacity()` of a `String`) is an error: it is not answered and does not crash, whatever can be
read. -/
theorem C32_others_are_errors (T : Target) (m : Mem) (hT : T.Reads m) (a : Nat) (loc : Option Nat) (l : Layout) (h : InSpace a l)
    (method : Str) (hmem : method ∉ syntheticMethods l)
    (hc : method = chars! "capacity" → ∀ lenOff dataOff capOff e, l ≠ .string lenOff dataOff capOff e) :
    evalSynthetic T a (.mk loc l) method = .err := by
  have hrt : ∀ (disc : Disc) (f : Nat × Nat → Res Value), a + disc.offset < u64Max1 → (∀ x, f x = .err) →
      (readTag T a disc).bind f = .err := by
    intro disc f ho hf
    unfold readTag
    rw [addU_ok ho, Res.bind_ok]
    rcases readE_cases hT (a + disc.offset) disc.size with ⟨bs, _, _, hr⟩ | ⟨_, _, hr⟩ <;> rw [hr]
    · simp only [Res.bind_ok]; split
      · simp only [Res.bind_ok, hf]
      · rfl
    · rfl
  cases l <;> simp only [syntheticMethods, List.not_mem_nil, List.mem_cons, or_false, not_or] at hmem <;>
    simp only [InSpace] at h <;> simp only [evalSynthetic, TypeDef.layout]
  case array => simp only [arrayMethod, if_neg hmem]
  case slice => simp only [sliceMethod, if_neg hmem.1, if_neg hmem.2]
  case strSlice => simp only [sliceMethod, if_neg hmem.1, if_neg hmem.2]
  case option => exact hrt _ _ h.1 fun x => by simp only [if_neg hmem.1, if_neg hmem.2]
  case result => exact hrt _ _ h.1 fun x => by simp only [if_neg hmem.1, if_neg hmem.2]
  case string =>
    have : method ≠ chars! "capacity" := fun e => hc e _ _ _ _ rfl
    simp only [stringMethod, if_neg hmem.1, if_neg hmem.2, if_neg this]
  case vec => simp only [vecMethod, if_neg hmem.1, if_neg hmem.2.1, if_neg hmem.2.2]

/-- The hypotheses are met: `keys()` of a `HashMap` and `pop()` of a vector are errors. -/
example (m : Mem) (e : TypeDef) :
    evalSynthetic (demoTarget m) 64 (.mk none (.map (.hashMap 0 8 16 24 0 8) e e)) (chars! "keys") = .err ∧
    evalSynthetic (demoTarget m) 64 (.mk none (.vec 0 8 16 e)) (chars! "pop") = .err :=
  ⟨C32_others_are_errors _ m (demoTarget_reads m) 64 none _ (by trivial) _ (by simp [syntheticMethods]) (by simp),
    C32_others_are_errors _ m (demoTarget_reads m) 64 none _ (by simp [InSpace, u64Max1]) _ (by simp [syntheticMethods]) (by simp)⟩

/-- C32: nothing else can be evaluated, except the unadvertised `capacity()` of a `String`. -/
theorem C32_only_advertised (T : Target) (a : Nat) (t : TypeDef) (method : Str) (v : Value)
    (h : evalSynthetic T a t method = .ok v) :
    method ∈ syntheticMethods t.layout ∨
      (method = chars! "capacity" ∧ ∃ lenOff dataOff capOff e, t.layout = .string lenOff dataOff capOff e) := by
  obtain ⟨loc, l⟩ := t
  cases l <;> simp only [evalSynthetic, TypeDef.layout, syntheticMethods] at h ⊢ <;> try (cases h; done)
  case array =>
    unfold arrayMethod at h
    split at h <;> simp_all
  case slice =>
    unfold sliceMethod at h
    repeat' split at h
    all_goals simp_all
  case strSlice =>
    unfold sliceMethod at h
    repeat' split at h
    all_goals simp_all
  case option =>
    unfold optionMethod at h
    rw [Res.bind_eq_ok] at h
    obtain ⟨_, _, h⟩ := h
    repeat' split at h
    all_goals simp_all
  case result =>
    unfold resultMethod at h
    rw [Res.bind_eq_ok] at h
    obtain ⟨_, _, h⟩ := h
    repeat' split at h
    all_goals simp_all
  case string =>
    unfold stringMethod at h
    repeat' split at h
    all_goals simp_all
  case vec =>
    unfold vecMethod at h
    repeat' split at h
    all_goals simp_all

/-- A concrete case of the C32 theorems: a `Vec<u16>` of three elements with capacity 4. -/
example : ∃ (T : Target) (m : Mem) (t : TypeDef) (items : List Value), T.Reads m ∧
    t = .mk none (.vec 16 8 0 (.mk none (.uint 2))) ∧
    readMem T 1 0 t = .ok (.array (chars! "Vec<u16>") items) ∧ items.length = 3 ∧
    evalSynthetic T 0 t (chars! "len") = .ok (.scalar (chars! "usize") (chars! "3")) ∧
    evalSynthetic T 0 t (chars! "capacity") = .ok (.scalar (chars! "usize") (chars! "4")) :=
  ⟨demoTarget (demoMem 0 (encNat 8 4 ++ encNat 8 100 ++ encNat 8 3)), _, _, _, demoTarget_reads _, rfl, rfl,
    rfl, rfl, rfl⟩

/-- A concrete case of `C32_string_capacity`: a `String` of three bytes with capacity 4. -/
example : ∃ (T : Target) (m : Mem), T.Reads m ∧ m.HoldsNat (0 + 0) 8 4 ∧ m.HoldsNat (0 + 16) 8 3 ∧
    evalSynthetic T 0 (.mk none (.string 16 8 0 (.mk none (.uint 1)))) (chars! "capacity") = .ok (.scalar (chars! "usize") (chars! "4")) :=
  ⟨demoTarget (demoMem 0 (encNat 8 4 ++ encNat 8 100 ++ encNat 8 3)), demoMem 0 (encNat 8 4 ++ encNat 8 100 ++ encNat 8 3), demoTarget_reads _,
    (Mem.holdsNat_iff _ _ _ _).2 ⟨_, rfl, rfl⟩, (Mem.holdsNat_iff _ _ _ _).2 ⟨_, rfl, rfl⟩, rfl⟩

/-- The hypotheses of the `Result` theorems are met. -/
example : (demoMem 0 (encNat 4 1)).HoldsNat (0 + 0) 4 1 := (Mem.holdsNat_iff _ _ _ _).2 ⟨_, rfl, rfl⟩

end Rudy.Data
