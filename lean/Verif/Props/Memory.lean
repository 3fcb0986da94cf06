import Verif.Proof.Memory
/-
Property theorems C22–C25: numbers, structs, sequences and enums read from memory.
-/
set_option linter.unusedSimpArgs false
namespace Rudy.Data
open Rudy Rudy.Layout

/-! ### C22: numbers -/

/-- C22: an unsigned integer of any supported width is shown as exactly the number stored in memory,
in decimal. -/
theorem C22_unsigned (T : Target) (m : Mem) (hT : T.Reads m) (f a s v : Nat) (loc : Option Nat)
    (hs : s ∈ [1, 2, 4, 8, 16]) (hv : m.HoldsNat a s v) :
    readMem T (f + 1) a (.mk loc (.uint s)) =
      .ok (.scalar (chars! "u" ++ (toString (s * 8)).toList) (toString v).toList) := by
  obtain ⟨bs, h1, rfl⟩ := (m.holdsNat_iff _ _ _).1 hv
  have hl := m.slice_length _ _ _ h1
  simp only [readMem, readLayout]
  rw [(readE_ok hT _ _ _).2 h1, Res.bind_ok, if_pos (by simpa using hs), if_pos hl]
  rw [Layout.displayName, natStr_toString, natStr_toString]

/-- C22: a signed integer of any supported width is shown as exactly the two's-complement number
stored in memory, in decimal. -/
theorem C22_signed (T : Target) (m : Mem) (hT : T.Reads m) (f a s : Nat) (v : Int) (loc : Option Nat)
    (hs : s ∈ [1, 2, 4, 8, 16]) (hv : m.HoldsInt a s v) :
    readMem T (f + 1) a (.mk loc (.int s)) =
      .ok (.scalar (chars! "i" ++ (toString (s * 8)).toList) (toString v).toList) := by
  obtain ⟨bs, h1, rfl⟩ := (m.holdsInt_iff _ _ _).1 hv
  have hl := m.slice_length _ _ _ h1
  simp only [readMem, readLayout]
  rw [(readE_ok hT _ _ _).2 h1, Res.bind_ok, if_pos (by simpa using hs), if_pos hl]
  rw [Layout.displayName, natStr_toString, intStr_toString]

/-- C22: the two theorems above cover every memory: any `s` mapped bytes hold exactly one unsigned and
exactly one signed number. -/
theorem C22_every_memory (m : Mem) (a s : Nat) (h : m.Mapped a s) :
    (∃ v : Nat, m.HoldsNat a s v ∧ ∀ w, m.HoldsNat a s w → w = v) ∧
      (∃ v : Int, m.HoldsInt a s v ∧ ∀ w, m.HoldsInt a s w → w = v) := by
  obtain ⟨bs, hb⟩ := m.slice_isSome a s h
  refine ⟨⟨leNat bs, (m.holdsNat_iff _ _ _).2 ⟨bs, hb, rfl⟩, fun w hw => m.holdsNat_unique _ _ _ _ hw
      ((m.holdsNat_iff _ _ _).2 ⟨bs, hb, rfl⟩)⟩,
    ⟨leInt bs, (m.holdsInt_iff _ _ _).2 ⟨bs, hb, rfl⟩, fun w hw => m.holdsInt_unique _ _ _ _ hw
      ((m.holdsInt_iff _ _ _).2 ⟨bs, hb, rfl⟩)⟩⟩

/-- C22: every number of the width is stored by some memory, so none is out of reach. -/
theorem C22_every_number (a s : Nat) (v : Int) (h1 : -(256 ^ s : Int) ≤ 2 * v) (h2 : 2 * v < 256 ^ s) :
    ∃ m : Mem, m.HoldsInt a s v :=
  ⟨fun x => some (UInt8.ofNat (v / 256 ^ (x - a) % 256).toNat), h1, h2, fun i _ => by
    simp only [Nat.add_sub_cancel_left]⟩

/-- C22: other widths, and integers with an unmapped byte, are errors (neither a value nor a panic). -/
theorem C22_unsupported (T : Target) (m : Mem) (hT : T.Reads m) (f a s : Nat) (loc : Option Nat)
    (h : s ∉ [1, 2, 4, 8, 16] ∨ ¬ m.Mapped a s) :
    readMem T (f + 1) a (.mk loc (.uint s)) = .err ∧ readMem T (f + 1) a (.mk loc (.int s)) = .err := by
  simp only [readMem, readLayout]
  rcases readE_cases hT a s with ⟨bs, hb, hl, hr⟩ | ⟨_, _, hr⟩
  · rcases h with h | h
    · rw [hr, Res.bind_ok, if_neg (by simpa using h), Res.bind_ok, if_neg (by simpa using h)]
      exact ⟨rfl, rfl⟩
    · rw [m.slice_none a s h] at hb; cases hb
  · rw [hr]; exact ⟨rfl, rfl⟩

/-- C22: reading an integer depends on its own bytes only. -/
theorem C22_touches_only_its_bytes (T T' : Target) (m m' : Mem) (hT : T.Reads m) (hT' : T'.Reads m')
    (f a s : Nat) (loc : Option Nat) (h : ∀ x, a ≤ x → x < a + s → m x = m' x) :
    readMem T (f + 1) a (.mk loc (.uint s)) = readMem T' (f + 1) a (.mk loc (.uint s)) ∧
      readMem T (f + 1) a (.mk loc (.int s)) = readMem T' (f + 1) a (.mk loc (.int s)) := by
  have e : T.readE a s = T'.readE a s := by
    unfold Target.readE; rw [hT, hT', m.slice_congr m' a s h]
  simp only [readMem, readLayout]
  rw [e]; exact ⟨rfl, rfl⟩

/-- C22 for `bool`: shown `false` exactly when the byte is zero. -/
theorem C22_bool (T : Target) (m : Mem) (hT : T.Reads m) (f a : Nat) (loc : Option Nat) (b : UInt8)
    (hb : m a = some b) :
    readMem T (f + 1) a (.mk loc .bool) =
      .ok (.scalar (chars! "bool") (if b = 0 then chars! "false" else chars! "true")) := by
  have h : m.slice a 1 = some [b] := by simp [Mem.slice, hb]
  simp only [readMem, readLayout]
  rw [(readE_ok hT _ _ _).2 h]
  by_cases h0 : b = 0 <;> simp [h0]

/-- C22 for `char`: a stored character is shown between single quotes; anything that is not a Unicode
scalar value is an error. -/
theorem C22_char (T : Target) (m : Mem) (hT : T.Reads m) (f a v : Nat) (loc : Option Nat)
    (hv : m.HoldsNat a 4 v) :
    (∀ c : Char, c.toNat = v →
      readMem T (f + 1) a (.mk loc .char) = .ok (.scalar (chars! "char") ['\'', c, '\''])) ∧
    ((∀ c : Char, c.toNat ≠ v) → readMem T (f + 1) a (.mk loc .char) = .err) := by
  simp only [readMem, readLayout]
  rw [(readNat_ok hT _ _ _).2 hv]
  simp only [Res.bind_ok, charFromU32]
  constructor
  · intro c hc
    subst hc
    have hvalid : c.toNat.isValidChar := c.valid
    rw [dif_pos hvalid]
    have : Char.ofNatAux c.toNat hvalid = c := by
      apply Char.ext
      rfl
    simp only [this]
  · intro h
    have : ¬ v.isValidChar := by
      intro hvv
      exact h (Char.ofNatAux v hvv) rfl
    rw [dif_neg this]

/-- A target that gives access to the memory `m` (used in the examples). -/
def demoTarget (m : Mem) : Target :=
  { read := m.slice, resolve := fun _ => .err, lossy := fun bs => bs.map (fun b => Char.ofNat b.toNat),
    floatStr := fun _ _ => [] }

/-- A memory holding the given bytes at `a`. -/
def demoMem (a : Nat) (bs : List UInt8) : Mem := fun x => if a ≤ x then bs[x - a]? else none

theorem demoTarget_reads (m : Mem) : (demoTarget m).Reads m := fun _ _ => rfl

/-- The hypotheses are met: -2 as `i16` at address 100. -/
example : (demoMem 100 [0xfe, 0xff]).HoldsInt 100 2 (-2) := by
  refine ⟨by decide, by decide, ?_⟩
  intro i hi
  have : i = 0 ∨ i = 1 := by omega
  rcases this with rfl | rfl <;> decide

/-- … and the shown value. -/
example : readMem (demoTarget (demoMem 100 [0xfe, 0xff])) 1 100 (.mk none (.int 2)) =
    .ok (.scalar (chars! "i16") (chars! "-2")) := rfl

/-! ### C23: structs -/

theorem insertL_perm {ν : Type} (k : Str) (v : ν) (l : List (Str × ν)) (h : ∀ p ∈ l, p.1 ≠ k) :
    (OMap.insertL compare k v l).Perm ((k, v) :: l) := by
  induction l with
  | nil => exact List.Perm.refl _
  | cons p r ih =>
    obtain ⟨k', v'⟩ := p
    simp only [OMap.insertL]
    split
    · exact List.Perm.refl _
    · rename_i he
      exact absurd (Std.LawfulEqCmp.eq_of_compare he).symm (h (k', v') (by simp))
    · exact ((ih fun q hq => h q (List.mem_cons_of_mem _ hq)).cons _).trans (List.Perm.swap ..)

theorem structFields_ok (a : Nat) (fs : List (Str × Nat × TypeDef)) (m : OMap Str Value)
    (hn : (fs.map (·.1)).Nodup) (hd : ∀ x ∈ fs, ∀ p ∈ m.entries, p.1 ≠ x.1)
    (ha : ∀ x ∈ fs, a + x.2.1 < u64Max1) (hs : m.Sorted compare) :
    ∃ m', structFields a fs m = .ok m' ∧ m'.Sorted compare ∧
      m'.entries.Perm (fs.map (fun x => (x.1, Value.pointer (a + x.2.1) x.2.2)) ++ m.entries) := by
  induction fs generalizing m with
  | nil => exact ⟨m, rfl, hs, List.Perm.refl _⟩
  | cons x r ih =>
    obtain ⟨n, o, t⟩ := x
    simp only [List.map_cons, List.nodup_cons] at hn
    have hp : (m.insert compare n (.pointer (a + o) t)).entries.Perm ((n, .pointer (a + o) t) :: m.entries) :=
      insertL_perm n _ _ (hd (n, o, t) (by simp))
    obtain ⟨m', h1, h2, h3⟩ := ih (m.insert compare n (.pointer (a + o) t)) hn.2
      (by
        intro y hy p hpm
        rcases List.mem_cons.1 (hp.mem_iff.1 hpm) with rfl | hpm
        · intro he
          exact hn.1 (List.mem_map.2 ⟨y, hy, he.symm⟩)
        · exact hd y (List.mem_cons_of_mem _ hy) p hpm)
      (fun y hy => ha y (List.mem_cons_of_mem _ hy)) (OMap.sorted_insert _ _ _ _ hs)
    refine ⟨m', ?_, h2, ?_⟩
    · simp only [structFields]
      rw [addU_ok (ha (n, o, t) (by simp)), Res.bind_ok, h1]
    · refine h3.trans ?_
      simp only [List.map_cons, List.cons_append]
      exact (hp.append_left _).trans List.perm_middle

/-- C23: reading a struct shows exactly its declared fields, each once, each as a pointer to
`base + offset` with the field's type, ordered by name. (Field names of a Rust struct are distinct, and
a struct lies inside the address space.) -/
theorem C23_struct_fields (T : Target) (f a : Nat) (loc : Option Nat) (name : Str) (size align : Nat)
    (fields : Members) (hn : (fields.toList.map (·.1)).Nodup)
    (ha : ∀ x ∈ fields.toList, a + x.2.1 < u64Max1) :
    ∃ es, readMem T (f + 1) a (.mk loc (.struct name size align fields)) = .ok (.struct name es) ∧
      es.Perm (fields.toList.map fun x => (x.1, .pointer (a + x.2.1) x.2.2)) ∧
      es.Pairwise (fun x y => compare x.1 y.1 = .lt) := by
  obtain ⟨m', h1, h2, h3⟩ := structFields_ok a fields.toList ⟨[]⟩ hn (by simp) ha (OMap.sorted_empty _)
  refine ⟨m'.entries, ?_, by simpa using h3, h2⟩
  simp only [readMem, readLayout]
  rw [h1]; rfl

theorem sorted_perm_eq {ν : Type} (l l' : List (Str × ν)) (hp : l.Perm l')
    (h : l.Pairwise (fun x y => compare x.1 y.1 = .lt)) (h' : l'.Pairwise (fun x y => compare x.1 y.1 = .lt)) :
    l = l' := by
  apply hp.eq_of_pairwise (le := fun x y => compare x.1 y.1 = .lt) _ h h'
  intro x y _ _ h1 h2
  have := Std.OrientedCmp.gt_of_lt h1
  rw [this] at h2; cases h2

/-- C23: the order in which the debug info lists the fields does not matter. -/
theorem C23_field_order (T : Target) (f a : Nat) (loc : Option Nat) (name : Str) (size align : Nat)
    (fields fields' : Members) (hn : (fields.toList.map (·.1)).Nodup)
    (ha : ∀ x ∈ fields.toList, a + x.2.1 < u64Max1) (hp : fields.toList.Perm fields'.toList) :
    readMem T (f + 1) a (.mk loc (.struct name size align fields)) =
      readMem T (f + 1) a (.mk loc (.struct name size align fields')) := by
  obtain ⟨es, h1, h2, h3⟩ := C23_struct_fields T f a loc name size align fields hn ha
  obtain ⟨es', h1', h2', h3'⟩ := C23_struct_fields T f a loc name size align fields'
    ((hp.map _).nodup_iff.1 hn) (fun x hx => ha x (hp.mem_iff.2 hx))
  rw [h1, h1', sorted_perm_eq es es' (h2.trans ((hp.map _).trans h2'.symm)) h3 h3']

/-- C23: reading a struct reads no memory at all. -/
theorem C23_reads_no_memory (T T' : Target) (f a : Nat) (loc : Option Nat) (name : Str) (size align : Nat)
    (fields : Members) :
    readMem T (f + 1) a (.mk loc (.struct name size align fields)) =
      readMem T' (f + 1) a (.mk loc (.struct name size align fields)) := rfl

/-- The hypotheses are met by a two-field struct whose debug info lists `b` first. -/
example : readMem (demoTarget fun _ => none) 1 1000
    (.mk none (.struct (chars! "S") 8 4
      (.cons (chars! "b") 4 (.mk none .bool) (.cons (chars! "a") 0 (.mk none (.uint 4)) .nil)))) =
    .ok (.struct (chars! "S") [(chars! "a", .pointer 1000 (.mk none (.uint 4))),
      (chars! "b", .pointer 1004 (.mk none .bool))]) := by
  simp [readMem, readLayout, structFields, Members.toList, addU, u64Max1, OMap.insert, OMap.insertL]
  rfl

/-! ### C24: sequences -/

/-- Specification: `et` is the element type `e`, with an alias replaced by the type it names. -/
def Resolved (T : Target) (e et : TypeDef) : Prop :=
  (∃ d n, e = .mk (some d) (.alias n) ∧ T.resolve d = .ok et) ∨ ((∀ n, e.layout ≠ .alias n) ∧ et = e)

theorem resolveAlias_ok (T : Target) (e et : TypeDef) : T.resolveAlias e = .ok et ↔ Resolved T e et := by
  obtain ⟨loc, l⟩ := e
  unfold Resolved Target.resolveAlias
  cases l
  case alias n =>
    cases loc with
    | none => simp [Target.resolveAt, TypeDef.layout]
    | some d => cases h : T.resolve d <;> simp [Target.resolveAt, TypeDef.layout, h]
  all_goals simp [TypeDef.layout]; exact eq_comm

theorem elemSize_ok (t : TypeDef) (s : Nat) : elemSize t = .ok s ↔ t.size = .ok (some s) := by
  unfold elemSize
  rcases h : t.size with (_ | _) | _ | _ <;> simp [Res.ofOption]

theorem withCapacity_ok (n : Nat) (u : Unit) : withCapacity n = .ok u ↔ n * 48 < 2 ^ 63 := by
  unfold withCapacity; split <;> simp_all

/-- Specification: the pointers to `n` elements of type `t` and size `esz` from address `a` on. -/
def elements (t : TypeDef) (esz a n : Nat) : List Value :=
  (List.range n).map fun i => .pointer (a + i * esz) t

/-- C24: whenever reading an array gives a value, it shows exactly `length` elements, the i-th at
`base + i * element size`. -/
theorem C24_array (T : Target) (f a : Nat) (loc : Option Nat) (e : TypeDef) (n : Nat) (v : Value)
    (h : readMem T (f + 1) a (.mk loc (.array e n)) = .ok v) :
    ∃ et esz, Resolved T e et ∧ et.size = .ok (some esz) ∧
      v = .array (chars! "[" ++ et.displayName ++ chars! "; " ++ (toString n).toList ++ chars! "]")
        (elements et esz a n) := by
  simp only [readMem, readLayout, Res.bind_eq_ok] at h
  obtain ⟨et, h1, esz, h2, _, _, items, h4, h5⟩ := h
  cases h5
  refine ⟨et, esz, (resolveAlias_ok _ _ _).1 h1, (elemSize_ok _ _).1 h2, ?_⟩
  rw [seqItems_eq_ok _ _ _ _ _ h4, natStr_toString]; rfl

/-- C24: … and reading an array that lies in the address space does give a value. -/
theorem C24_array_reads (T : Target) (f a : Nat) (loc : Option Nat) (e et : TypeDef) (n esz : Nat)
    (h1 : Resolved T e et) (h2 : et.size = .ok (some esz)) (h3 : a + n * esz < u64Max1)
    (h4 : n * 48 < 2 ^ 63) :
    readMem T (f + 1) a (.mk loc (.array e n)) =
      .ok (.array (chars! "[" ++ et.displayName ++ chars! "; " ++ (toString n).toList ++ chars! "]")
        (elements et esz a n)) := by
  simp only [readMem, readLayout]
  rw [(resolveAlias_ok _ _ _).2 h1, Res.bind_ok, (elemSize_ok _ _).2 h2, Res.bind_ok,
    (withCapacity_ok n ()).2 h4, Res.bind_ok, seqItems_ok _ _ _ _ (Or.inr h3), Res.bind_ok, natStr_toString]
  rfl

/-- C24: whenever reading a `Vec` gives a value, it shows exactly as many elements as the stored length,
the i-th at `stored data pointer + i * element size`. -/
theorem C24_vec (T : Target) (m : Mem) (hT : T.Reads m) (f a : Nat) (loc : Option Nat)
    (lenOff dataOff capOff : Nat) (e : TypeDef) (v : Value)
    (h : readMem T (f + 1) a (.mk loc (.vec lenOff dataOff capOff e)) = .ok v) :
    ∃ et esz len data, Resolved T e et ∧ et.size = .ok (some esz) ∧
      m.HoldsNat (a + lenOff) 8 len ∧ m.HoldsNat (a + dataOff) 8 data ∧
      v = .array (chars! "Vec<" ++ et.displayName ++ chars! ">") (elements et esz data len) := by
  simp only [readMem, readLayout, vecInfo, Res.bind_eq_ok, readLen_eq hT, readAddress_eq hT] at h
  obtain ⟨et, h1, esz, h2, ⟨data, len⟩, ⟨la, hla, len', hlen, da, hda, data', hdata, he⟩, _, h3, items, h4, h5⟩ := h
  cases h5; cases he
  obtain ⟨_, rfl⟩ := addU_eq_ok.1 hla
  obtain ⟨_, rfl⟩ := addU_eq_ok.1 hda
  refine ⟨et, esz, len, data, (resolveAlias_ok _ _ _).1 h1, (elemSize_ok _ _).1 h2,
    (readNat_ok hT _ _ _).1 hlen, (readNat_ok hT _ _ _).1 hdata, ?_⟩
  rw [seqItems_eq_ok _ _ _ _ _ h4]; rfl

/-- C24: … and reading a `Vec` whose header and buffer lie in the address space does give a value. -/
theorem C24_vec_reads (T : Target) (m : Mem) (hT : T.Reads m) (f a : Nat) (loc : Option Nat)
    (lenOff dataOff capOff : Nat) (e et : TypeDef) (esz len data : Nat)
    (h1 : Resolved T e et) (h2 : et.size = .ok (some esz))
    (hl : m.HoldsNat (a + lenOff) 8 len) (hd : m.HoldsNat (a + dataOff) 8 data)
    (hla : a + lenOff < u64Max1) (hda : a + dataOff < u64Max1)
    (h3 : data + len * esz < u64Max1) (h4 : len * 48 < 2 ^ 63) :
    readMem T (f + 1) a (.mk loc (.vec lenOff dataOff capOff e)) =
      .ok (.array (chars! "Vec<" ++ et.displayName ++ chars! ">") (elements et esz data len)) := by
  simp only [readMem, readLayout, vecInfo, readLen_eq hT, readAddress_eq hT]
  rw [(resolveAlias_ok _ _ _).2 h1, Res.bind_ok, (elemSize_ok _ _).2 h2, Res.bind_ok,
    addU_ok hla, Res.bind_ok, (readNat_ok hT _ _ _).2 hl, Res.bind_ok, addU_ok hda, Res.bind_ok,
    (readNat_ok hT _ _ _).2 hd, Res.bind_ok, Res.bind_ok,
    (withCapacity_ok _ ()).2 h4, Res.bind_ok, seqItems_ok _ _ _ _ (Or.inr h3), Res.bind_ok]
  rfl

/-- C24: whenever reading a slice gives a value, it shows exactly as many elements as the stored
length, the i-th at `stored data pointer + i * element size`. -/
theorem C24_slice (T : Target) (m : Mem) (hT : T.Reads m) (f a : Nat) (loc : Option Nat)
    (dataOff lenOff : Nat) (e : TypeDef) (v : Value)
    (h : readMem T (f + 1) a (.mk loc (.slice e dataOff lenOff)) = .ok v) :
    ∃ et esz len data, Resolved T e et ∧ et.size = .ok (some esz) ∧
      m.HoldsNat (a + lenOff) 8 len ∧ m.HoldsNat (a + dataOff) 8 data ∧
      v = .array (chars! "&[" ++ et.displayName ++ chars! "]") (elements et esz data len) := by
  simp only [readMem, readLayout, Res.bind_eq_ok, readAddress_eq hT] at h
  obtain ⟨la, hla, len, hlen, et, h1, esz, h2, da, hda, data, hdata, _, h3, items, h4, h5⟩ := h
  cases h5
  obtain ⟨_, rfl⟩ := addU_eq_ok.1 hla
  obtain ⟨_, rfl⟩ := addU_eq_ok.1 hda
  refine ⟨et, esz, len, data, (resolveAlias_ok _ _ _).1 h1, (elemSize_ok _ _).1 h2,
    (readNat_ok hT _ _ _).1 hlen, (readNat_ok hT _ _ _).1 hdata, ?_⟩
  rw [seqItems_eq_ok _ _ _ _ _ h4]; rfl

/-- C24: … and reading a slice that lies in the address space does give a value. -/
theorem C24_slice_reads (T : Target) (m : Mem) (hT : T.Reads m) (f a : Nat) (loc : Option Nat)
    (dataOff lenOff : Nat) (e et : TypeDef) (esz len data : Nat)
    (h1 : Resolved T e et) (h2 : et.size = .ok (some esz))
    (hl : m.HoldsNat (a + lenOff) 8 len) (hd : m.HoldsNat (a + dataOff) 8 data)
    (hla : a + lenOff < u64Max1) (hda : a + dataOff < u64Max1)
    (h3 : data + len * esz < u64Max1) (h4 : len * 48 < 2 ^ 63) :
    readMem T (f + 1) a (.mk loc (.slice e dataOff lenOff)) =
      .ok (.array (chars! "&[" ++ et.displayName ++ chars! "]") (elements et esz data len)) := by
  simp only [readMem, readLayout, readAddress_eq hT]
  rw [addU_ok hla, Res.bind_ok, (readNat_ok hT _ _ _).2 hl, Res.bind_ok,
    (resolveAlias_ok _ _ _).2 h1, Res.bind_ok, (elemSize_ok _ _).2 h2, Res.bind_ok, addU_ok hda, Res.bind_ok,
    (readNat_ok hT _ _ _).2 hd, Res.bind_ok,
    (withCapacity_ok _ ()).2 h4, Res.bind_ok, seqItems_ok _ _ _ _ (Or.inr h3), Res.bind_ok]
  rfl

/-- C24: a `String` is shown as exactly the stored number of bytes at the stored data pointer, decoded
and quoted; with any of these bytes unmapped it is an error. -/
theorem C24_string (T : Target) (m : Mem) (hT : T.Reads m) (f a : Nat) (loc : Option Nat)
    (lenOff dataOff capOff : Nat) (e : TypeDef) (len data : Nat)
    (hl : m.HoldsNat (a + lenOff) 8 len) (hd : m.HoldsNat (a + dataOff) 8 data)
    (hla : a + lenOff < u64Max1) (hda : a + dataOff < u64Max1) :
    (∀ bs, bs.length = len → m.HoldsBytes data bs →
      readMem T (f + 1) a (.mk loc (.string lenOff dataOff capOff e)) =
        .ok (.scalar (chars! "String") (chars! "\"" ++ T.lossy bs ++ chars! "\""))) ∧
    (¬ m.Mapped data len → readMem T (f + 1) a (.mk loc (.string lenOff dataOff capOff e)) = .err) := by
  simp only [readMem, readLayout, readAddress_eq hT, readLen_eq hT]
  rw [addU_ok hla, Res.bind_ok, (readNat_ok hT _ _ _).2 hl, Res.bind_ok, addU_ok hda, Res.bind_ok,
    (readNat_ok hT _ _ _).2 hd, Res.bind_ok]
  constructor
  · intro bs hbl hbs
    rw [(readE_ok hT _ _ _).2 ((m.slice_eq_some _ _ _).2 ⟨hbl, hbs⟩)]
    rfl
  · intro h
    rcases readE_cases hT data len with ⟨bs, hb, _, _⟩ | ⟨_, _, hr⟩
    · rw [m.slice_none _ _ h] at hb; cases hb
    · rw [hr]; rfl

/-- C24: the same for `&str`. -/
theorem C24_str_slice (T : Target) (m : Mem) (hT : T.Reads m) (f a : Nat) (loc : Option Nat)
    (lenOff dataOff : Nat) (len data : Nat)
    (hl : m.HoldsNat (a + lenOff) 8 len) (hd : m.HoldsNat (a + dataOff) 8 data)
    (hla : a + lenOff < u64Max1) (hda : a + dataOff < u64Max1) :
    (∀ bs, bs.length = len → m.HoldsBytes data bs →
      readMem T (f + 1) a (.mk loc (.strSlice dataOff lenOff)) =
        .ok (.scalar (chars! "str") (chars! "\"" ++ T.lossy bs ++ chars! "\""))) ∧
    (¬ m.Mapped data len → readMem T (f + 1) a (.mk loc (.strSlice dataOff lenOff)) = .err) := by
  simp only [readMem, readLayout, readAddress_eq hT, readLen_eq hT]
  rw [addU_ok hda, Res.bind_ok, addU_ok hla, Res.bind_ok, (readNat_ok hT _ _ _).2 hd, Res.bind_ok,
    (readNat_ok hT _ _ _).2 hl, Res.bind_ok]
  constructor
  · intro bs hbl hbs
    rw [(readE_ok hT _ _ _).2 ((m.slice_eq_some _ _ _).2 ⟨hbl, hbs⟩)]
    rfl
  · intro h
    rcases readE_cases hT data len with ⟨bs, hb, _, _⟩ | ⟨_, _, hr⟩
    · rw [m.slice_none _ _ h] at hb; cases hb
    · rw [hr]; rfl

/-- C24 is false of the code for elements whose size the layout misjudges (C20): the stride of a
`Vec<RefCell<u64>>` is 8, although each element occupies 16 bytes (borrow flag and value), so the second
element is shown at the wrong address. -/
theorem C24_cell_stride_fails :
    ∃ (T : Target) (m : Mem) (v : Value), T.Reads m ∧
      readMem T 1 0 (.mk none (.vec 16 8 0 (.mk none (.smartPtr .refCell (.mk none (.uint 8)) 8 0)))) = .ok v ∧
      v = .array (chars! "Vec<RefCell<u64>>")
        [.pointer 100 (.mk none (.smartPtr .refCell (.mk none (.uint 8)) 8 0)),
         .pointer 108 (.mk none (.smartPtr .refCell (.mk none (.uint 8)) 8 0))] := by
  refine ⟨demoTarget (demoMem 0 ((encNat 8 2) ++ (encNat 8 100) ++ (encNat 8 2))), _, _,
    demoTarget_reads _, rfl, ?_⟩
  rfl

/-- The hypotheses of the `Vec` theorems are met: three `u16` at 100. -/
example : ∃ (T : Target) (m : Mem), T.Reads m ∧ m.HoldsNat 16 8 3 ∧ m.HoldsNat 8 8 100 ∧
    Resolved T (.mk none (.uint 2)) (.mk none (.uint 2)) ∧ (TypeDef.mk none (.uint 2)).size = .ok (some 2) :=
  ⟨demoTarget (demoMem 0 ((encNat 8 3) ++ (encNat 8 100) ++ (encNat 8 3))), _, demoTarget_reads _,
    (Mem.holdsNat_iff _ _ _ _).2 ⟨_, rfl, rfl⟩, (Mem.holdsNat_iff _ _ _ _).2 ⟨_, rfl, rfl⟩,
    Or.inr ⟨by simp [TypeDef.layout], rfl⟩, rfl⟩
end Rudy.Data
