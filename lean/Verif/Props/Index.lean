import Verif.Model.Index
import Verif.Props.Maps
import Verif.Props.Enums
/-
Property theorems C29 (indexing sequences), C30 (indexing maps) and the field access part of C23.
-/
set_option linter.unusedSimpArgs false
namespace Rudy.Data
open Rudy Rudy.Layout

/-! ### C23: field access -/

/-- C23: accessing a declared field by name gives `base + offset` and the declared type; any other name
is an error. (Field names of a Rust struct are distinct.) -/
theorem C23_field_access (a : Nat) (loc : Option Nat) (name : Str) (size align : Nat) (fields : Members)
    (hn : (fields.toList.map (·.1)).Nodup) (fname : Str) :
    (∀ off t, (fname, off, t) ∈ fields.toList → a + off < u64Max1 →
      getStructField a (.mk loc (.struct name size align fields)) fname = .ok (a + off, t)) ∧
    (fname ∉ fields.toList.map (·.1) →
      getStructField a (.mk loc (.struct name size align fields)) fname = .err) := by
  simp only [getStructField, TypeDef.layout]
  constructor
  · intro off t hm ha
    have hf : fields.toList.find? (fun f => f.1 == fname) = some (fname, off, t) := by
      rw [find_first]
      obtain ⟨pre, post, he⟩ := List.append_of_mem hm
      refine ⟨pre, post, he, by simp, fun y hy => ?_⟩
      rw [he] at hn
      simp only [List.map_append, List.map_cons] at hn
      have := (List.nodup_append.1 hn).2.2 y.1 (List.mem_map.2 ⟨y, hy, rfl⟩) fname (by simp)
      simpa using this
    rw [hf]
    simp [Res.ofOption, addU_ok ha]
  · intro h
    have hf : fields.toList.find? (fun f => f.1 == fname) = none := by
      rw [List.find?_eq_none]
      intro x hx hc
      exact h (List.mem_map.2 ⟨x, hx, by simpa using hc⟩)
    rw [hf]; rfl

/-- C23: what field access gives is what the displayed struct shows under that name. -/
theorem C23_access_is_shown (T : Target) (f a : Nat) (loc : Option Nat) (name : Str) (size align : Nat)
    (fields : Members) (hn : (fields.toList.map (·.1)).Nodup)
    (ha : ∀ x ∈ fields.toList, a + x.2.1 < u64Max1) (es : List (Str × Value))
    (h : readMem T (f + 1) a (.mk loc (.struct name size align fields)) = .ok (.struct name es))
    (fname : Str) (p : Nat) (t : TypeDef) :
    getStructField a (.mk loc (.struct name size align fields)) fname = .ok (p, t) ↔
      (fname, .pointer p t) ∈ es := by
  obtain ⟨es', h1, h2, _⟩ := C23_struct_fields T f a loc name size align fields hn ha
  rw [h] at h1; cases h1
  obtain ⟨g1, g2⟩ := C23_field_access a loc name size align fields hn fname
  rw [h2.mem_iff, List.mem_map]
  constructor
  · intro hg
    by_cases hm : fname ∈ fields.toList.map (·.1)
    · obtain ⟨⟨n, o, t'⟩, hx, rfl⟩ := List.mem_map.1 hm
      rw [g1 o t' hx (ha _ hx)] at hg
      cases hg
      exact ⟨_, hx, rfl⟩
    · rw [g2 hm] at hg; cases hg
  · rintro ⟨⟨n, o, t'⟩, hx, he⟩
    cases he
    exact g1 o t' hx (ha _ hx)

example : getStructField 1000 (.mk none (.struct (chars! "S") 8 4
      (.cons (chars! "b") 4 (.mk none .bool) (.cons (chars! "a") 0 (.mk none (.uint 4)) .nil)))) (chars! "b") =
    .ok (1004, .mk none .bool) := rfl

/-! ### C29: indexing sequences -/

/-- Specification: the element displayed at position `i`. -/
def shown (items : List Value) (i : Nat) : Res (Nat × TypeDef) :=
  match items[i]? with
  | some (.pointer p t) => .ok (p, t)
  | _ => .err

theorem shown_elements (t : TypeDef) (esz a n i : Nat) :
    shown (elements t esz a n) i = if i < n then .ok (a + i * esz, t) else .err := by
  unfold shown elements
  by_cases h : i < n
  · simp [h]
  · simp [h]

theorem seqItems_fits (t : TypeDef) (esz a n : Nat) (vs : List Value) (h : seqItems t esz a n = .ok vs) :
    n = 0 ∨ a + n * esz < u64Max1 := by
  induction n generalizing a vs with
  | zero => exact Or.inl rfl
  | succ n ih =>
    right
    simp only [seqItems, Res.bind_eq_ok] at h
    obtain ⟨a', h1, r, h2, _⟩ := h
    obtain ⟨h3, rfl⟩ := addU_eq_ok.1 h1
    rw [Nat.add_mul, Nat.one_mul]
    rcases ih _ _ h2 with rfl | h4
    · omega
    · omega

theorem elementAt_ok (base i esz : Nat) (e : TypeDef) (h1 : e.size = .ok (some esz))
    (h2 : base + i * esz < u64Max1) : elementAt base i e = .ok (base + i * esz, e) := by
  unfold elementAt
  rw [(elemSize_ok _ _).2 h1, Res.bind_ok, mulU_ok (by omega), Res.bind_ok, addU_ok h2, Res.bind_ok]

theorem resolved_self {T : Target} {e et : TypeDef} (h : Resolved T e et) (hna : ∀ n, e.layout ≠ .alias n) :
    et = e := by
  rcases h with ⟨d, n, rfl, _⟩ | ⟨_, h⟩
  · exact absurd rfl (hna n)
  · exact h

theorem le_stride (n i esz a : Nat) (hi : i < n) (h : a + n * esz < u64Max1) : a + i * esz < u64Max1 := by
  have := Nat.mul_le_mul_right esz (Nat.le_of_lt hi)
  omega

/-- C29: indexing an array gives, for every index, exactly the element displayed at that position, and
an error when there is none. (Element types that are named by an alias: see
`C29_alias_elements_fail`.) -/
theorem C29_array_partial (T : Target) (f g a n : Nat) (loc : Option Nat) (e : TypeDef) (ty : Str)
    (items : List Value) (hna : ∀ n, e.layout ≠ .alias n)
    (h : readMem T (f + 1) a (.mk loc (.array e n)) = .ok (.array ty items)) (i : Nat) :
    indexSeq T g a (.mk loc (.array e n)) i = shown items i := by
  simp only [readMem, readLayout, Res.bind_eq_ok] at h
  obtain ⟨et, h1, esz, h2, _, _, its, h4, h5⟩ := h
  cases h5
  have he := resolved_self ((resolveAlias_ok _ _ _).1 h1) hna
  subst he
  have hfit := seqItems_fits _ _ _ _ _ h4
  have := seqItems_eq_ok _ _ _ _ _ h4
  subst this
  show _ = shown (elements et esz a n) i
  rw [shown_elements]
  simp only [indexSeq, TypeDef.layout]
  by_cases hi : i < n
  · rw [if_neg (by omega), if_pos hi]
    exact elementAt_ok _ _ _ _ ((elemSize_ok _ _).1 h2) (le_stride n i esz a hi (by omega))
  · rw [if_pos (by omega), if_neg hi]

/-- C29: the same for a `Vec`. -/
theorem C29_vec_partial (T : Target) (f g a : Nat) (loc : Option Nat)
    (lenOff dataOff capOff : Nat) (e : TypeDef) (ty : Str)
    (items : List Value) (hna : ∀ n, e.layout ≠ .alias n)
    (h : readMem T (f + 1) a (.mk loc (.vec lenOff dataOff capOff e)) = .ok (.array ty items)) (i : Nat) :
    indexSeq T g a (.mk loc (.vec lenOff dataOff capOff e)) i = shown items i := by
  simp only [readMem, readLayout, Res.bind_eq_ok] at h
  obtain ⟨et, h1, esz, h2, ⟨data, len⟩, h3, _, _, its, h4, h5⟩ := h
  cases h5
  have he := resolved_self ((resolveAlias_ok _ _ _).1 h1) hna
  subst he
  have hfit := seqItems_fits _ _ _ _ _ h4
  have := seqItems_eq_ok _ _ _ _ _ h4
  subst this
  show _ = shown (elements et esz data len) i
  rw [shown_elements]
  simp only [indexSeq, TypeDef.layout]
  rw [h3, Res.bind_ok]
  by_cases hi : i < len
  · rw [if_neg (by simpa using hi), if_pos hi]
    have hfit : data + len * esz < u64Max1 := hfit.resolve_left (by simp only; omega)
    exact elementAt_ok _ _ _ _ ((elemSize_ok _ _).1 h2) (le_stride len i esz data hi hfit)
  · rw [if_pos (by simpa using hi), if_neg hi]

/-- C29: no index at or beyond the length ever gives an element, whatever the element type and the
memory. -/
theorem C29_bounds (T : Target) (m : Mem) (hT : T.Reads m) (g a i p : Nat) (t te : TypeDef)
    (h : indexSeq T g a t i = .ok (p, te)) :
    (∃ e n, t.layout = .array e n ∧ te = e ∧ i < n ∧ ∃ esz, e.size = .ok (some esz) ∧ p = a + i * esz) ∨
    (∃ lenOff dataOff capOff e len data, t.layout = .vec lenOff dataOff capOff e ∧ te = e ∧
      m.HoldsNat (a + lenOff) 8 len ∧ m.HoldsNat (a + dataOff) 8 data ∧ i < len ∧
      ∃ esz, e.size = .ok (some esz) ∧ p = data + i * esz) := by
  have hel : ∀ base e, elementAt base i e = .ok (p, te) →
      te = e ∧ ∃ esz, e.size = .ok (some esz) ∧ p = base + i * esz := by
    intro base e h
    simp only [elementAt, Res.bind_eq_ok] at h
    obtain ⟨esz, h1, o, h2, q, h3, h4⟩ := h
    cases h4
    obtain ⟨_, rfl⟩ := addU_eq_ok.1 h3
    unfold mulU at h2
    split at h2
    · cases h2; exact ⟨rfl, esz, (elemSize_ok _ _).1 h1, rfl⟩
    · cases h2
  unfold indexSeq at h
  split at h
  · rename_i e n hl
    split at h
    · cases h
    · obtain ⟨h1, esz, h2, h3⟩ := hel _ _ h
      exact Or.inl ⟨e, n, hl, h1, by omega, esz, h2, h3⟩
  · -- slices: the value read is never a struct
    rename_i e d l hl
    exfalso
    obtain ⟨loc, lay⟩ := t
    simp only [TypeDef.layout] at hl
    subst hl
    rw [Res.bind_eq_ok] at h
    obtain ⟨v, h1, h2⟩ := h
    cases g with
    | zero => simp [readMem] at h1
    | succ g =>
      obtain ⟨_, _, _, _, _, _, _, _, rfl⟩ := C24_slice T m hT g a loc d l e v h1
      simp [sliceInfo] at h2
  · rename_i lo d c e hl
    rw [Res.bind_eq_ok] at h
    obtain ⟨⟨data, len⟩, h1, h2⟩ := h
    simp only at h2
    split at h2
    · cases h2
    · obtain ⟨h3, esz, h4, h5⟩ := hel _ _ h2
      simp only [vecInfo, Res.bind_eq_ok, readLen_eq hT, readAddress_eq hT] at h1
      obtain ⟨la, hla, len', hlen, da, hda, data', hdata, he⟩ := h1
      cases he
      obtain ⟨_, rfl⟩ := addU_eq_ok.1 hla
      obtain ⟨_, rfl⟩ := addU_eq_ok.1 hda
      exact Or.inr ⟨lo, d, c, e, len, data, hl, h3, (readNat_ok hT _ _ _).1 hlen, (readNat_ok hT _ _ _).1 hdata,
        by omega, esz, h4, h5⟩
  · cases h

/-- C29 is false of the code for slices: no index of any slice ever gives an element, although reading
the slice shows its elements. -/
theorem C29_slices_fail (T : Target) (m : Mem) (hT : T.Reads m) (g a i : Nat) (loc : Option Nat) (e : TypeDef)
    (d l : Nat) : ∀ r, indexSeq T g a (.mk loc (.slice e d l)) i ≠ .ok r := by
  rintro ⟨p, te⟩ h
  rcases C29_bounds T m hT g a i p _ te h with ⟨_, _, h, _⟩ | ⟨_, _, _, _, _, _, h, _⟩ <;>
    simp [TypeDef.layout] at h

/-- C29 is false of the code for element types named by an alias: reading the array shows its elements,
indexing any of them is an error. -/
theorem C29_alias_elements_fail (T : Target) (f g a n i d : Nat) (loc : Option Nat) (nm : Str) (et : TypeDef)
    (esz : Nat) (hr : T.resolve d = .ok et) (hs : et.size = .ok (some esz)) (ha : a + n * esz < u64Max1)
    (hc : n * 48 < 2 ^ 63) :
    (∃ ty, readMem T (f + 1) a (.mk loc (.array (.mk (some d) (.alias nm)) n)) = .ok (.array ty (elements et esz a n))) ∧
      indexSeq T g a (.mk loc (.array (.mk (some d) (.alias nm)) n)) i = .err := by
  refine ⟨⟨_, C24_array_reads T f a loc _ et n esz (Or.inl ⟨d, nm, rfl, hr⟩) hs ha hc⟩, ?_⟩
  simp only [indexSeq, TypeDef.layout]
  split
  · rfl
  · rfl

example : indexSeq (demoTarget fun _ => none) 0 100 (.mk none (.array (.mk none (.uint 4)) 3)) 2 =
    .ok (108, .mk none (.uint 4)) := rfl

/-! ### C30: indexing maps -/

/-- Specification: two displayed values are taken for the same key: both are scalars with the same text,
apart from quotes at the two ends. -/
def SameKey (key v : Value) : Prop :=
  ∃ t1 s1 t2 s2, key = .scalar t1 s1 ∧ v = .scalar t2 s2 ∧ trimQuotes s1 = trimQuotes s2

theorem valuesEqual_iff (key v : Value) : valuesEqual key v = true ↔ SameKey key v := by
  unfold SameKey valuesEqual
  constructor
  · intro h
    split at h
    · exact ⟨_, _, _, _, rfl, rfl, by simpa using h⟩
    · cases h
  · rintro ⟨t1, s1, t2, s2, rfl, rfl, h⟩
    simpa using h

/-- C30: if indexing a map gives an address, then it is that of the value of a displayed entry whose
key, when read, is the same as the requested one, and no earlier entry has such a key. -/
theorem C30_returns_an_entry (T : Target) (f g a : Nat) (loc : Option Nat) (variant : MapVariant)
    (kt vt : TypeDef) (key : Value) (p : Nat) (te : TypeDef)
    (h : indexMap T f a (.mk loc (.map variant kt vt)) key = .ok (p, te)) :
    ∃ ty pre k post v, readMem T (g + 1) a (.mk loc (.map variant kt vt)) =
        .ok (.map ty (pre ++ (.pointer k kt, .pointer p vt) :: post)) ∧ te = vt ∧
      readMem T f k kt = .ok v ∧ SameKey key v ∧
      ∀ e ∈ pre, ∃ k' p' v', e = (.pointer k' kt, .pointer p' vt) ∧ readMem T f k' kt = .ok v' ∧ ¬ SameKey key v' := by
  simp only [indexMap, TypeDef.layout, Res.bind_eq_ok] at h
  obtain ⟨es, h1, h2⟩ := h
  have key_lemma : ∀ es, findKey T f kt vt key es = .ok (p, te) →
      te = vt ∧ ∃ pre k post v, es = pre ++ (k, p) :: post ∧ readMem T f k kt = .ok v ∧ SameKey key v ∧
        ∀ e ∈ pre, ∃ v', readMem T f e.1 kt = .ok v' ∧ ¬ SameKey key v' := by
    intro es
    induction es with
    | nil => intro h; cases h
    | cons e r ih =>
      obtain ⟨k, q⟩ := e
      intro h
      simp only [findKey, Res.bind_eq_ok] at h
      obtain ⟨v, h3, h4⟩ := h
      split at h4
      · rename_i hv
        cases h4
        exact ⟨rfl, [], k, r, v, rfl, h3, (valuesEqual_iff _ _).1 hv, by simp⟩
      · rename_i hv
        obtain ⟨e1, pre, k', post, v', e2, e3, e4, e5⟩ := ih h4
        refine ⟨e1, (k, q) :: pre, k', post, v', by rw [e2]; rfl, e3, e4, ?_⟩
        intro e he
        rcases List.mem_cons.1 he with rfl | he
        · exact ⟨v, h3, fun hc => hv ((valuesEqual_iff _ _).2 hc)⟩
        · exact e5 e he
  obtain ⟨e1, pre, k, post, v, rfl, e3, e4, e5⟩ := key_lemma es h2
  refine ⟨Layout.displayName (.map variant kt vt), pre.map (fun e => (.pointer e.1 kt, .pointer e.2 vt)), k,
    post.map (fun e => (.pointer e.1 kt, .pointer e.2 vt)), v, ?_, e1, e3, e4, ?_⟩
  · simp only [readMem, readLayout]
    rw [h1, Res.bind_ok, List.map_append, List.map_cons]
  · intro e he
    obtain ⟨x, hx, rfl⟩ := List.mem_map.1 he
    obtain ⟨v', e6, e7⟩ := e5 x hx
    exact ⟨x.1, x.2, v', rfl, e6, e7⟩

/-- Specification: a text without quotes at its ends. -/
def Plain (s : Str) : Prop := s.head? ≠ some '"' ∧ s.getLast? ≠ some '"'

theorem dropWhile_plain (s : Str) (h : s.head? ≠ some '"') : s.dropWhile (· == '"') = s := by
  cases s with
  | nil => rfl
  | cons c cs =>
    rw [List.dropWhile_cons_of_neg]
    simpa using h

theorem trimQuotes_plain (s : Str) (h : Plain s) : trimQuotes s = s := by
  unfold trimQuotes
  rw [dropWhile_plain s h.1, dropWhile_plain s.reverse (by simpa using h.2), List.reverse_reverse]

theorem trimQuotes_quoted (s : Str) (h : Plain s) : trimQuotes (quoted s) = s := by
  unfold trimQuotes quoted
  cases s with
  | nil => rfl
  | cons c cs =>
    have h1 : (('"' :: ((c :: cs) ++ chars! "\"")).dropWhile (· == '"')) = (c :: cs) ++ chars! "\"" := by
      rw [List.dropWhile_cons_of_pos (by simp)]
      exact dropWhile_plain _ (by simpa using h.1)
    rw [h1, List.reverse_append]
    have h2 : (((chars! "\"").reverse ++ (c :: cs).reverse).dropWhile (· == '"')) = (c :: cs).reverse := by
      show (('"' :: (c :: cs).reverse).dropWhile (· == '"')) = _
      rw [List.dropWhile_cons_of_pos (by simp)]
      exact dropWhile_plain _ (by rw [List.head?_reverse]; exact h.2)
    rw [h2, List.reverse_reverse]

/-- C30: in a map whose keys are texts without quotes at their ends, indexing by such a text (as the
expression evaluator does for `map["text"]`) gives the value of the first displayed entry with exactly
that key, and an error if there is none. `contents` lists text, key address and value address of the
displayed entries; each key is displayed as the quoted text (a `String` or `&str` key) or as the text
itself (any other scalar key). -/
theorem C30_text_keys_partial (T : Target) (f g a : Nat) (loc : Option Nat) (variant : MapVariant)
    (kt vt : TypeDef) (ty rty : Str) (contents : List (Str × Nat × Nat)) (text : Str)
    (h : readMem T (g + 1) a (.mk loc (.map variant kt vt)) =
      .ok (.map ty (contents.map fun c => (.pointer c.2.1 kt, .pointer c.2.2 vt))))
    (hk : ∀ c ∈ contents, Plain c.1 ∧ ∃ sty,
      readMem T f c.2.1 kt = .ok (.scalar sty (quoted c.1)) ∨ readMem T f c.2.1 kt = .ok (.scalar sty c.1))
    (hp : Plain text) :
    indexMap T f a (.mk loc (.map variant kt vt)) (.scalar rty text) =
      match contents.find? (fun c => c.1 == text) with
      | some c => .ok (c.2.2, vt)
      | none => .err := by
  simp only [readMem, readLayout, Res.bind_eq_ok] at h
  obtain ⟨es, h1, h2⟩ := h
  simp only [Res.ok.injEq, Value.map.injEq] at h2
  have hes : es = contents.map (fun c => c.2) := by
    replace h2 := h2.2
    clear h1 hk
    induction es generalizing contents with
    | nil => cases contents with
      | nil => rfl
      | cons c cs => simp at h2
    | cons e es ih => cases contents with
      | nil => simp at h2
      | cons c cs =>
        simp only [List.map_cons, List.cons.injEq, Prod.mk.injEq, Value.pointer.injEq, and_true] at h2
        rw [List.map_cons, ih cs h2.2]
        congr 1
        exact Prod.ext h2.1.1 h2.1.2
  subst hes
  simp only [indexMap, TypeDef.layout]
  rw [h1, Res.bind_ok]
  clear h1 h2
  induction contents with
  | nil => rfl
  | cons c cs ih =>
    obtain ⟨hc1, sty, hc2⟩ := hk c (by simp)
    have hcmp : ∀ v, readMem T f c.2.1 kt = .ok v → valuesEqual (.scalar rty text) v = (c.1 == text) := by
      intro v hv
      have : valuesEqual (.scalar rty text) v = (trimQuotes text == c.1) := by
        rcases hc2 with hc2 | hc2
        · rw [hc2] at hv; cases hv; simp only [valuesEqual, trimQuotes_quoted _ hc1]
        · rw [hc2] at hv; cases hv; simp only [valuesEqual, trimQuotes_plain _ hc1]
      rw [this, trimQuotes_plain _ hp, Bool.eq_iff_iff]
      simp only [beq_iff_eq]; exact eq_comm
    have hread : ∃ v, readMem T f c.2.1 kt = .ok v := by
      rcases hc2 with hc2 | hc2 <;> exact ⟨_, hc2⟩
    obtain ⟨v, hv⟩ := hread
    have ih := ih (fun c hc => hk c (List.mem_cons_of_mem _ hc))
    simp only [List.map_cons, findKey]
    rw [hv, Res.bind_ok, hcmp v hv, List.find?_cons]
    cases c.1 == text with
    | true => rfl
    | false => exact ih

/-- C30 is false of the code: keys that differ in quotes at their ends are confused. The map holds the
keys `a` (value at 156) and `a"` (value at 157); asking for `a"` gives the value of `a`. -/
theorem C30_quoted_keys_fail :
    ∃ (T : Target) (m : Mem) (kt t : TypeDef), T.Reads m ∧ kt = .mk none (.string 0 8 16 (.mk none (.uint 1))) ∧
      t = .mk none (.map (.btreeMap 16 0 0 8 ⟨8, 56, 0, 60⟩) kt (.mk none (.uint 1))) ∧
      readMem T 1 0 t = .ok (.map (chars! "BTreeMap<String, u8>")
        [(.pointer 108 kt, .pointer 156 (.mk none (.uint 1))), (.pointer 132 kt, .pointer 157 (.mk none (.uint 1)))]) ∧
      readMem T 1 108 kt = .ok (.scalar (chars! "String") (chars! "\"a\"")) ∧
      readMem T 1 132 kt = .ok (.scalar (chars! "String") (chars! "\"a\"\"")) ∧
      indexMap T 1 0 t (.scalar (chars! "String") (chars! "a\"")) = .ok (156, .mk none (.uint 1)) := by
  refine ⟨demoTarget (demoMem 0 (encNat 8 100 ++ encNat 8 0 ++ encNat 8 2 ++ List.replicate 76 0 ++ [2, 0] ++
    List.replicate 6 0 ++ encNat 8 1 ++ encNat 8 160 ++ encNat 8 1 ++ encNat 8 2 ++ encNat 8 160 ++ encNat 8 2 ++
    [7, 8, 0, 0, 97, 34])), _, _, _, demoTarget_reads _, rfl, rfl, rfl, rfl, rfl, rfl⟩

/-- The hypotheses of the map theorems are met: a map with the two keys `a` and `b`. -/
example : ∃ (T : Target) (kt t : TypeDef),
      t = .mk none (.map (.btreeMap 16 0 0 8 ⟨8, 56, 0, 60⟩) kt (.mk none (.uint 1))) ∧
      readMem T 1 0 t = .ok (.map (chars! "BTreeMap<String, u8>")
        ([(chars! "a", 108, 156), (chars! "b", 132, 157)].map fun c =>
          (.pointer c.2.1 kt, .pointer c.2.2 (.mk none (.uint 1))))) ∧
      readMem T 1 108 kt = .ok (.scalar (chars! "String") (quoted (chars! "a"))) ∧
      readMem T 1 132 kt = .ok (.scalar (chars! "String") (quoted (chars! "b"))) ∧
      indexMap T 1 0 t (.scalar (chars! "String") (chars! "b")) = .ok (157, .mk none (.uint 1)) := by
  refine ⟨demoTarget (demoMem 0 (encNat 8 100 ++ encNat 8 0 ++ encNat 8 2 ++ List.replicate 76 0 ++ [2, 0] ++
    List.replicate 6 0 ++ encNat 8 1 ++ encNat 8 160 ++ encNat 8 1 ++ encNat 8 1 ++ encNat 8 161 ++ encNat 8 1 ++
    [7, 8, 0, 0, 97, 98])), .mk none (.string 0 8 16 (.mk none (.uint 1))), _, rfl, rfl, rfl, rfl, rfl⟩

end Rudy.Data
