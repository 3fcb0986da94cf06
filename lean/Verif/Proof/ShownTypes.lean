import Verif.Proof.Shown
/-
Lemmas for C76: the layout of a described type, and what is printed for a value read.
-/
set_option linter.unusedSimpArgs false
namespace Rudy.Shown
open Rudy Rudy.Dwarf Rudy.Parse Rudy.Layout Rudy.Data Rudy.TypeRes Rudy.Eval

/-! ### Values -/

mutual
/-- A value read, as far as it is printed. -/
def shown : Value → RVal
  | .scalar _ v => .leaf v
  | .array _ xs => .seq (shownList xs)
  | .struct t fs => .record t (shownFields fs)
  | .tuple t xs => .tuple t (shownList xs)
  | .map _ es => .map (shownEntries es)
  | .pointer a t => .leaf (chars! "<" ++ t.displayName ++ chars! " @ " ++ hexStr a ++ chars! ">")
def shownList : List Value → List RVal
  | [] => []
  | v :: vs => shown v :: shownList vs
def shownFields : List (Str × Value) → List (Str × RVal)
  | [] => []
  | (k, v) :: vs => (k, shown v) :: shownFields vs
def shownEntries : List (Value × Value) → List (RVal × RVal)
  | [] => []
  | (k, v) :: vs => (shown k, shown v) :: shownEntries vs
end

theorem shownList_length (xs : List Value) : (shownList xs).length = xs.length := by
  induction xs with
  | nil => rfl
  | cons x xs ih => simp [shownList, ih]

theorem shownEntries_length (xs : List (Value × Value)) : (shownEntries xs).length = xs.length := by
  induction xs with
  | nil => rfl
  | cons x xs ih => obtain ⟨k, v⟩ := x; simp [shownEntries, ih]

mutual
theorem formatValue_shown : ∀ x : Value, formatValue x = (shown x).text
  | .scalar t v => rfl
  | .array t xs => by
    simp only [formatValue, shown, RVal.text, shownList_length, block, formatList_shown xs]
    simp
  | .struct t fs => by simp [formatValue, shown, RVal.text, block, formatFields_shown fs]
  | .tuple t xs => by simp [formatValue, shown, RVal.text, block, formatList_shown xs]
  | .map t es => by
    simp only [formatValue, shown, RVal.text, shownEntries_length, block, formatEntries_shown es]
    simp
  | .pointer a t => by simp only [formatValue, shown, RVal.text]
theorem formatList_shown : ∀ xs : List Value, formatList xs = texts (shownList xs)
  | [] => rfl
  | x :: xs => by simp [formatList, shownList, texts, formatValue_shown x, formatList_shown xs]
theorem formatFields_shown : ∀ xs : List (Str × Value), formatFields xs = fieldTexts (shownFields xs)
  | [] => rfl
  | (k, x) :: xs => by simp [formatFields, shownFields, fieldTexts, formatValue_shown x, formatFields_shown xs]
theorem formatEntries_shown : ∀ xs : List (Value × Value), formatEntries xs = entryTexts (shownEntries xs)
  | [] => rfl
  | (k, x) :: xs => by
    simp [formatEntries, shownEntries, entryTexts, formatValue_shown k, formatValue_shown x, formatEntries_shown xs]
end

theorem shown_mapType (f : Str → Str) (x : Value) : shown (x.mapType f) = (shown x).mark f := by
  cases x <;> rfl

/-- Not a pointer. -/
def NotPtr : Value → Prop
  | .pointer _ _ => False
  | _ => True

theorem NotPtr.mapType {f : Str → Str} {x : Value} (h : NotPtr x) : NotPtr (x.mapType f) := by
  cases x <;> first | trivial | exact h

theorem expand_mapType (T : Target) (s k : Nat) (f : Str → Str) (x : Value) (h : NotPtr x) :
    expand T s k (x.mapType f) = (expand T s k x).bind fun y => .ok (y.mapType f) := by
  cases k with
  | zero => rfl
  | succ k =>
    cases x with
    | pointer a t => exact h.elim
    | scalar t v => rfl
    | array t xs =>
      simp only [Value.mapType, expand]
      cases expandList (expand T s k) xs <;> rfl
    | struct t xs =>
      simp only [Value.mapType, expand]
      cases expandFields (expand T s k) xs <;> rfl
    | tuple t xs =>
      simp only [Value.mapType, expand]
      cases expandList (expand T s k) xs <;> rfl
    | map t xs =>
      simp only [Value.mapType, expand]
      cases expandEntries (expand T s k) xs <;> rfl

/-! ### The layout of a described type -/

/-- The layout of a described type, given the types of its parts. -/
def Desc.layout (T : Nat → TypeDef) : Desc → Layout
  | .plain l => l
  | .string a b c t => .string a b c (T t)
  | .str d l => .strSlice d l
  | .vec a b c t => .vec a b c (T t)
  | .slice d l t => .slice (T t) d l
  | .array t n => .array (T t) n
  | .pointer m t => .pointer m (T t)
  | .reference m t => .reference m (T t)
  | .smart v i d t => .smartPtr v (T t) i d
  | .option n disc off t s => .option n disc off (T t) s
  | .struct n s al fs => .struct n s al (TypeRes.membersOf (fs.map fun f => (f.1, f.2.1, T f.2.2)))
  | .enum n disc vs s => .enum n disc (variantsOf (vs.map fun v => (v.1, v.2.1, T v.2.2))) s
  | .cenum n disc vs s => .cenum n disc vs s
  | .hashMap mask ctrl items ps ko vo k v => .map (.hashMap mask ctrl items ps ko vo) (T k) (T v)
  | .btreeMap l r n h nl k v => .map (.btreeMap l r n h nl) (T k) (T v)
  | .tuple s es => .tuple (TypeRes.membersOf (es.map fun x => ([], x.1, T x.2))) s
  | .result n disc o t o' u s => .result n disc (T t) o (T u) o' s

section
variable (typedef : Nat → Option Layout) (db : Db)

/-- The type of a part. -/
def ty (d t : Nat) : TypeDef :=
  match shallow typedef db d t with
  | .ok td => td
  | _ => .mk none .unit

variable {typedef db}

theorem ty_eq {d t : Nat} {td : TypeDef} (h : shallow typedef db d t = .ok td) : ty typedef db d t = td := by
  simp [ty, h]

theorem shallow_num {d t : Nat} {l : Layout} {dt : DiscTy} (hd : 1 ≤ d) (h : typedef t = some l)
    (hl : (∃ n, l = .int n ∧ dt = .int n) ∨ ∃ n, l = .uint n ∧ dt = .uint n) :
    shallow typedef db d t = .ok (.mk (some t) l) ∧ dt = discTy l := by
  obtain ⟨d, rfl⟩ : ∃ k, d = k + 1 := ⟨d - 1, by omega⟩
  rcases hl with ⟨n, rfl, rfl⟩ | ⟨n, rfl, rfl⟩ <;> exact ⟨by simp [shallow, builtin, h, primitive], rfl⟩

theorem discOf {d part : Nat} {disc : Disc} (hd : 1 ≤ d) (h : DiscDesc typedef db part disc) :
    DiscOf (shallow typedef db d) db part disc := by
  rcases h with ⟨m, t, l, h1, h2, h3, h4, h6⟩ | h
  · obtain ⟨h7, h8⟩ := shallow_num (db := db) hd h3 h4
    exact .inl ⟨m, t, _, h1, h2, h7, h8, h6⟩
  · exact .inr h

theorem forall₂_map {α β γ : Type} {R : α → β → Prop} {S : α → γ → Prop} {f : β → γ} {xs : List α} {ys : List β}
    (h : List.Forall₂ R xs ys) (hi : ∀ x y, y ∈ ys → R x y → S x (f y)) : List.Forall₂ S xs (ys.map f) := by
  induction h with
  | nil => exact .nil
  | cons h _ ih => exact .cons (hi _ _ (by simp) h) (ih fun x y hy => hi x y (by simp [hy]))

theorem forall₂_mono {α β : Type} {R S : α → β → Prop} {xs : List α} {ys : List β}
    (h : List.Forall₂ R xs ys) (hi : ∀ x y, x ∈ xs → R x y → S x y) : List.Forall₂ S xs ys := by
  induction h with
  | nil => exact .nil
  | cons h _ ih => exact .cons (hi _ _ (by simp) h) (ih fun x y hx => hi x y (by simp [hx]))

theorem layout_at {d e : Nat} {desc : Desc} {T : Nat → TypeDef} (hw : WellFormed db) (hdec : Decodes db) (hd : 1 ≤ d)
    (h : Describes typedef db e desc) (hp : ∀ t ∈ desc.parts, shallow typedef db d t = .ok (T t)) :
    resolveType typedef db d e = .ok (.mk (some e) (desc.layout T)) := by
  cases desc with
  | plain l =>
    obtain ⟨h1, h2⟩ := h
    cases l <;> first | exact h2.elim | simp [resolveType, builtin, h1, primitive, Desc.layout]
  | string lenOff dataOff capOff t =>
    obtain ⟨⟨a, b, c, i, h1⟩, v, h2, ⟨t1, h3⟩, h4, ⟨t2, h5⟩, h6, h7, h8⟩ := h
    exact (C57_string typedef db d e a b c i h1 hw _).2
      ⟨v, dataOff, lenOff, capOff, T t, t, t1, t2, h2, h3, h4, h5, h6, hp t (by simp [Desc.parts]), h7, h8, rfl⟩
  | str dataOff lenOff =>
    obtain ⟨⟨a, b, h1⟩, h2, h3⟩ := h
    exact (C58_str typedef db d e a b h1 _).2 ⟨dataOff, lenOff, h2, h3, rfl⟩
  | vec lenOff dataOff capOff t =>
    obtain ⟨⟨a, b, c, i, h1⟩, hd', ⟨t1, h3⟩, h4, ⟨t2, h5⟩, h6, h7, h8⟩ := h
    exact (C57_vec typedef db d e a b c i h1 hd' _).2
      ⟨dataOff, lenOff, capOff, T t, t, t1, t2, h3, h4, h5, h6, hp t (by simp [Desc.parts]), h7, h8, rfl⟩
  | slice dataOff lenOff t =>
    obtain ⟨⟨i, a, b, h1⟩, ⟨p, h2, h3⟩, h4⟩ := h
    exact (C58_slice typedef db d e i a b h1 _).2
      ⟨dataOff, p, t, T t, lenOff, h2, h3, hp t (by simp [Desc.parts]), h4, rfl⟩
  | array t n =>
    obtain ⟨h1, h2, h3, s, h4, h5⟩ := h
    exact (C58_array typedef db d e h1 h2 _).2 ⟨t, T t, s, n, h3, hp t (by simp [Desc.parts]), h4, h5, rfl⟩
  | pointer m t =>
    obtain ⟨⟨i, h1⟩, h2⟩ := h
    exact ((C58_pointer typedef db d e m i _).1 h1).2 ⟨t, T t, h2, hp t (by simp [Desc.parts]), rfl⟩
  | reference m t =>
    obtain ⟨⟨i, h1⟩, h2⟩ := h
    exact ((C58_pointer typedef db d e m i _).2 h1).2 ⟨t, T t, h2, hp t (by simp [Desc.parts]), rfl⟩
  | smart v i o t =>
    obtain ⟨⟨t0, a, b, h1⟩, h2⟩ := h
    have hpt := hp t (by simp [Desc.parts])
    cases v with
    | box =>
      obtain ⟨h3, rfl, rfl⟩ := h2
      exact (C57_box typedef db d e t0 a b h1 _).2 ⟨t, T t, h3, hpt, rfl⟩
    | mutex =>
      obtain ⟨h3, h4, rfl, h5, o1, o2, cell, h6, h7, rfl⟩ := h2
      exact (C57_cell typedef db d e .mutex _ rfl t0 a b h1 h3 _).2 ⟨t, T t, o1, o2, cell, h4, hpt, h6, h7, h5, rfl⟩
    | refCell =>
      obtain ⟨h3, h4, rfl, h5, o1, o2, cell, h6, h7, rfl⟩ := h2
      exact (C57_cell typedef db d e .refCell _ rfl t0 a b h1 h3 _).2 ⟨t, T t, o1, o2, cell, h4, hpt, h6, h7, h5, rfl⟩
    | rc =>
      obtain ⟨h3, h4, h5, o1, nn, o2, raw, alloc, h6, h7, h8, h9, rfl⟩ := h2
      exact (C57_rc typedef db d e .rc _ rfl t0 a b h1 h3 _).2
        ⟨t, T t, o1, nn, o2, raw, alloc, o, h4, hpt, h6, h7, h8, h9, h5, rfl⟩
    | arc =>
      obtain ⟨h3, h4, h5, o1, nn, o2, raw, alloc, h6, h7, h8, h9, rfl⟩ := h2
      exact (C57_rc typedef db d e .arc _ rfl t0 a b h1 h3 _).2
        ⟨t, T t, o1, nn, o2, raw, alloc, o, h4, hpt, h6, h7, h8, h9, h5, rfl⟩
    | _ => exact h2.elim
  | option name disc off t size =>
    obtain ⟨⟨n0, d0, o0, t0, s0, h1⟩, part, h2, h3, h4⟩ := h
    exact (C57_option typedef db d e n0 d0 o0 t0 s0 h1 hw hdec _).2
      ⟨name, size, part, disc, off, t, T t, h2, discOf hd h3, h4, hp t (by simp [Desc.parts]), rfl⟩
  | struct name size align fs =>
    obtain ⟨h1, h2, h3, h4, h5, cs, h6, h7, h8⟩ := h
    exact (C58_struct typedef db d e h1 h2 cs h6 h7 _).2 ⟨name, size, align, _, h3, h4, h5,
      forall₂_map h8 (fun x y hy hR => ⟨hR.1, hR.2.1, y.2.2, hR.2.2,
        hp _ (by simp only [Desc.parts]; exact List.mem_map_of_mem (f := fun x => x.2.2) hy)⟩), rfl⟩
  | «enum» name disc vs size =>
    obtain ⟨h1, h2, part, cs, ⟨h3, h4, h5⟩, h6, h7, h8⟩ := h
    refine C58_enum_complete typedef db d e h1 h2 part h5 name size disc cs _ h3 h4 (discOf hd h6) h7 ?_
    refine forall₂_map (R := fun c y => Tagged db c .variant ∧ VariantDesc db c y)
      (forall₂_mono h8 fun x y hx hR => ⟨?_, hR⟩) ?_
    · have := (List.mem_filter.1 hx).2
      exact (tagged_iff db x _).1 (by simpa using this)
    · rintro x y hy ⟨ht, hv, m, h9, h10, h11, h12⟩
      exact ⟨ht, hv, m, y.2.2, h9, h10, h11, h12,
        hp _ (by simp only [Desc.parts]; exact List.mem_map_of_mem (f := fun x => x.2.2) hy)⟩
  | cenum name disc vs size =>
    obtain ⟨h1, h2, h3, h4, ⟨t, l, h5, h6, h7⟩, cs, h8, h9⟩ := h
    obtain ⟨h10, h11⟩ := shallow_num (db := db) hd h6 h7
    exact (C58_c_enum typedef db d e h1 h2 _).2 ⟨name, size, t, _, disc, cs, vs, h3, h4, h5, h10, h7, h8, h9, rfl⟩
  | hashMap mask ctrl items ps ko vo k v =>
    obtain ⟨⟨m1, m2, m3, m4, m5, m6, k0, v0, h1⟩, h2, h3, h4, b, h5, h6⟩ := h
    exact (C57_hash_map typedef db d e m1 m2 m3 m4 m5 m6 k0 v0 h1 h2 hw _).2
      ⟨T k, T v, k, v, b, mask, ctrl, items, ps, ko, vo, h3, hp k (by simp [Desc.parts]), h4,
        hp v (by simp [Desc.parts]), h5, h6, rfl⟩
  | btreeMap lengthOff rootOff nodeOff heightOff nl k v =>
    obtain ⟨⟨m1, m2, m3, m4, n0, k0, v0, h1⟩, h2, h3, h4, h5, rootTy, nodeRef, nodePtr, leaf, parentTy, parentPtr, internal,
      h6, ⟨a1, a2, a3, a4, a5, h7, h8, h9⟩, h10, h11, h12, h13, h14, h15, h16, ⟨b1, b2, b3, b4, b5, h17, h18, h19⟩, h20, h21⟩ := h
    exact (C57_btree_map typedef db d e m1 m2 m3 m4 n0 k0 v0 h1 h2 hw hdec _).2
      ⟨T k, T v, k, v, lengthOff, rootOff, rootTy, nodeRef, heightOff, nodeOff, nodePtr, leaf, nl.lenOff, nl.keysOff, nl.valsOff,
        parentTy, parentPtr, internal, nl.edgesOff, h3, hp k (by simp [Desc.parts]), h4, hp v (by simp [Desc.parts]), h5, h6,
        ⟨a1, a2, a3, a4, a5, h7, discOf hd h8, h9⟩, h10, h11, h12, h13, h14, h15, h16,
        ⟨b1, b2, b3, b4, b5, h17, discOf hd h18, h19⟩, h20, h21, rfl⟩
  | tuple size es =>
    obtain ⟨⟨m0, s0, h1⟩, h2, cs, h3, h4⟩ := h
    exact (C58_tuple typedef db d e m0 s0 h1 _).2 ⟨cs, size, _, h3, h2,
      forall₂_map h4 (fun x y hy hR => ⟨rfl, hR.1, y.2, hR.2,
        hp _ (by simp only [Desc.parts]; exact List.mem_map_of_mem (f := fun x => x.2) hy)⟩), rfl⟩
  | result name disc okOff okTy errOff errTy size =>
    obtain ⟨⟨n0, d0, t1, o1, t2, o2, s0, h1⟩, part, h2, h3, h4, h5⟩ := h
    exact (C57_result typedef db d e n0 d0 t1 o1 t2 o2 s0 h1 hw hdec _).2
      ⟨name, size, part, disc, okOff, okTy, T okTy, errOff, errTy, T errTy, h2, discOf hd h3, h4, hp okTy (by simp [Desc.parts]), h5,
        hp errTy (by simp [Desc.parts]), rfl⟩

/-! ### Types by name -/

theorem builtin_ordinary {sh : Sh} {e : Nat} (h : Ordinary typedef e) : builtin sh typedef db e = .ok none := by
  simp only [builtin]
  simp only [Ordinary] at h
  split
  · rfl
  · rename_i l hl
    rw [hl] at h
    cases l <;> first | exact h.elim | rfl

theorem builtin_known {sh : Sh} {e : Nat} {r : Option TypeDef} (h : ¬ Ordinary typedef e)
    (hb : builtin sh typedef db e = .ok r) : ∃ td, r = some td := by
  simp only [builtin] at hb
  simp only [Ordinary] at h
  split at hb
  · rename_i hl; rw [hl] at h; exact absurd trivial h
  · rename_i l hl
    rw [hl] at h
    split at hb
    · obtain ⟨l', _, h2⟩ := (Res.bind_eq_ok _ _ _).1 hb
      cases h2; exact ⟨_, rfl⟩
    · rename_i hpr
      cases l <;> first
        | exact absurd trivial h
        | (simp [primitive] at hpr; done)
        | (obtain ⟨l', _, h2⟩ := (Res.bind_eq_ok _ _ _).1 hb
           cases h2; exact ⟨_, rfl⟩)

theorem shallow_ordinary {d e : Nat} (h : Ordinary typedef e) :
    ∃ nm, shallow typedef db (d + 1) e = .ok (.mk (some e) (.alias nm)) := by
  simp only [shallow, builtin_ordinary h, Res.bind_ok]
  exact ⟨_, rfl⟩

theorem shallow_of_resolve {d e : Nat} {td : TypeDef} (h : ¬ Ordinary typedef e)
    (hr : resolveType typedef db d e = .ok td) : shallow typedef db (d + 1) e = .ok td := by
  simp only [resolveType] at hr
  obtain ⟨o, h1, h2⟩ := (Res.bind_eq_ok _ _ _).1 hr
  obtain ⟨td', rfl⟩ := builtin_known h h1
  simp only [shallow, h1, Res.bind_ok]
  exact h2

theorem resolve_of_shallow {d e : Nat} {td : TypeDef} (h : ¬ Ordinary typedef e)
    (hr : shallow typedef db (d + 1) e = .ok td) : resolveType typedef db d e = .ok td := by
  simp only [shallow] at hr
  obtain ⟨o, h1, h2⟩ := (Res.bind_eq_ok _ _ _).1 hr
  obtain ⟨td', rfl⟩ := builtin_known h h1
  simp only [resolveType, h1, Res.bind_ok]
  exact h2

theorem shallow_mono {d d' e : Nat} {td : TypeDef} (h : d ≤ d') (hs : shallow typedef db d e = .ok td) :
    shallow typedef db d' e = .ok td := by
  rw [(shallow_le typedef db d d' h e).eq (by rw [hs]; simp), hs]

theorem resolve_of_shallow' {d e : Nat} {td : TypeDef} (h : ¬ Ordinary typedef e)
    (hr : shallow typedef db d e = .ok td) : resolveType typedef db d e = .ok td :=
  resolve_of_shallow h (shallow_mono (Nat.le_succ d) hr)

theorem list_bound {α : Type} (l : List α) (P : α → Nat → Prop)
    (h : ∀ x ∈ l, ∃ N, ∀ d, N ≤ d → P x d) : ∃ N, ∀ d, N ≤ d → ∀ x ∈ l, P x d := by
  induction l with
  | nil => exact ⟨0, fun _ _ x hx => by cases hx⟩
  | cons y l ih =>
    obtain ⟨N1, h1⟩ := h y (by simp)
    obtain ⟨N2, h2⟩ := ih fun x hx => h x (by simp [hx])
    refine ⟨max N1 N2, fun d hd x hx => ?_⟩
    rcases List.mem_cons.1 hx with rfl | hx
    · exact h1 d (by omega)
    · exact h2 d (by omega) x hx

theorem known_shallow (hw : WellFormed db) (hdec : Decodes db) {e : Nat} (h : Known typedef db e) :
    ∃ N, ∀ d, N ≤ d → shallow typedef db d e = .ok (ty typedef db d e) := by
  suffices hs : ∃ N td, shallow typedef db N e = .ok td by
    obtain ⟨N, td, hs⟩ := hs
    refine ⟨N, fun d hd => ?_⟩
    have := shallow_mono hd hs
    rw [ty_eq this, this]
  induction h with
  | user ho => obtain ⟨nm, h⟩ := shallow_ordinary (db := db) (d := 0) ho; exact ⟨1, _, h⟩
  | built ho hd _ ih =>
    rename_i e desc _
    have ⟨N, hN⟩ := list_bound desc.parts (fun t d => shallow typedef db d t = .ok (ty typedef db d t)) (by
      intro t ht
      obtain ⟨N, td, hs⟩ := ih t ht
      refine ⟨N, fun d hd => ?_⟩
      have := shallow_mono hd hs
      rw [ty_eq this, this])
    exact ⟨_, _, shallow_of_resolve ho (layout_at hw hdec (d := N + 1) (by omega) hd (hN (N + 1) (by omega)))⟩

/-- The layout of a described type with its parts. -/
def full (typedef : Nat → Option Layout) (db : Db) (d e : Nat) (desc : Desc) : TypeDef :=
  .mk (some e) (desc.layout (ty typedef db d))

theorem types_at (hw : WellFormed db) (hdec : Decodes db) {e : Nat} {desc : Desc} (h : Is typedef db e desc) :
    ∃ N, ∀ d, N ≤ d → (∀ t ∈ desc.parts, shallow typedef db d t = .ok (ty typedef db d t)) ∧
      resolveType typedef db d e = .ok (full typedef db d e desc) ∧
      ∀ td, resolveType typedef db d e = .ok td ∨ shallow typedef db d e = .ok td →
        td = full typedef db d e desc ∨ Ordinary typedef e ∧ ∃ nm, td = .mk (some e) (.alias nm) := by
  obtain ⟨N, hN⟩ := list_bound desc.parts (fun t d => shallow typedef db d t = .ok (ty typedef db d t))
    fun t ht => known_shallow hw hdec (h.2 t ht)
  refine ⟨N + 1, fun d hd => ?_⟩
  have hp := hN d (by omega)
  have hr := layout_at hw hdec (d := d) (by omega) h.1 hp
  refine ⟨hp, hr, ?_⟩
  rintro td (h1 | h1)
  · rw [hr] at h1; cases h1; exact .inl rfl
  · by_cases ho : Ordinary typedef e
    · obtain ⟨d, rfl⟩ : ∃ k, d = k + 1 := ⟨d - 1, by omega⟩
      obtain ⟨nm, h2⟩ := shallow_ordinary (db := db) (d := d) ho
      rw [h2] at h1; cases h1; exact .inr ⟨ho, nm, rfl⟩
    · rw [resolve_of_shallow' ho h1] at hr; cases hr; exact .inl rfl

end
end Rudy.Shown
