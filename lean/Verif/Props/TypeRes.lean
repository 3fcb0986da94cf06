import Verif.Proof.TypeRes
/-
C57: the layouts of standard library types are composed from the members the debug file describes.
C58: the layouts of primitive and user defined types.
C60: the location of the discriminant of an enumeration.
-/
namespace Rudy.TypeRes
open Rudy.Dwarf Rudy.Parse Rudy.Layout

section
variable (typedef : Nat → Option Layout) (db : Db) (depth : Nat) (e : Nat)

/-! ### C57: standard library types -/

theorem vec_ok (sh : Sh) (hd : Distinct db e) (v : VecL) :
    vec sh db e = .ok v ↔
      (∃ t, Along db e [chars! "buf", chars! "inner", chars! "ptr"] v.dataOff t) ∧
      OffOf db e (chars! "len") v.lenOff ∧
      (∃ t, Along db e [chars! "buf", chars! "inner", chars! "cap", chars! "__0"] v.capOff t) ∧
      (∃ t, Param db e (chars! "T") t ∧ sh t = .ok v.inner) ∧
      v.dataOff < u64Max1 ∧ v.capOff < u64Max1 := by
  simp only [vec, mapP, Res.bind_eq_ok, Prod.exists, parseChildren_pair, parseChildren_single,
    child_isMemberOffset _ _ _ hd, child_fieldPathOffset _ _ _ _ hd, child_resolvedGeneric _ _ _ _ hd]
  constructor
  · rintro ⟨a, b, c, t, ⟨⟨h1, h2⟩, h3, ⟨h4, h5⟩, h6⟩, h7⟩
    cases h7
    exact ⟨h1, h3, h4, h6, h2, h5⟩
  · rintro ⟨h1, h3, h4, h6, h2, h5⟩
    exact ⟨_, _, _, _, ⟨⟨h1, h2⟩, h3, ⟨h4, h5⟩, h6⟩, rfl⟩

/-- C57: a type recognised as `Vec` resolves exactly if its entry has the members of a vector; its
layout is the sum of the offsets along the way to the pointer, the length and the capacity, and the
element type is the type parameter `T`. -/
theorem C57_vec (a b c : Nat) (i : TypeDef) (hn : typedef e = some (.vec a b c i)) (hd : Distinct db e)
    (td : TypeDef) :
    resolveType typedef db depth e = .ok td ↔ ∃ dataOff lenOff capOff inner t t1 t2,
      Along db e [chars! "buf", chars! "inner", chars! "ptr"] dataOff t1 ∧
      OffOf db e (chars! "len") lenOff ∧
      Along db e [chars! "buf", chars! "inner", chars! "cap", chars! "__0"] capOff t2 ∧
      Param db e (chars! "T") t ∧ shallow typedef db depth t = .ok inner ∧
      dataOff < u64Max1 ∧ capOff < u64Max1 ∧
      td = .mk (some e) (.vec lenOff dataOff capOff inner) := by
  simp only [resolveType, builtin, hn, primitive, Res.bind_eq_ok, vec_ok db e _ hd]
  constructor
  · rintro ⟨o, ⟨v, ⟨⟨t1, h1⟩, h2, ⟨t2, h3⟩, ⟨t, h4, h5⟩, h6, h7⟩, h8⟩, h9⟩
    cases h8; cases h9
    exact ⟨_, _, _, _, t, t1, t2, h1, h2, h3, h4, h5, h6, h7, rfl⟩
  · rintro ⟨dO, lO, cO, i, t, t1, t2, h1, h2, h3, h4, h5, h6, h7, rfl⟩
    exact ⟨_, ⟨⟨dO, lO, cO, i⟩, ⟨⟨t1, h1⟩, h2, ⟨t2, h3⟩, ⟨t, h4, h5⟩, h6, h7⟩, rfl⟩, rfl⟩

/-- C57: a `String` is laid out as the vector that is the type of its member `vec`. -/
theorem C57_string (a b c : Nat) (i : TypeDef) (hn : typedef e = some (.string a b c i)) (hw : WellFormed db)
    (td : TypeDef) :
    resolveType typedef db depth e = .ok td ↔ ∃ v dataOff lenOff capOff inner t t1 t2,
      TypeOf db e (chars! "vec") v ∧
      Along db v [chars! "buf", chars! "inner", chars! "ptr"] dataOff t1 ∧
      OffOf db v (chars! "len") lenOff ∧
      Along db v [chars! "buf", chars! "inner", chars! "cap", chars! "__0"] capOff t2 ∧
      Param db v (chars! "T") t ∧ shallow typedef db depth t = .ok inner ∧
      dataOff < u64Max1 ∧ capOff < u64Max1 ∧
      td = .mk (some e) (.string lenOff dataOff capOff inner) := by
  simp only [resolveType, builtin, hn, primitive, Res.bind_eq_ok, stringL]
  constructor
  · rintro ⟨o, ⟨v, hv, h8⟩, h9⟩
    cases h8; cases h9
    obtain ⟨m, hm, hv⟩ := (andThen_ok _ _ _ _ _).1 hv
    have hm := (member_type db e _ m).1 hm
    obtain ⟨c, hc, ht⟩ := id hm
    obtain ⟨⟨t1, h1⟩, h2, ⟨t2, h3⟩, ⟨t, h4, h5⟩, h6, h7⟩ := (vec_ok db m _ (hw.types _ _ ht) v).1 hv
    exact ⟨m, _, _, _, _, t, t1, t2, hm, h1, h2, h3, h4, h5, h6, h7, rfl⟩
  · rintro ⟨m, dO, lO, cO, i, t, t1, t2, hm, h1, h2, h3, h4, h5, h6, h7, rfl⟩
    obtain ⟨c, hc, ht⟩ := id hm
    refine ⟨_, ⟨⟨dO, lO, cO, i⟩, (andThen_ok _ _ _ _ _).2 ⟨m, (member_type db e _ m).2 hm,
      (vec_ok db m _ (hw.types _ _ ht) _).2 ⟨⟨t1, h1⟩, h2, ⟨t2, h3⟩, ⟨t, h4, h5⟩, h6, h7⟩⟩, rfl⟩, rfl⟩

/-- The members of a hashbrown table, reached from its map type `b`: offsets of the mask, the control
bytes and the number of items, the size of a bucket and the offsets of key and value in it. -/
def HashTable (db : Db) (b : Nat) (mask ctrl items pairSize key value : Nat) : Prop :=
  ∃ o1 outer o2 raw pair m c i,
    Field db b (chars! "table") o1 outer ∧ Field db outer (chars! "table") o2 raw ∧
    Param db outer (chars! "T") pair ∧ HasNum db pair .byteSize pairSize ∧
    OffOf db pair (chars! "__0") key ∧ OffOf db pair (chars! "__1") value ∧
    OffOf db raw (chars! "bucket_mask") m ∧ OffOf db raw (chars! "ctrl") c ∧ OffOf db raw (chars! "items") i ∧
    mask = o1 + o2 + m ∧ ctrl = o1 + o2 + c ∧ items = o1 + o2 + i ∧
    mask < u64Max1 ∧ ctrl < u64Max1 ∧ items < u64Max1

theorem hashbrown_ok (hw : WellFormed db) (b : Nat) (mv : MapVariant) :
    hashbrown db b = .ok mv ↔ ∃ mask ctrl items pairSize key value,
      HashTable db b mask ctrl items pairSize key value ∧
      mv = .hashMap mask ctrl items pairSize key value := by
  simp only [hashbrown, Res.bind_eq_ok, Prod.exists, member_field, addU_ok]
  constructor
  · rintro ⟨o1, outer, h1, ps, k, v, o2, raw, h2, o3, ⟨rfl, h3⟩, m, c, i, h4, m', ⟨rfl, h5⟩, c', ⟨rfl, h6⟩, i',
      ⟨rfl, h7⟩, h8⟩
    cases h8
    have hdo : Distinct db outer := by obtain ⟨_, _, _, ht⟩ := h1; exact hw.types _ _ ht
    simp only [parseChildren_pair, parseChildren_single, child_generic _ _ _ _ hdo, child_isMember_field _ _ _ hdo,
      both_ok, udataAttr_ok] at h2
    obtain ⟨⟨pr, hp, h9, h10⟩, hraw⟩ := h2
    have hdp : Distinct db pr := by obtain ⟨_, _, _, ht⟩ := hp; exact hw.types _ _ ht
    have hdr : Distinct db raw := by obtain ⟨_, _, _, ht⟩ := hraw; exact hw.types _ _ ht
    simp only [parseChildren_pair, parseChildren_single, child_isMemberOffset _ _ _ hdp] at h10
    simp only [parseChildren_pair, parseChildren_single, child_isMemberOffset _ _ _ hdr] at h4
    obtain ⟨h4, h11, h12⟩ := h4
    exact ⟨_, _, _, _, _, _, ⟨o1, outer, o2, raw, pr, m, c, i, h1, hraw, hp, h9, h10.1, h10.2, h4, h11, h12, rfl,
      rfl, rfl, h5, h6, h7⟩, rfl⟩
  · rintro ⟨mask, ctrl, items, ps, k, v, ⟨o1, outer, o2, raw, pr, m, c, i, h1, hraw, hp, h9, hk, hv, h4, h11, h12,
      rfl, rfl, rfl, h5, h6, h7⟩, rfl⟩
    have hdo : Distinct db outer := by obtain ⟨_, _, _, ht⟩ := h1; exact hw.types _ _ ht
    have hdp : Distinct db pr := by obtain ⟨_, _, _, ht⟩ := hp; exact hw.types _ _ ht
    have hdr : Distinct db raw := by obtain ⟨_, _, _, ht⟩ := hraw; exact hw.types _ _ ht
    refine ⟨o1, outer, h1, ps, k, v, o2, raw, ?_, o1 + o2, ⟨rfl, by omega⟩, m, c, i, ?_, _, ⟨rfl, h5⟩, _, ⟨rfl, h6⟩,
      _, ⟨rfl, h7⟩, rfl⟩
    · simp only [parseChildren_pair, parseChildren_single, child_generic _ _ _ _ hdo, child_isMember_field _ _ _ hdo,
        both_ok, udataAttr_ok]
      refine ⟨⟨pr, hp, h9, ?_⟩, hraw⟩
      simp only [parseChildren_pair, parseChildren_single, child_isMemberOffset _ _ _ hdp]
      exact ⟨hk, hv⟩
    · simp only [parseChildren_pair, parseChildren_single, child_isMemberOffset _ _ _ hdr]
      exact ⟨h4, h11, h12⟩

/-- The entry holding the table of a hash map: the type of its member `base` if it has one (the
standard library's wrapper), else itself. -/
def TableEntry (db : Db) (e b : Nat) : Prop :=
  TypeOf db e (chars! "base") b ∨ (∀ t, ¬ TypeOf db e (chars! "base") t) ∧ b = e

/-- C57: a hash map (the standard one or hashbrown's) resolves exactly if its table is described; key
and value types are its parameters `K` and `V`. -/
theorem C57_hash_map (m1 m2 m3 m4 m5 m6 : Nat) (k0 v0 : TypeDef)
    (hn : typedef e = some (.map (.hashMap m1 m2 m3 m4 m5 m6) k0 v0)) (hd : Distinct db e) (hw : WellFormed db)
    (td : TypeDef) :
    resolveType typedef db depth e = .ok td ↔ ∃ k v kt vt b mask ctrl items pairSize key value,
      Param db e (chars! "K") kt ∧ shallow typedef db depth kt = .ok k ∧
      Param db e (chars! "V") vt ∧ shallow typedef db depth vt = .ok v ∧
      TableEntry db e b ∧ HashTable db b mask ctrl items pairSize key value ∧
      td = .mk (some e) (.map (.hashMap mask ctrl items pairSize key value) k v) := by
  simp only [resolveType, builtin, hn, primitive, Res.bind_eq_ok, mapType, Prod.exists, parseChildren_pair,
    parseChildren_single, child_resolvedGeneric _ _ _ _ hd, hashbrown_ok db hw]
  have hb : ∀ b, (match andThen (member (chars! "base")) entryType db e with
        | .ok b => b
        | _ => e) = b ↔ TableEntry db e b := by
    intro b
    cases hm : andThen (member (chars! "base")) entryType db e with
    | ok x =>
      have hx := (member_type db e _ x).1 hm
      constructor
      · rintro rfl; exact .inl hx
      · rintro (h | ⟨h, rfl⟩)
        · have := (member_type db e _ b).2 h
          rw [hm] at this; cases this; rfl
        · exact absurd hx (h _)
    | err =>
      have hx : ∀ t, ¬ TypeOf db e (chars! "base") t := fun t h => by
        have := (member_type db e _ t).2 h
        rw [hm] at this; cases this
      constructor
      · rintro rfl; exact .inr ⟨hx, rfl⟩
      · rintro (h | ⟨h, rfl⟩)
        · exact absurd h (hx _)
        · rfl
    | panic =>
      have hx : ∀ t, ¬ TypeOf db e (chars! "base") t := fun t h => by
        have := (member_type db e _ t).2 h
        rw [hm] at this; cases this
      constructor
      · rintro rfl; exact .inr ⟨hx, rfl⟩
      · rintro (h | ⟨h, rfl⟩)
        · exact absurd h (hx _)
        · rfl
  constructor
  · rintro ⟨o, ⟨l, ⟨k, v, ⟨⟨kt, h1, h2⟩, vt, h3, h4⟩, mv, ⟨mask, ctrl, items, ps, ky, vl, h5, rfl⟩, h6⟩, h7⟩, h8⟩
    cases h6; cases h7; cases h8
    exact ⟨k, v, kt, vt, _, mask, ctrl, items, ps, ky, vl, h1, h2, h3, h4, (hb _).1 rfl, h5, rfl⟩
  · rintro ⟨k, v, kt, vt, b, mask, ctrl, items, ps, ky, vl, h1, h2, h3, h4, h5, h6, rfl⟩
    have h5 := (hb b).2 h5
    refine ⟨_, ⟨_, ⟨k, v, ⟨⟨kt, h1, h2⟩, vt, h3, h4⟩, _, ⟨mask, ctrl, items, ps, ky, vl, ?_, rfl⟩, rfl⟩, rfl⟩, rfl⟩
    subst h5; exact h6

/-- C57: an `Option` resolves exactly if it has a variant part with a variant `Some` holding a field
`__0`; the payload is that field. -/
theorem C57_option (n0 : Str) (d0 : Disc) (o0 : Nat) (t0 : TypeDef) (s0 : Nat)
    (hn : typedef e = some (.option n0 d0 o0 t0 s0)) (hw : WellFormed db) (hdec : Decodes db) (td : TypeDef) :
    resolveType typedef db depth e = .ok td ↔ ∃ name size part disc off ty t,
      EnumEntry db e name size part ∧ DiscOf (shallow typedef db depth) db part disc ∧
      Payload db part (chars! "Some") off ty ∧ shallow typedef db depth ty = .ok t ∧
      td = .mk (some e) (.option name disc off t size) := by
  simp only [resolveType, builtin, hn, primitive, Res.bind_eq_ok, optionDef, Prod.exists,
    optionEntry_ok _ _ _ hw hdec]
  constructor
  · rintro ⟨o, ⟨l, ⟨name, size, disc, off, ty, ⟨part, h1, h2, h3⟩, t, h4, h5⟩, h6⟩, h7⟩
    cases h5; cases h6; cases h7
    exact ⟨name, size, part, disc, off, ty, t, h1, h2, h3, h4, rfl⟩
  · rintro ⟨name, size, part, disc, off, ty, t, h1, h2, h3, h4, rfl⟩
    exact ⟨_, ⟨_, ⟨name, size, disc, off, ty, ⟨part, h1, h2, h3⟩, t, h4, rfl⟩, rfl⟩, rfl⟩

theorem child_namedTuple1' {T : Type} (p : Parser T) (db : Db) (part : Nat)
    (n : Str) (hw : WellFormed db) (hdec : Decodes db) (ht : Tagged db part .variantPart) (d : Option Nat) (o : Nat)
    (x : T) :
    child (namedTuple1 n p) db part = .ok (d, o, x) → ∃ t, Payload db part n o t ∧ p db t = .ok x := by
  intro h
  rw [← mapP_id (namedTuple1 n p), child_namedTuple1 _ _ _ _ _ hw hdec ht] at h
  obtain ⟨d', o', t, x', v, m, s, h1, h2, h3, h4, h5, h6, h7, h8⟩ := h
  cases h8
  exact ⟨t, ⟨v, m, s, h1, h2, h3, h4, h5⟩, h7⟩

theorem child_namedTuple1_of {T : Type} (p : Parser T) (db : Db) (part : Nat)
    (n : Str) (hw : WellFormed db) (hdec : Decodes db) (ht : Tagged db part .variantPart) (o : Nat)
    (x : T) (t : Nat) (h : Payload db part n o t) (hp : p db t = .ok x) :
    ∃ d, child (namedTuple1 n p) db part = .ok (d, o, x) := by
  obtain ⟨v, m, s, h1, h2, h3, h4, h5⟩ := h
  obtain ⟨dd, hdd⟩ := filter_udata_total db v .discr
  refine ⟨dd, ?_⟩
  rw [← mapP_id (namedTuple1 n p), child_namedTuple1 _ _ _ _ _ hw hdec ht]
  exact ⟨dd, o, t, x, v, m, s, h1, h2, h3, h4, h5, hdd, hp, rfl⟩

/-- C57: a `Result` resolves exactly if it has variants `Ok` and `Err` with a field `__0` each. -/
theorem C57_result (n0 : Str) (d0 : Disc) (t1 : TypeDef) (o1 : Nat) (t2 : TypeDef) (o2 s0 : Nat)
    (hn : typedef e = some (.result n0 d0 t1 o1 t2 o2 s0)) (hw : WellFormed db) (hdec : Decodes db) (td : TypeDef) :
    resolveType typedef db depth e = .ok td ↔ ∃ name size part disc okOff okTy okT errOff errTy errT,
      EnumEntry db e name size part ∧ DiscOf (shallow typedef db depth) db part disc ∧
      Payload db part (chars! "Ok") okOff okTy ∧ shallow typedef db depth okTy = .ok okT ∧
      Payload db part (chars! "Err") errOff errTy ∧ shallow typedef db depth errTy = .ok errT ∧
      td = .mk (some e) (.result name disc okT okOff errT errOff size) := by
  simp only [resolveType, builtin, hn, primitive, Res.bind_eq_ok, resultDef, Prod.exists,
    both_ok, andThen_ok, enumDiscriminant_ok, udataAttr_ok, parseChildren_pair, parseChildren_single]
  constructor
  · rintro ⟨o, ⟨l, ⟨name, size, disc, d1, oo, okT, d2, eo, errT, ⟨h1, h2, part, h3, h4, h5, h6⟩, h7⟩, h8⟩, h9⟩
    cases h7; cases h8; cases h9
    have h3 := (getMemberByTag_ok _ _ _ _).1 h3
    obtain ⟨ot, h10, h11⟩ := child_namedTuple1' _ _ _ _ hw hdec (FirstChild.holds h3) _ _ _ h5
    obtain ⟨et, h12, h13⟩ := child_namedTuple1' _ _ _ _ hw hdec (FirstChild.holds h3) _ _ _ h6
    exact ⟨name, size, part, disc, oo, ot, okT, eo, et, errT, ⟨(dieName_ok _ _ _).1 h1, h2, h3⟩, h4, h10, h11, h12,
      h13, rfl⟩
  · rintro ⟨name, size, part, disc, oo, ot, okT, eo, et, errT, ⟨h1, h2, h3⟩, h4, h10, h11, h12, h13, rfl⟩
    obtain ⟨d1, h5⟩ := child_namedTuple1_of (resolveShallow (shallow typedef db depth)) _ _ _ hw hdec
      (FirstChild.holds h3) _ _ _ h10 h11
    obtain ⟨d2, h6⟩ := child_namedTuple1_of (resolveShallow (shallow typedef db depth)) _ _ _ hw hdec
      (FirstChild.holds h3) _ _ _ h12 h13
    exact ⟨_, ⟨_, ⟨name, size, disc, d1, oo, okT, d2, eo, errT, ⟨(dieName_ok _ _ _).2 h1, h2, part,
      (getMemberByTag_ok _ _ _ _).2 h3, h4, h5, h6⟩, rfl⟩, rfl⟩, rfl⟩

/-- `p` points (as a `NonNull`) to `t`. -/
def PointsTo (db : Db) (nn t : Nat) : Prop :=
  ∃ p, Field db nn (chars! "pointer") 0 p ∧ Tagged db p .pointerType ∧ Typed db p t

/-- The type `e` is an option of `t` (found behind `Some`), with a resolvable discriminant. -/
def OptionOf (sh : Sh) (db : Db) (e t : Nat) : Prop :=
  ∃ name size part disc off, EnumEntry db e name size part ∧ DiscOf sh db part disc ∧
    Payload db part (chars! "Some") off t

/-- C57: a B-tree map resolves exactly if the debug file describes its root, its leaf nodes and,
through the parent pointer of a leaf, its inner nodes. -/
theorem C57_btree_map (m1 m2 m3 m4 : Nat) (nl : NodeLayout) (k0 v0 : TypeDef)
    (hn : typedef e = some (.map (.btreeMap m1 m2 m3 m4 nl) k0 v0)) (hd : Distinct db e) (hw : WellFormed db)
    (hdec : Decodes db) (td : TypeDef) :
    resolveType typedef db depth e = .ok td ↔
      ∃ k v kt vt lengthOff rootOff rootTy nodeRef heightOff nodeOff nodePtr leaf lenOff keysOff valsOff parentTy
        parentPtr internal edgesOff,
      Param db e (chars! "K") kt ∧ shallow typedef db depth kt = .ok k ∧
      Param db e (chars! "V") vt ∧ shallow typedef db depth vt = .ok v ∧
      OffOf db e (chars! "length") lengthOff ∧ Field db e (chars! "root") rootOff rootTy ∧
      OptionOf (shallow typedef db depth) db rootTy nodeRef ∧
      OffOf db nodeRef (chars! "height") heightOff ∧ Field db nodeRef (chars! "node") nodeOff nodePtr ∧
      PointsTo db nodePtr leaf ∧
      OffOf db leaf (chars! "len") lenOff ∧ OffOf db leaf (chars! "keys") keysOff ∧
      OffOf db leaf (chars! "vals") valsOff ∧
      TypeOf db leaf (chars! "parent") parentTy ∧ OptionOf (shallow typedef db depth) db parentTy parentPtr ∧
      PointsTo db parentPtr internal ∧ OffOf db internal (chars! "edges") edgesOff ∧
      td = .mk (some e) (.map (.btreeMap lengthOff rootOff nodeOff heightOff
        { keysOff := keysOff, valsOff := valsOff, lenOff := lenOff, edgesOff := edgesOff }) k v) := by
  have ho : ∀ e t, (∃ name size disc off, optionEntry (shallow typedef db depth) db e = .ok (name, size, disc, off, t))
      ↔ OptionOf (shallow typedef db depth) db e t := by
    intro e t
    simp only [optionEntry_ok _ _ _ hw hdec, OptionOf]
    constructor
    · rintro ⟨n, s, d, o, p, h⟩; exact ⟨n, s, p, d, o, h⟩
    · rintro ⟨n, s, p, d, o, h⟩; exact ⟨n, s, d, o, p, h⟩
  have hod : ∀ e t, OptionOf (shallow typedef db depth) db e t → Distinct db t := by
    rintro e t ⟨_, _, _, _, _, _, _, v, m, s, _, _, _, _, ⟨c, _, _, ht⟩⟩
    exact hw.types _ _ ht
  have hpd : ∀ e t, PointsTo db e t → Distinct db t := by
    rintro e t ⟨_, _, _, ht⟩
    exact hw.types _ _ ht
  simp only [resolveType, builtin, hn, primitive, Res.bind_eq_ok, mapType, btreeMap, Prod.exists, parseChildren_pair,
    parseChildren_single, child_resolvedGeneric _ _ _ _ hd, child_isMember_field _ _ _ hd,
    child_isMember_off _ _ _ hd, nonnull_ok, member_type]
  constructor
  · rintro ⟨o, ⟨l, ⟨k', v', hkv, k, v, ro, rt, lo, ⟨⟨kt, h1, h2⟩, ⟨vt, h3, h4⟩, h5, h6⟩,
      n1, s1, d1, o1, nr, h7, ho', no, np, h8, leaf, h9, len, keys, vals, h10, pt, h11, n2, s2, d2, o2, pp, h12, int,
      h13, eo, h14, h15⟩, h16⟩, h17⟩
    cases h15; cases h16; cases h17
    have h7 := (ho _ _).1 ⟨_, _, _, _, h7⟩
    have h12 := (ho _ _).1 ⟨_, _, _, _, h12⟩
    have hdn := hod _ _ h7
    have hdl := hpd _ _ h9
    simp only [child_isMember_off _ _ _ hdn, child_isMember_field _ _ _ hdn] at h8
    simp only [child_isMember_off _ _ _ hdl] at h10
    have h14 : OffOf db int (chars! "edges") eo := by
      obtain ⟨c, hc, h14⟩ := (andThen_ok _ _ _ _ _).1 h14
      exact ⟨c, (getMember_ok _ _ _ _).1 hc, (located_iff _ _ _).1 h14⟩
    exact ⟨k, v, kt, vt, lo, ro, rt, nr, ho', no, np, leaf, len, keys, vals, pt, pp, int, eo, h1, h2, h3, h4, h6, h5,
      h7, h8.1, h8.2, h9, h10.1, h10.2.1, h10.2.2, h11, h12, h13, h14, rfl⟩
  · rintro ⟨k, v, kt, vt, lo, ro, rt, nr, ho', no, np, leaf, len, keys, vals, pt, pp, int, eo, h1, h2, h3, h4, h6, h5,
      h7, h8, h8', h9, h10, h10', h10'', h11, h12, h13, ⟨c, hc, h14⟩, rfl⟩
    have hdn := hod _ _ h7
    have hdl := hpd _ _ h9
    obtain ⟨n1, s1, d1, o1, h7⟩ := (ho _ _).2 h7
    obtain ⟨n2, s2, d2, o2, h12⟩ := (ho _ _).2 h12
    refine ⟨_, ⟨_, ⟨k, v, ⟨⟨kt, h1, h2⟩, vt, h3, h4⟩, k, v, ro, rt, lo, ⟨⟨kt, h1, h2⟩, ⟨vt, h3, h4⟩, h5, h6⟩,
      n1, s1, d1, o1, nr, h7, ho', no, np, ?_, leaf, h9, len, keys, vals, ?_, pt, h11, n2, s2, d2, o2, pp, h12, int,
      h13, eo, ?_, rfl⟩, rfl⟩, rfl⟩
    · simp only [child_isMember_off _ _ _ hdn, child_isMember_field _ _ _ hdn]
      exact ⟨h8, h8'⟩
    · simp only [child_isMember_off _ _ _ hdl]
      exact ⟨h10, h10', h10''⟩
    · exact (andThen_ok _ _ _ _ _).2 ⟨c, (getMember_ok _ _ _ _).2 hc, (located_iff _ _ _).2 h14⟩

theorem genericTypeEntry_ok (hd : Distinct db e) (n : Str) (t : Nat) :
    genericTypeEntry n db e = .ok t ↔ Param db e n t := by
  simp only [genericTypeEntry]
  rw [Res.bind_eq_ok]
  have hf := fun c => findChild_ok db e
    (fun c => decide (tag db c = some .templateTypeParameter) && decide (dieName db c = .ok n))
    (fun c => Tagged db c .templateTypeParameter ∧ Named db c n) (fun c => by simp [dieName_ok, tagged_iff]) c
  simp only [hf]
  constructor
  · rintro ⟨c, ⟨b, a, h1, ⟨h2, h3⟩, h4⟩, h5⟩
    exact ⟨c, ⟨b, a, h1, h3, hd b c a n h1 h3 (.inr h2)⟩, h2, (typed_iff _ _ _).1 h5⟩
  · rintro ⟨c, ⟨b, a, h1, h2, h3⟩, h4, h5⟩
    exact ⟨c, ⟨b, a, h1, ⟨h4, h2⟩, fun x hx h => h3 x hx h.2⟩, (typed_iff _ _ _).2 h5⟩

/-- C57: a `Box` is a pointer to the type of its entry. -/
theorem C57_box (t0 : TypeDef) (a b : Nat) (hn : typedef e = some (.smartPtr .box t0 a b)) (td : TypeDef) :
    resolveType typedef db depth e = .ok td ↔ ∃ t inner, Typed db e t ∧ shallow typedef db depth t = .ok inner ∧
      td = .mk (some e) (.smartPtr .box inner 0 0) := by
  simp only [resolveType, builtin, hn, primitive, Res.bind_eq_ok, smartPtr, smartInner, smartOffsets, entryShallow]
  constructor
  · rintro ⟨o, ⟨l, ⟨inner, ⟨t, h1, h2⟩, r, h3, h4⟩, h5⟩, h6⟩
    cases h3; cases h4; cases h5; cases h6
    exact ⟨t, inner, (typed_iff _ _ _).1 h1, h2, rfl⟩
  · rintro ⟨t, inner, h1, h2, rfl⟩
    exact ⟨_, ⟨_, ⟨inner, ⟨t, (typed_iff _ _ _).2 h1, h2⟩, _, rfl, rfl⟩, rfl⟩, rfl⟩

/-- The member through which a cell type holds its `UnsafeCell`. -/
def cellMember : SmartPtr → Option Str
  | .mutex => some (chars! "data")
  | .refCell => some (chars! "value")
  | .cell => some (chars! "value")
  | _ => none

theorem cellOffset_ok (n : Str) (o : Nat) :
    cellOffset n db e = .ok o ↔ ∃ o1 o2 cell, Field db e n o1 cell ∧ OffOf db cell (chars! "value") o2 ∧
      o = o1 + o2 ∧ o1 + o2 < u64Max1 := by
  simp only [cellOffset, Res.bind_eq_ok, memberUdata_off, addU_ok]
  constructor
  · rintro ⟨c, h1, o1, h2, cell, h3, o2, h4, rfl, h5⟩
    exact ⟨o1, o2, cell, ⟨c, (getMember_ok _ _ _ _).1 h1, (located_iff _ _ _).1 h2, (typed_iff _ _ _).1 h3⟩, h4,
      rfl, h5⟩
  · rintro ⟨o1, o2, cell, ⟨c, h1, h2, h3⟩, h4, rfl, h5⟩
    exact ⟨c, (getMember_ok _ _ _ _).2 h1, o1, (located_iff _ _ _).2 h2, cell, (typed_iff _ _ _).2 h3, o2, h4, rfl,
      h5⟩

/-- C57: the value of a `Mutex`, `RefCell` or `Cell` is found at the sum of the offsets of its
`UnsafeCell` and of the value in that. -/
theorem C57_cell (v : SmartPtr) (n : Str) (hv : cellMember v = some n) (t0 : TypeDef) (a b : Nat)
    (hn : typedef e = some (.smartPtr v t0 a b)) (hd : Distinct db e) (td : TypeDef) :
    resolveType typedef db depth e = .ok td ↔ ∃ t inner o1 o2 cell,
      Param db e (chars! "T") t ∧ shallow typedef db depth t = .ok inner ∧
      Field db e n o1 cell ∧ OffOf db cell (chars! "value") o2 ∧ o1 + o2 < u64Max1 ∧
      td = .mk (some e) (.smartPtr v inner (o1 + o2) 0) := by
  have key : resolveType typedef db depth e = .ok td ↔ ∃ t inner o, Param db e (chars! "T") t ∧
      shallow typedef db depth t = .ok inner ∧ cellOffset n db e = .ok o ∧
      td = .mk (some e) (.smartPtr v inner o 0) := by
    cases v <;> simp only [cellMember, Option.some.injEq, reduceCtorEq] at hv <;> subst hv
    all_goals
      simp only [resolveType, builtin, hn, primitive, Res.bind_eq_ok, smartPtr, smartInner, smartOffsets,
        genericTypeEntry_ok _ _ hd]
      constructor
      · rintro ⟨o, ⟨l, ⟨inner, ⟨t, h1, h2⟩, r, ⟨o', h3, h3'⟩, h4⟩, h5⟩, h6⟩
        cases h3'; cases h4; cases h5; cases h6
        exact ⟨t, inner, o', h1, h2, h3, rfl⟩
      · rintro ⟨t, inner, o', h1, h2, h3, rfl⟩
        exact ⟨_, ⟨_, ⟨inner, ⟨t, h1, h2⟩, _, ⟨o', h3, rfl⟩, rfl⟩, rfl⟩, rfl⟩
  rw [key]
  simp only [cellOffset_ok]
  constructor
  · rintro ⟨t, inner, o, h1, h2, ⟨o1, o2, cell, h3, h4, rfl, h5⟩, rfl⟩
    exact ⟨t, inner, o1, o2, cell, h1, h2, h3, h4, h5, rfl⟩
  · rintro ⟨t, inner, o1, o2, cell, h1, h2, h3, h4, h5, rfl⟩
    exact ⟨t, inner, _, h1, h2, ⟨o1, o2, cell, h3, h4, rfl, h5⟩, rfl⟩

/-- C57: the value of an `UnsafeCell` is its member `value`. -/
theorem C57_unsafe_cell (t0 : TypeDef) (a b : Nat)
    (hn : typedef e = some (.smartPtr .unsafeCell t0 a b)) (hd : Distinct db e) (td : TypeDef) :
    resolveType typedef db depth e = .ok td ↔ ∃ t inner o,
      Param db e (chars! "T") t ∧ shallow typedef db depth t = .ok inner ∧ OffOf db e (chars! "value") o ∧
      td = .mk (some e) (.smartPtr .unsafeCell inner o 0) := by
  simp only [resolveType, builtin, hn, primitive, Res.bind_eq_ok, smartPtr, smartInner, smartOffsets,
    genericTypeEntry_ok _ _ hd, memberUdata_off]
  constructor
  · rintro ⟨o, ⟨l, ⟨inner, ⟨t, h1, h2⟩, r, ⟨o', h3, h3'⟩, h4⟩, h5⟩, h6⟩
    cases h3'; cases h4; cases h5; cases h6
    exact ⟨t, inner, o', h1, h2, h3, rfl⟩
  · rintro ⟨t, inner, o', h1, h2, h3, rfl⟩
    exact ⟨_, ⟨_, ⟨inner, ⟨t, h1, h2⟩, _, ⟨o', h3, rfl⟩, rfl⟩, rfl⟩, rfl⟩

/-- The member of the shared allocation holding the value. -/
def sharedMember : SmartPtr → Option Str
  | .arc => some (chars! "data")
  | .rc => some (chars! "value")
  | _ => none

theorem rcOffsets_ok (n : Str) (o d : Nat) :
    rcOffsets n db e = .ok (o, d) ↔ ∃ o1 nn o2 raw inner, Field db e (chars! "ptr") o1 nn ∧
      Field db nn (chars! "pointer") o2 raw ∧ Typed db raw inner ∧ OffOf db inner n d ∧ o = o1 + o2 ∧
      o1 + o2 < u64Max1 := by
  simp only [rcOffsets, Res.bind_eq_ok, memberUdata_off, addU_ok]
  constructor
  · rintro ⟨p, h1, o1, h2, nn, h3, q, h4, o2, h5, o', ⟨rfl, h6⟩, raw, h7, inner, h8, d', h9, h10⟩
    cases h10
    exact ⟨o1, nn, o2, raw, inner,
      ⟨p, (getMember_ok _ _ _ _).1 h1, (located_iff _ _ _).1 h2, (typed_iff _ _ _).1 h3⟩,
      ⟨q, (getMember_ok _ _ _ _).1 h4, (located_iff _ _ _).1 h5, (typed_iff _ _ _).1 h7⟩,
      (typed_iff _ _ _).1 h8, h9, rfl, h6⟩
  · rintro ⟨o1, nn, o2, raw, inner, ⟨p, h1, h2, h3⟩, ⟨q, h4, h5, h7⟩, h8, h9, rfl, h6⟩
    exact ⟨p, (getMember_ok _ _ _ _).2 h1, o1, (located_iff _ _ _).2 h2, nn, (typed_iff _ _ _).2 h3, q,
      (getMember_ok _ _ _ _).2 h4, o2, (located_iff _ _ _).2 h5, _, ⟨rfl, h6⟩, raw, (typed_iff _ _ _).2 h7, inner,
      (typed_iff _ _ _).2 h8, d, h9, rfl⟩

/-- C57: an `Rc` or `Arc` holds a pointer to its allocation, in which the value has an offset of its
own. -/
theorem C57_rc (v : SmartPtr) (n : Str) (hv : sharedMember v = some n) (t0 : TypeDef) (a b : Nat)
    (hn : typedef e = some (.smartPtr v t0 a b)) (hd : Distinct db e) (td : TypeDef) :
    resolveType typedef db depth e = .ok td ↔ ∃ t inner o1 nn o2 raw alloc d,
      Param db e (chars! "T") t ∧ shallow typedef db depth t = .ok inner ∧
      Field db e (chars! "ptr") o1 nn ∧ Field db nn (chars! "pointer") o2 raw ∧ Typed db raw alloc ∧
      OffOf db alloc n d ∧ o1 + o2 < u64Max1 ∧
      td = .mk (some e) (.smartPtr v inner (o1 + o2) d) := by
  have key : resolveType typedef db depth e = .ok td ↔ ∃ t inner o d, Param db e (chars! "T") t ∧
      shallow typedef db depth t = .ok inner ∧ rcOffsets n db e = .ok (o, d) ∧
      td = .mk (some e) (.smartPtr v inner o d) := by
    cases v <;> simp only [sharedMember, Option.some.injEq, reduceCtorEq] at hv <;> subst hv
    all_goals
      simp only [resolveType, builtin, hn, primitive, Res.bind_eq_ok, smartPtr, smartInner, smartOffsets,
        genericTypeEntry_ok _ _ hd]
      constructor
      · rintro ⟨o, ⟨l, ⟨inner, ⟨t, h1, h2⟩, ⟨r, d⟩, h3, h4⟩, h5⟩, h6⟩
        cases h4; cases h5; cases h6
        exact ⟨t, inner, r, d, h1, h2, h3, rfl⟩
      · rintro ⟨t, inner, r, d, h1, h2, h3, rfl⟩
        exact ⟨_, ⟨_, ⟨inner, ⟨t, h1, h2⟩, (r, d), h3, rfl⟩, rfl⟩, rfl⟩
  rw [key]
  simp only [rcOffsets_ok]
  constructor
  · rintro ⟨t, inner, o, d, h1, h2, ⟨o1, nn, o2, raw, al, h3, h4, h5, h6, rfl, h7⟩, rfl⟩
    exact ⟨t, inner, o1, nn, o2, raw, al, d, h1, h2, h3, h4, h5, h6, h7, rfl⟩
  · rintro ⟨t, inner, o1, nn, o2, raw, al, d, h1, h2, h3, h4, h5, h6, h7, rfl⟩
    exact ⟨t, inner, _, d, h1, h2, ⟨o1, nn, o2, raw, al, h3, h4, h5, h6, rfl, h7⟩, rfl⟩

/-- C57 fails for `RwLock`: a type of that name panics, whatever its entry says. -/
theorem C57_rwlock_fails (t0 : TypeDef) (a b : Nat) (hn : typedef e = some (.smartPtr .rwLock t0 a b)) :
    resolveType typedef db depth e = .panic := by
  simp [resolveType, builtin, hn, primitive, smartPtr, smartInner]

/-- C57 fails for `IndexMap`: a map of that name whose parameters resolve panics. -/
theorem C57_index_map_fails (k0 v0 : TypeDef) (hn : typedef e = some (.map .indexMap k0 v0)) (hd : Distinct db e)
    (kt vt : Nat) (k v : TypeDef) (h1 : Param db e (chars! "K") kt) (h2 : shallow typedef db depth kt = .ok k)
    (h3 : Param db e (chars! "V") vt) (h4 : shallow typedef db depth vt = .ok v) :
    resolveType typedef db depth e = .panic := by
  have : parseChildren (pair (single (resolvedGeneric (shallow typedef db depth) (chars! "K")))
      (single (resolvedGeneric (shallow typedef db depth) (chars! "V")))) db e = .ok (k, v) := by
    rw [parseChildren_pair, parseChildren_single, parseChildren_single, child_resolvedGeneric _ _ _ _ hd,
      child_resolvedGeneric _ _ _ _ hd]
    exact ⟨⟨kt, h1, h2⟩, ⟨vt, h3, h4⟩⟩
  simp only [resolveType, builtin, hn, primitive, mapType, this, Res.bind_ok, Res.bind_panic]

end
end Rudy.TypeRes
