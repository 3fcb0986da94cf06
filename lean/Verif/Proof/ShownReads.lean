import Verif.Proof.ShownCore
/-
The induction for C76: every value memory holds is read and shown.
-/
set_option linter.unusedSimpArgs false
namespace Rudy.Shown
open Rudy Rudy.Dwarf Rudy.Parse Rudy.Layout Rudy.Data Rudy.TypeRes Rudy.Eval

theorem toList_membersOf (l : List (Str × Nat × TypeDef)) : (TypeRes.membersOf l).toList = l := by
  induction l with
  | nil => rfl
  | cons x l ih => obtain ⟨a, b, c⟩ := x; simp [TypeRes.membersOf, Members.toList, ih]

theorem toList_variantsOf (l : List (Str × Option Int × TypeDef)) : (variantsOf l).toList = l := by
  induction l with
  | nil => rfl
  | cons x l ih => obtain ⟨a, b, c⟩ := x; simp [variantsOf, Variants.toList, ih]

theorem Enough.diag {P : Nat → Nat → Nat → Prop} (h : Enough P) : Enough fun d _ s => P d s s := by
  obtain ⟨N, h⟩ := h
  exact ⟨N, fun d f s h1 _ h3 => h d s s h1 h3 h3⟩

theorem picks_denotes {ws : List (Str × Option Int × Nat)} {d : Int} {v : Str × Option Int × Nat} (T : Nat → TypeDef)
    (h : Picks ws d v) : Denotes (ws.map fun v => (v.1, v.2.1, T v.2.2)) d (v.1, v.2.1, T v.2.2) := by
  rcases h with ⟨pre, post, rfl, h1, h2⟩ | ⟨h0, pre, post, rfl, h1, h2⟩
  · refine .inl ⟨_, _, by rw [List.map_append, List.map_cons], h1, ?_⟩
    intro w hw
    obtain ⟨x, hx, rfl⟩ := List.mem_map.1 hw
    exact h2 x hx
  · refine .inr ⟨?_, _, _, by rw [List.map_append, List.map_cons], h1, ?_⟩
    · intro w hw
      obtain ⟨x, hx, rfl⟩ := List.mem_map.1 hw
      exact h0 x hx
    · intro w hw
      obtain ⟨x, hx, rfl⟩ := List.mem_map.1 hw
      exact h2 x hx

theorem Picks.mem {ws : List (Str × Option Int × Nat)} {d : Int} {v : Str × Option Int × Nat} (h : Picks ws d v) : v ∈ ws := by
  rcases h with ⟨pre, post, rfl, _⟩ | ⟨_, pre, post, rfl, _⟩ <;> simp

section
variable {typedef : Nat → Option Layout} {db : Db} {m : Mem} {lossy : List UInt8 → Str} {floatStr : Nat → Nat → Str}

theorem layout_not_alias {e : Nat} {desc : Desc} (h : Describes typedef db e desc) (T : Nat → TypeDef) (nm : Str) :
    desc.layout T ≠ .alias nm := by
  cases desc with
  | plain l =>
    obtain ⟨_, h⟩ := h
    simp only [Desc.layout]
    rintro rfl; exact h
  | _ => simp [Desc.layout]

theorem desc_size {desc : Desc} {s : Nat} (T : Nat → TypeDef) (h : desc.size = some s) :
    (desc.layout T).size = .ok (some s) := by
  cases desc with
  | plain l => cases l <;> simp [Desc.size, plainSize] at h <;> simp [Desc.layout, Layout.size, h]
  | smart v i d t => cases v <;> simp [Desc.size] at h <;> simp [Desc.layout, Layout.size, h]
  | _ => simp [Desc.size] at h <;> simp [Desc.layout, Layout.size, h]

variable (hw : WellFormed db) (hdec : Decodes db)
include hw hdec

theorem size_ok {t sz : Nat} (h : SizeIs typedef db t sz) :
    Enough fun d _ _ => shallow typedef db d t = .ok (ty typedef db d t) →
      ∃ et, Resolved (target typedef db m lossy floatStr d) (ty typedef db d t) et ∧ et.size = .ok (some sz) ∧
        resolveType typedef db d t = .ok et := by
  cases h with
  | one hI hs =>
    rename_i desc
    refine (Enough.types (types_at hw hdec hI)).mono fun d _ _ ⟨hp, hr, hc⟩ hsh => ?_
    refine ⟨full typedef db d t desc, ?_, desc_size _ hs, hr⟩
    rcases hc _ (.inr hsh) with h | ⟨_, nm, h⟩
    · rw [h]
      exact .inr ⟨fun n => layout_not_alias hI.1 _ n, rfl⟩
    · rw [h]
      exact .inl ⟨t, nm, rfl, by simp [target, hr]⟩
  | array hI hI' ho hs hm =>
    rename_i el n s desc
    refine ((Enough.types (types_at hw hdec hI)).and (Enough.types (types_at hw hdec hI'))).mono
      fun d _ _ ⟨⟨hp, hr, hc⟩, hp', hr', hc'⟩ hsh => ?_
    refine ⟨full typedef db d t (.array el n), ?_, ?_, hr⟩
    · rcases hc _ (.inr hsh) with h | ⟨_, nm, h⟩
      · rw [h]
        exact .inr ⟨fun n => layout_not_alias hI.1 _ n, rfl⟩
      · rw [h]
        exact .inl ⟨t, nm, rfl, by simp [target, hr]⟩
    · have he : ty typedef db d el = full typedef db d el desc := by
        rcases hc' _ (.inr (hp el (by simp [Desc.parts]))) with h | ⟨h, _⟩
        · exact h
        · exact absurd h ho
      have := desc_size (ty typedef db d) hs
      have hsz : (ty typedef db d el).size = .ok (some s) := by rw [he]; exact this
      simp only [full, Desc.layout, TypeDef.size, Layout.size, hsz]
      simp only [mulU_ok hm, Res.bind_ok]

omit hw hdec in
theorem behind_ok {n a t : Nat} {v : RVal} (h : Core typedef db m lossy floatStr n a t v) :
    Enough fun d _ s => ∀ td, resolveType typedef db d t = .ok td ∨ shallow typedef db d t = .ok td →
      Behind typedef db m lossy floatStr d s n a td v :=
  Enough.diag h

/-- The elements of a sequence. -/
theorem elements_ok {n t p sz : Nat} {vs : List RVal} (hs : SizeIs typedef db t sz)
    (h : ∀ i v, vs[i]? = some v → Core typedef db m lossy floatStr n (p + i * sz) t v) :
    Enough fun d _ s => shallow typedef db d t = .ok (ty typedef db d t) →
      ∃ et, Resolved (target typedef db m lossy floatStr d) (ty typedef db d t) et ∧ et.size = .ok (some sz) ∧
        ∀ tn, Shows typedef db m lossy floatStr d s (n + 1) (.array tn (elements et sz p vs.length)) (.seq vs) := by
  refine ((size_ok hw hdec (m := m) (lossy := lossy) (floatStr := floatStr) hs).and (Enough.index fun i v hi => behind_ok (h i v hi))).mono fun d _ s ⟨h1, h2⟩ hsh => ?_
  obtain ⟨et, h3, h4, h5⟩ := h1 hsh
  exact ⟨et, h3, h4, fun tn => shows_seq fun i v hi => h2 i v hi et (.inl h5)⟩

omit hw hdec in
/-- The fields of a struct are read in the order of their names. -/
theorem struct_read {d f a e size align : Nat} {name : Str} {fs : List (Str × Nat × Nat)} {vs : List (Str × Nat × Nat × RVal)}
    (hp : (vs.map fun x => (x.1, x.2.1, x.2.2.1)).Perm fs) (hs : vs.Pairwise (fun x y => compare x.1 y.1 = .lt))
    (ha : ∀ x ∈ vs, a + x.2.1 < u64Max1) :
    readMem (target typedef db m lossy floatStr d) (f + 1) a (full typedef db d e (.struct name size align fs)) =
      .ok (.struct name (vs.map fun x => (x.1, .pointer (a + x.2.1) (ty typedef db d x.2.2.1)))) := by
  have hn : (vs.map (·.1)).Nodup := by
    rw [List.nodup_iff_pairwise_ne, List.pairwise_map]
    refine hs.imp fun {x y} h he => ?_
    rw [he, Std.ReflCmp.compare_self (cmp := compare)] at h; cases h
  have hfn : (fs.map (·.1)).Nodup := by
    have := (hp.map (·.1)).nodup_iff.1 (by rw [List.map_map]; exact hn)
    exact this
  have hl : (TypeRes.membersOf (fs.map fun f => (f.1, f.2.1, ty typedef db d f.2.2))).toList =
      fs.map fun f => (f.1, f.2.1, ty typedef db d f.2.2) := toList_membersOf _
  obtain ⟨es, h1, h2, h3⟩ := C23_struct_fields (target typedef db m lossy floatStr d) f a (some e) name size align
    (TypeRes.membersOf (fs.map fun f => (f.1, f.2.1, ty typedef db d f.2.2)))
    (by rw [hl, List.map_map]; exact hfn)
    (by
      rw [hl]
      intro x hx
      obtain ⟨y, hy, rfl⟩ := List.mem_map.1 hx
      obtain ⟨z, hz, rfl⟩ := List.mem_map.1 (hp.mem_iff.2 hy)
      exact ha z hz)
  rw [full, Desc.layout, h1]
  congr 2
  refine sorted_perm_eq _ _ (h2.trans ?_) h3 ?_
  · rw [hl, List.map_map]
    have := (hp.map fun f => (f.1, Value.pointer (a + f.2.1) (ty typedef db d f.2.2))).symm
    rw [List.map_map] at this
    exact this
  · rw [List.pairwise_map]; exact hs

omit hw hdec in
theorem fields_ok {n a : Nat} {vs : List (Str × Nat × Nat × RVal)}
    (h : ∀ x ∈ vs, Core typedef db m lossy floatStr n (a + x.2.1) x.2.2.1 x.2.2.2) :
    Enough fun d _ s => (∀ x ∈ vs, shallow typedef db d x.2.2.1 = .ok (ty typedef db d x.2.2.1)) →
      ∀ x ∈ vs, Behind typedef db m lossy floatStr d s n (a + x.2.1) (ty typedef db d x.2.2.1) x.2.2.2 :=
  (Enough.mem fun x hx => behind_ok (h x hx)).mono fun _ _ _ h1 h2 x hx => h1 x hx _ (.inr (h2 x hx))

omit hw hdec in
theorem parts_of_perm {d : Nat} {name : Str} {size align : Nat} {fs : List (Str × Nat × Nat)} {vs : List (Str × Nat × Nat × RVal)}
    (hp : (vs.map fun x => (x.1, x.2.1, x.2.2.1)).Perm fs)
    (h : ∀ t ∈ (Desc.struct name size align fs).parts, shallow typedef db d t = .ok (ty typedef db d t)) :
    ∀ x ∈ vs, shallow typedef db d x.2.2.1 = .ok (ty typedef db d x.2.2.1) := by
  intro x hx
  refine h _ ?_
  simp only [Desc.parts]
  exact List.mem_map.2 ⟨_, hp.mem_iff.1 (List.mem_map_of_mem hx), rfl⟩

/-- The payload of a variant. -/
theorem payload_ok {n a pt sz al : Nat} {sn : Str} {fs : List (Str × Nat × Nat)} {vs : List (Str × Nat × Nat × RVal)}
    (hI : Is typedef db pt (.struct sn sz al fs))
    (hp : (vs.map fun x => (x.1, x.2.1, x.2.2.1)).Perm fs) (hs : vs.Pairwise (fun x y => compare x.1 y.1 = .lt))
    (ha : ∀ x ∈ vs, a + x.2.1 < u64Max1)
    (h : ∀ x ∈ vs, Core typedef db m lossy floatStr n (a + x.2.1) x.2.2.1 x.2.2.2) :
    Enough fun d f s => ∀ td, resolveType typedef db d pt = .ok td ∨ shallow typedef db d pt = .ok td →
      ∃ x, readMem (target typedef db m lossy floatStr d) f a td = .ok x ∧
        (x = .struct sn (vs.map fun x => (x.1, .pointer (a + x.2.1) (ty typedef db d x.2.2.1))) ∧
          ∀ x ∈ vs, Behind typedef db m lossy floatStr d s n (a + x.2.1) (ty typedef db d x.2.2.1) x.2.2.2) := by
  refine reads_of hw hdec (Q := fun d s x => (x = .struct sn (vs.map fun x => (x.1, .pointer (a + x.2.1) (ty typedef db d x.2.2.1))) ∧
          ∀ x ∈ vs, Behind typedef db m lossy floatStr d s n (a + x.2.1) (ty typedef db d x.2.2.1) x.2.2.2)) hI ?_
  refine Enough.succ ((fields_ok h).mono fun d f s h1 hparts => ?_)
  exact ⟨_, struct_read hp hs ha, rfl, h1 (parts_of_perm hp hparts)⟩

omit hw hdec in
theorem entries_ok {α : Type} {n t : Nat} {l : List α} {vs : List (RVal × RVal)} {at' : α → Nat} {r : RVal × RVal → RVal}
    (h : ∀ (j : Nat) (b : α) (kv : RVal × RVal), l[j]? = some b → vs[j]? = some kv →
      Core typedef db m lossy floatStr n (at' b) t (r kv)) :
    Enough fun d _ s => ∀ (j : Nat) (b : α), l[j]? = some b → ∀ kv, vs[j]? = some kv →
        ∀ td, resolveType typedef db d t = .ok td ∨ shallow typedef db d t = .ok td →
        Behind typedef db m lossy floatStr d s n (at' b) td (r kv) := by
  refine (Enough.index fun j b hj => ?_)
  by_cases hv : j < vs.length
  · refine (behind_ok (h j b vs[j] hj (List.getElem?_eq_getElem hv))).mono fun d f s h kv hkv => ?_
    rw [List.getElem?_eq_getElem hv] at hkv; cases hkv; exact h
  · refine .always fun d f s kv hkv => ?_
    rw [List.getElem?_eq_none (by omega)] at hkv; cases hkv

/-- A type told by name is its own element type. -/
theorem size_named {t sz : Nat} (ho : ¬ Ordinary typedef t) (h : SizeIs typedef db t sz) :
    Enough fun d _ _ => shallow typedef db d t = .ok (ty typedef db d t) → (ty typedef db d t).size = .ok (some sz) := by
  refine (size_ok hw hdec (m := fun _ => none) (lossy := fun _ => []) (floatStr := fun _ _ => []) h).mono fun d _ _ h1 hsh => ?_
  obtain ⟨et, _, h2, h3⟩ := h1 hsh
  rw [resolve_of_shallow' ho hsh] at h3
  cases h3; exact h2

theorem holds_core {n a e : Nat} {v : RVal} (h : Holds typedef db m lossy floatStr n a e v) :
    Core typedef db m lossy floatStr n a e v := by
  induction h with
  | plain hI hp =>
    rename_i n a e l t
    refine core_of hw hdec hI (Enough.succ (.always fun d f s hparts => ?_))
    have hR := target_reads typedef db m lossy floatStr d
    obtain ⟨_, hpl⟩ := hI.1
    cases l with
    | bool =>
      obtain ⟨b, h1, rfl⟩ := hp
      exact ⟨_, C22_bool _ m hR f a _ b h1, .scalar⟩
    | char =>
      obtain ⟨c, h1, rfl⟩ := hp
      exact ⟨_, (C22_char _ m hR f a _ _ h1).1 c rfl, .scalar⟩
    | unit => cases hp; exact ⟨_, rfl, .scalar⟩
    | int s =>
      obtain ⟨v, h1, rfl⟩ := hp
      exact ⟨_, C22_signed _ m hR f a s v _ hpl h1, .scalar⟩
    | uint s =>
      obtain ⟨v, h1, rfl⟩ := hp
      exact ⟨_, C22_unsigned _ m hR f a s v _ hpl h1, .scalar⟩
    | float s =>
      obtain ⟨v, h1, rfl⟩ := hp
      obtain ⟨bs, h2, rfl⟩ := (m.holdsNat_iff _ _ _).1 h1
      have hl := m.slice_length _ _ _ h2
      have hs : s = 4 ∨ s = 8 := by simpa [Plain] using hpl
      refine ⟨.scalar (chars! "f" ++ natStr (s * 8)) _, ?_, .scalar⟩
      · simp only [full, Desc.layout, readMem, readLayout]
        rw [(readE_ok hR _ _ _).2 h2, Res.bind_ok, if_pos hs, if_pos hl]
        rfl
    | _ => exact hpl.elim
  | string hI h1 h2 h3 h4 h5 =>
    refine core_of hw hdec hI (Enough.succ (.always fun d f s hparts => ?_))
    exact ⟨_, (C24_string _ m (target_reads typedef db m lossy floatStr d) f _ _ _ _ _ _ _ _ h1 h2 h4 h5).1 _ rfl h3, .scalar⟩
  | str hI h1 h2 h3 h4 h5 =>
    refine core_of hw hdec hI (Enough.succ (.always fun d f s hparts => ?_))
    exact ⟨_, (C24_str_slice _ m (target_reads typedef db m lossy floatStr d) f _ _ _ _ _ _ h1 h2 h4 h5).1 _ rfl h3, .scalar⟩
  | vec hI hs h1 h2 _ h4 h5 h6 h7 ih =>
    refine core_of hw hdec hI (Enough.succ ((elements_ok hw hdec hs ih).mono fun d f s hE hparts => ?_))
    obtain ⟨et, hr, hsz, hsh⟩ := hE (hparts _ (by simp [Desc.parts]))
    exact ⟨_, C24_vec_reads _ m (target_reads typedef db m lossy floatStr d) f _ _ _ _ _ _ et _ _ _ hr hsz h1 h2 h4 h5 h6 h7, hsh _⟩
  | slice hI hs h1 h2 _ h4 h5 h6 h7 ih =>
    refine core_of hw hdec hI (Enough.succ ((elements_ok hw hdec hs ih).mono fun d f s hE hparts => ?_))
    obtain ⟨et, hr, hsz, hsh⟩ := hE (hparts _ (by simp [Desc.parts]))
    exact ⟨_, C24_slice_reads _ m (target_reads typedef db m lossy floatStr d) f _ _ _ _ _ et _ _ _ hr hsz h1 h2 h4 h5 h6 h7, hsh _⟩
  | array hI hs _ h1 h2 ih =>
    refine core_of hw hdec hI (Enough.succ ((elements_ok hw hdec hs ih).mono fun d f s hE hparts => ?_))
    obtain ⟨et, hr, hsz, hsh⟩ := hE (hparts _ (by simp [Desc.parts]))
    exact ⟨_, C24_array_reads _ f _ _ _ et _ _ hr hsz h1 h2, hsh _⟩
  | reference hI hp _ ih =>
    refine core_of hw hdec hI (Enough.succ ((part_ok ih).mono fun d f s hE hparts => ?_))
    obtain ⟨x, hx, hs⟩ := hE (hparts _ (by simp [Desc.parts]))
    exact ⟨_, (C47_pointer _ m (target_reads typedef db m lossy floatStr d) f _ _ _ _ x _ hp hx).1, hs.mark _⟩
  | pointer hI hp _ ih =>
    refine core_of hw hdec hI (Enough.succ ((part_ok ih).mono fun d f s hE hparts => ?_))
    obtain ⟨x, hx, hs⟩ := hE (hparts _ (by simp [Desc.parts]))
    exact ⟨_, (C47_pointer _ m (target_reads typedef db m lossy floatStr d) f _ _ _ _ x _ hp hx).2, hs.mark _⟩
  | box hI hp _ ih =>
    refine core_of hw hdec hI (Enough.succ ((part_ok ih).mono fun d f s hE hparts => ?_))
    obtain ⟨x, hx, hs⟩ := hE (hparts _ (by simp [Desc.parts]))
    exact ⟨_, C47_box _ m (target_reads typedef db m lossy floatStr d) f _ _ _ _ x _ _ hp hx, hs.mark _⟩
  | shared hk hI hp _ h1 h2 ih =>
    refine core_of hw hdec hI (Enough.succ ((part_ok ih).mono fun d f s hE hparts => ?_))
    obtain ⟨x, hx, hs⟩ := hE (hparts _ (by simp [Desc.parts]))
    exact ⟨_, C47_rc _ m (target_reads typedef db m lossy floatStr d) f _ _ _ _ x _ hk _ _ hp hx h1 h2, hs.mark _⟩
  | cell hk hI _ h1 ih =>
    refine core_of hw hdec hI (Enough.succ ((part_ok ih).mono fun d f s hE hparts => ?_))
    obtain ⟨x, hx, hs⟩ := hE (hparts _ (by simp [Desc.parts]))
    exact ⟨_, C47_mutex _ f _ _ _ x _ hk _ _ hx h1, hs.mark _⟩
  | none hI hst h1 h2 h3 =>
    refine core_of hw hdec hI (Enough.succ (.always fun d f s hparts => ?_))
    rename_i n a e off t size name disc
    refine ⟨.scalar (chars! "Option<" ++ (ty typedef db d t).displayName ++ chars! ">") (chars! "None"), ?_, .scalar⟩
    rw [full, Desc.layout, option_display _ m (target_reads typedef db m lossy floatStr d) f _ _ _ _ _ _ _ _ h3 h1 h2]
    rfl
  | some hI hst h1 h2 h3 h4 _ h5 ih =>
    refine core_of hw hdec hI (Enough.succ ((part_ok ih).mono fun d f s hE hparts => ?_))
    obtain ⟨x, hx, hs⟩ := hE (hparts _ (by simp [Desc.parts]))
    refine ⟨_, ?_, hs.mark _⟩
    rw [full, Desc.layout, option_display _ m (target_reads typedef db m lossy floatStr d) f _ _ _ _ _ _ _ _ h4 h1 h2,
      if_neg h3, addU_ok h5, Res.bind_ok, hx]
    rfl
  | struct hI hp hs _ ha ih =>
    refine core_of hw hdec hI (Enough.succ ((fields_ok ih).mono fun d f s hE hparts => ?_))
    exact ⟨_, struct_read hp hs ha, shows_fields (hE (parts_of_perm hp hparts))⟩
  | hashMap hI hm hc hi hl hb hvl _ _ h1 h2 h3 h4 h5 h6 h7 ihk ihv =>
    rename_i n a e mask ctrl items ps ko vo kt vt c k bytes vs _ _
    have hK := entries_ok (l := occupied bytes) (vs := vs) (at' := fun b => (bucketEntry k ps ko vo b).1) (r := (·.1)) ihk
    have hV := entries_ok (l := occupied bytes) (vs := vs) (at' := fun b => (bucketEntry k ps ko vo b).2) (r := (·.2)) ihv
    refine core_of hw hdec hI (Enough.succ ((hK.and hV).mono fun d f s ⟨hk, hv⟩ hparts => ?_))
    refine ⟨_, C27_entries _ m (target_reads typedef db m lossy floatStr d) f a _ _ _ _ _ _ _ _ _ c k bytes h5 h6 h7 hm h1 hc hi hl hb
      h2 h3 h4, ?_⟩
    have := shows_entries (typedef := typedef) (db := db) (m := m) (lossy := lossy) (floatStr := floatStr) (d := d) (s := s) (n := n)
      (t := chars! "HashMap<" ++ (ty typedef db d kt).displayName ++ chars! ", " ++ (ty typedef db d vt).displayName ++ chars! ">")
      (kt := ty typedef db d kt) (vt := ty typedef db d vt) (addrs := (occupied bytes).map (bucketEntry k ps ko vo)) (vs := vs)
      (by simpa using hvl) (by
        intro j b kv hb' hkv
        rw [List.getElem?_map, Option.map_eq_some_iff] at hb'
        obtain ⟨i, hi', rfl⟩ := hb'
        exact ⟨hk j i hi' kv hkv _ (.inr (hparts _ (by simp [Desc.parts]))),
          hv j i hi' kv hkv _ (.inr (hparts _ (by simp [Desc.parts])))⟩)
    rw [List.map_map] at this
    exact this
  | btreeMap hI hko hvo hks hvs hk0 hv0 hst h0 hlen hroot hheight hvl _ _ h1 h2 ihk ihv =>
    rename_i n a e lengthOff rootOff heightOff kt vt ks ws height nl tree vs _ _
    have hK := entries_ok (l := tree.inorder) (vs := vs) (at' := fun b => b.1 + nl.keysOff + b.2 * ks) (r := (·.1)) ihk
    have hV := entries_ok (l := tree.inorder) (vs := vs) (at' := fun b => b.1 + nl.valsOff + b.2 * ws) (r := (·.2)) ihv
    have hS := (size_named hw hdec hko hks).and
      (size_named hw hdec hvo hvs)
    refine core_of hw hdec hI (Enough.succ (((hK.and hV).and hS).mono fun d f s ⟨⟨hk, hv⟩, hs1, hs2⟩ hparts => ?_))
    have hpk := hparts kt (by simp [Desc.parts])
    have hpv := hparts vt (by simp [Desc.parts])
    refine ⟨_, C28_inorder_partial _ m (target_reads typedef db m lossy floatStr d) f a _ _ _ _ _ _ _ ks ws (hs1 hpk) (hs2 hpv)
      hk0 hv0 height tree hst h0 hlen hroot hheight h1 h2, ?_⟩
    have := shows_entries (typedef := typedef) (db := db) (m := m) (lossy := lossy) (floatStr := floatStr) (d := d) (s := s) (n := n)
      (t := chars! "BTreeMap<" ++ (ty typedef db d kt).displayName ++ chars! ", " ++ (ty typedef db d vt).displayName ++ chars! ">")
      (kt := ty typedef db d kt) (vt := ty typedef db d vt)
      (addrs := tree.inorder.map fun b => (b.1 + nl.keysOff + b.2 * ks, b.1 + nl.valsOff + b.2 * ws)) (vs := vs)
      (by simpa using hvl) (by
        intro j b kv hb' hkv
        rw [List.getElem?_map, Option.map_eq_some_iff] at hb'
        obtain ⟨i, hi', rfl⟩ := hb'
        exact ⟨hk j i hi' kv hkv _ (.inr hpk), hv j i hi' kv hkv _ (.inr hpv)⟩)
    rw [List.map_map] at this
    exact this
  | btreeEmpty hI hl ha =>
    rename_i n a e lengthOff rootOff nodeOff heightOff kt vt nl
    refine core_of hw hdec hI (Enough.succ (.always fun d f s hparts => ?_))
    refine ⟨.map (Layout.displayName (.map (.btreeMap lengthOff rootOff nodeOff heightOff nl) (ty typedef db d kt) (ty typedef db d vt))) [],
      ?_, trivial, fun k _ => ?_⟩
    · simp only [full, Desc.layout, readMem, readLayout, mapEntries]
      rw [addU_ok ha, Res.bind_ok, (readNat_ok (target_reads typedef db m lossy floatStr d) _ _ _).2 hl, Res.bind_ok, if_pos rfl]
      rfl
    · cases k
      · exact ⟨_, rfl, rfl⟩
      · exact ⟨_, rfl, rfl⟩
  | unitVariant hI hst hd ha hp hI' =>
    rename_i n a e pt size sz al name vn sn disc ws d0 dv
    have hP := payload_ok hw hdec (m := m) (lossy := lossy) (floatStr := floatStr) (n := 0) (a := a) (vs := []) hI' (by simp) .nil
      nofun nofun
    refine core_of hw hdec hI (Enough.succ (hP.mono fun d f s hE hparts => ?_))
    have hmem := hp.mem
    obtain ⟨x, hx, rfl, _⟩ := hE _ (.inr (hparts pt (by
      simp only [Desc.parts]; exact List.mem_map_of_mem (f := fun x => x.2.2) hmem)))
    refine ⟨_, C25_unit_variant _ m (target_reads typedef db m lossy floatStr d) f a _ name disc _ size d0 ha hd
      (vn, dv, ty typedef db d pt) ?_ sn hx, .scalar⟩
    rw [toList_variantsOf]
    exact picks_denotes _ hp
  | recordVariant hI hst hd ha hp hI' hpm hs hnu _ hfa ih =>
    rename_i n a e pt size sz al name vn sn disc ws d0 dv fs vs _
    have hP := payload_ok hw hdec hI' hpm hs hfa ih
    refine core_of hw hdec hI (Enough.succ (hP.mono fun d f s hE hparts => ?_))
    have hmem := hp.mem
    obtain ⟨x, hx, rfl, hB⟩ := hE _ (.inr (hparts pt (by
      simp only [Desc.parts]; exact List.mem_map_of_mem (f := fun x => x.2.2) hmem)))
    refine ⟨_, C25_struct_variant _ m (target_reads typedef db m lossy floatStr d) f a _ name disc _ size d0 ha hd
      (vn, dv, ty typedef db d pt) ?_ sn _ hx ?_, shows_fields hB⟩
    · rw [toList_variantsOf]
      exact picks_denotes _ hp
    · obtain ⟨x, hx, hnp⟩ := hnu
      refine ⟨_, List.mem_map_of_mem hx, fun rest hr => hnp ?_⟩
      simp only at hr
      rw [hr]; simp [List.isPrefixOf]
  | tupleVariant hI hst hd ha hp hI' hpm hs hne hu _ hfa ih =>
    rename_i n a e pt size sz al name vn sn disc ws d0 dv fs vs _
    have hP := payload_ok hw hdec hI' hpm hs hfa ih
    refine core_of hw hdec hI (Enough.succ (hP.mono fun d f s hE hparts => ?_))
    have hmem := hp.mem
    obtain ⟨x, hx, rfl, hB⟩ := hE _ (.inr (hparts pt (by
      simp only [Desc.parts]; exact List.mem_map_of_mem (f := fun x => x.2.2) hmem)))
    refine ⟨_, C25_tuple_variant _ m (target_reads typedef db m lossy floatStr d) f a _ name disc _ size d0 ha hd
      (vn, dv, ty typedef db d pt) ?_ sn _ hx ?_ ?_, ?_⟩
    · rw [toList_variantsOf]
      exact picks_denotes _ hp
    · simpa using hne
    · intro e he
      obtain ⟨x, hx, rfl⟩ := List.mem_map.1 he
      obtain ⟨r, hr⟩ := List.isPrefixOf_iff_prefix.1 (hu x hx)
      exact ⟨r, hr.symm⟩
    · rw [List.map_map]
      exact shows_tuple hB
  | cenum hI hd hm =>
    rename_i n a e size name vn disc vs d0
    refine core_of hw hdec hI (Enough.succ (.always fun d f s hparts => ?_))
    have : ∃ pre vn' post, vs = pre ++ (vn', d0) :: post ∧ ∀ w ∈ pre, w.2 ≠ d0 := by
      clear hI hparts
      induction vs with
      | nil => cases hm
      | cons w vs ihv =>
        by_cases hw0 : w.2 = d0
        · exact ⟨[], w.1, vs, by rw [← hw0]; rfl, nofun⟩
        · rcases List.mem_cons.1 hm with rfl | hm
          · exact absurd rfl hw0
          · obtain ⟨pre, vn', post, rfl, h⟩ := ihv hm
            refine ⟨w :: pre, vn', post, rfl, fun x hx => ?_⟩
            rcases List.mem_cons.1 hx with rfl | hx
            · exact hw0
            · exact h x hx
    obtain ⟨pre, vn', post, rfl, hpre⟩ := this
    exact ⟨_, C25_c_enum _ m (target_reads typedef db m lossy floatStr d) f a _ name disc pre post vn' size d0 hd hpre, .scalar⟩

end
end Rudy.Shown
