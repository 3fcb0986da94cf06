import Verif.Props.ImagePlaces
/-
C106: a part asked for by itself is shown as inside the whole.
-/
set_option linter.unusedSimpArgs false
namespace Rudy.Shown
open Rudy Rudy.Dwarf Rudy.Parse Rudy.Layout Rudy.Data Rudy.TypeRes Rudy.Eval
open Rudy.Expr (Expr)

/-- Specification: `ex` is an expression of which the value `val` is shown, with the type of the entry `e`; then `ex'` is the expression for a part of it, `val'` is what is shown as this part inside of `val`, and `e'` is the type of the part.
As with `Place`, the code looks into a value of a type of the user's own, or an array, only if it is the variable `v` itself, and into elements only of types that are not the user's own. -/
inductive Inside (typedef : Nat → Option Layout) (db : Db) (lossy : List UInt8 → Str) (v : Str) : (ex : Expr) → (val : RVal) → (e : Nat) → (ex' : Expr) → (val' : RVal) → (e' : Nat) → Prop
  /-- All of it. -/
  | all {ex : Expr} {val : RVal} {e : Nat} : Inside typedef db lossy v ex val e ex val e
  /-- The field `f` of a part is what stands after its name. -/
  | field {ex b : Expr} {val val' : RVal} {e e' o t size align : Nat} {name S f : Str} {fs : List (Str × Nat × Nat)} {vals : List (Str × RVal)} :
      Inside typedef db lossy v ex val e b (.record S vals) e' → Is typedef db e' (.struct name size align fs) → (Ordinary typedef e' → b = .var v) → (f, o, t) ∈ fs → (f, val') ∈ vals →
      Inside typedef db lossy v ex val e (.field b f) val' t
  /-- The element `i` is what stands at the position `i`, counted from 0. -/
  | element {ex b : Expr} {val val' : RVal} {e e' t i : Nat} {vs : List RVal} : Inside typedef db lossy v ex val e b (.seq vs) e' →
      (∃ l d c, Is typedef db e' (.vec l d c t)) ∨ (∃ len, Is typedef db e' (.array t len)) → (Ordinary typedef e' → b = .var v) → ¬ Ordinary typedef t → vs[i]? = some val' →
      Inside typedef db lossy v ex val e (.index b (.num i)) val' t
  /-- The entry for `key` is what stands after this key. The keys are texts, no two the same, none empty, none with a quotation mark at its ends. -/
  | entry {ex b : Expr} {val val' : RVal} {e e' kt vt : Nat} {key : Str} {items : List (Str × RVal)} : Inside typedef db lossy v ex val e b (.map (items.map fun i => (.leaf (quoted i.1), i.2))) e' →
      (∃ mask ctrl n ps ko vo, Is typedef db e' (.hashMap mask ctrl n ps ko vo kt vt)) ∨ (∃ l r n h nl, Is typedef db e' (.btreeMap l r n h nl kt vt)) →
      (∀ i ∈ items, Data.Plain i.1 ∧ i.1 ≠ lossy []) → (items.map (·.1)).Nodup → (key, val') ∈ items →
      Inside typedef db lossy v ex val e (.index b (.str key)) val' vt

section
variable {typedef : Nat → Option Layout} {db : Db} {m : Mem} {lossy : List UInt8 → Str} {floatStr : Nat → Nat → Str}

/-- What is read of a type says which type it is. -/
theorem known_entry (hw : WellFormed db) (hdec : Decodes db) {t : Nat} (h : Known typedef db t) : ∃ N, ∀ d, N ≤ d → ∃ l, ty typedef db d t = .mk (some t) l := by
  cases h with
  | user ho =>
    refine ⟨1, fun d hd => ?_⟩
    obtain ⟨d, rfl⟩ : ∃ k, d = k + 1 := ⟨d - 1, by omega⟩
    obtain ⟨nm, h⟩ := shallow_ordinary (db := db) (d := d) ho
    exact ⟨_, ty_eq h⟩
  | built ho hd hp =>
    obtain ⟨N, hN⟩ := types_at hw hdec ⟨hd, hp⟩
    refine ⟨N + 1, fun d hd => ?_⟩
    obtain ⟨d, rfl⟩ : ∃ k, d = k + 1 := ⟨d - 1, by omega⟩
    exact ⟨_, ty_eq (shallow_of_resolve ho (hN d (by omega)).2.1)⟩

/-- The part of a type is the one. -/
theorem part_eq (hw : WellFormed db) (hdec : Decodes db) {t t' : Nat} (h : Known typedef db t) (h' : Known typedef db t') (N : Nat) (he : ∀ d, N ≤ d → ty typedef db d t = ty typedef db d t') : t = t' := by
  obtain ⟨M, hM⟩ := known_entry hw hdec h
  obtain ⟨M', hM'⟩ := known_entry hw hdec h'
  obtain ⟨l, h1⟩ := hM (max N (max M M')) (by omega)
  obtain ⟨l', h2⟩ := hM' (max N (max M M')) (by omega)
  have := he (max N (max M M')) (by omega)
  rw [h1, h2] at this
  cases this
  rfl

/-- A type has one description. -/
theorem is_layout (hw : WellFormed db) (hdec : Decodes db) {e : Nat} {d d' : Desc} (h : Is typedef db e d) (h' : Is typedef db e d') :
    ∃ N, ∀ n, N ≤ n → d.layout (ty typedef db n) = d'.layout (ty typedef db n) := by
  obtain ⟨N, hN⟩ := types_at hw hdec h
  obtain ⟨M, hM⟩ := types_at hw hdec h'
  refine ⟨max N M, fun n hn => ?_⟩
  have h1 := (hN n (by omega)).2.1
  rw [(hM n (by omega)).2.1] at h1
  have h2 := congrArg TypeDef.layout (Res.ok.inj h1)
  exact h2.symm

theorem not_layout (hw : WellFormed db) (hdec : Decodes db) {e : Nat} {d d' : Desc} (h : Is typedef db e d) (h' : Is typedef db e d')
    (hne : ∀ T, d.layout T ≠ d'.layout T) : False := by
  obtain ⟨N, hN⟩ := is_layout hw hdec h h'
  exact hne _ (hN N (Nat.le_refl _))

theorem mark_leaf {v : RVal} {f : Str → Str} {t : Str} (h : v.mark f = .leaf t) : v = .leaf t := by
  cases v <;> simp_all [RVal.mark]

/-- A text needs no nesting. -/
theorem holds_leaf {n a e : Nat} {v : RVal} (h : Holds typedef db m lossy floatStr n a e v) : ∀ t, v = .leaf t → Holds typedef db m lossy floatStr 0 a e v := by
  induction h with
  | plain h1 h2 => exact fun t _ => .plain h1 h2
  | string h1 h2 h3 h4 h5 h6 => exact fun t _ => .string h1 h2 h3 h4 h5 h6
  | str h1 h2 h3 h4 h5 h6 => exact fun t _ => .str h1 h2 h3 h4 h5 h6
  | reference h1 h2 _ ih => exact fun t ht => .reference h1 h2 (ih t (mark_leaf ht))
  | pointer h1 h2 _ ih => exact fun t ht => .pointer h1 h2 (ih t (mark_leaf ht))
  | box h1 h2 _ ih => exact fun t ht => .box h1 h2 (ih t (mark_leaf ht))
  | shared h1 h2 h3 _ h5 h6 ih => exact fun t ht => .shared h1 h2 h3 (ih t (mark_leaf ht)) h5 h6
  | cell h1 h2 _ h4 ih => exact fun t ht => .cell h1 h2 (ih t (mark_leaf ht)) h4
  | none h1 h2 h3 h4 h5 => exact fun t _ => .none h1 h2 h3 h4 h5
  | some h1 h2 h3 h4 h5 h6 _ h8 ih => exact fun t ht => .some h1 h2 h3 h4 h5 h6 (ih t (mark_leaf ht)) h8
  | unitVariant h1 h2 h3 h4 h5 h6 => exact fun t _ => .unitVariant h1 h2 h3 h4 h5 h6
  | cenum h1 h2 h3 => exact fun t _ => .cenum h1 h2 h3
  | _ => intro t ht; cases ht

theorem fields_eq : ∀ (l : List Nat) (fs fs' : List (Str × Nat × Nat)), List.Forall₂ (fun c f => Named db c f.1 ∧ Located db c f.2.1 ∧ Typed db c f.2.2) l fs →
    List.Forall₂ (fun c f => Named db c f.1 ∧ Located db c f.2.1 ∧ Typed db c f.2.2) l fs' → fs = fs'
  | [], _, _, h, h' => by cases h; cases h'; rfl
  | _ :: l, y :: fs, z :: fs', .cons h h1, .cons h' h1' => by
    obtain ⟨y1, y2, y3⟩ := y
    obtain ⟨z1, z2, z3⟩ := z
    cases h.1.unique h'.1
    cases h.2.1.unique h'.2.1
    cases h.2.2.unique h'.2.2
    rw [fields_eq l fs fs' h1 h1']

theorem named_eq {α : Type} {y z : Str × α} : ∀ (l : List (Str × α)), (l.map (·.1)).Nodup → y ∈ l → z ∈ l → y.1 = z.1 → y = z
  | [], _, h, _, _ => by cases h
  | w :: l, hn, hy, hz, he => by
    simp only [List.map_cons, List.nodup_cons, List.mem_map, not_exists, not_and] at hn
    rcases List.mem_cons.1 hy with hy | hy <;> rcases List.mem_cons.1 hz with hz | hz
    · rw [hy, hz]
    · exact absurd (by rw [← he, hy]) (hn.1 z hz)
    · exact absurd (by rw [he, hz]) (hn.1 y hy)
    · exact named_eq l hn.2 hy hz he

/-- The fields of a struct hold what is shown as them. -/
theorem holds_field (hw : WellFormed db) (hdec : Decodes db) {n a e size align o t : Nat} {S name f : Str} {fs : List (Str × Nat × Nat)} {vals : List (Str × RVal)} {val : RVal}
    (h : Holds typedef db m lossy floatStr n a e (.record S vals)) (hI : Is typedef db e (.struct name size align fs)) (hf : (f, o, t) ∈ fs) (hv : (f, val) ∈ vals) :
    ∃ k, n = k + 1 ∧ Holds typedef db m lossy floatStr k (a + o) t val ∧ a + o < u64Max1 ∧ (fs.map (·.1)).Nodup := by
  generalize hx : RVal.record S vals = x at h
  cases h with
  | struct h1 h2 h3 h4 h5 =>
    rename_i n size' align' name' fs' vs
    cases hx
    have hfs : fs' = fs := by
      obtain ⟨-, -, -, -, -, cs, hcs, -, h6⟩ := hI.1
      obtain ⟨-, -, -, -, -, cs', hcs', -, h7⟩ := h1.1
      rw [hcs] at hcs'
      cases hcs'
      exact (fields_eq _ _ _ h6 h7).symm
    subst hfs
    have hnd : (vs.map (·.1)).Nodup := by
      rw [List.Nodup, List.pairwise_map]
      refine h3.imp fun {x y} hxy he => ?_
      rw [he] at hxy
      rw [Std.ReflCmp.compare_self (cmp := (compare : Str → Str → Ordering))] at hxy
      cases hxy
    have hperm : (vs.map (·.1)).Perm (fs'.map (·.1)) := by
      have := h2.map (·.1)
      simpa only [List.map_map, Function.comp_def] using this
    obtain ⟨y, hy, hy'⟩ := List.mem_map.1 hv
    obtain ⟨z, hz, hz'⟩ := List.mem_map.1 (h2.mem_iff.2 hf)
    have hyz : y = z := by
      refine named_eq vs hnd hy hz ?_
      simp only [Prod.mk.injEq] at hy' hz'
      rw [hy'.1, hz'.1]
    subst hyz
    simp only [Prod.mk.injEq] at hy' hz'
    obtain ⟨-, rfl⟩ := hy'
    obtain ⟨-, rfl, rfl⟩ := hz'
    exact ⟨n, rfl, h4 y hy, h5 y hy, (hperm.nodup_iff).1 hnd⟩
  | reference h1 => exact (not_layout hw hdec h1 hI (by intro T; simp [Desc.layout])).elim
  | pointer h1 => exact (not_layout hw hdec h1 hI (by intro T; simp [Desc.layout])).elim
  | box h1 => exact (not_layout hw hdec h1 hI (by intro T; simp [Desc.layout])).elim
  | shared _ h1 => exact (not_layout hw hdec h1 hI (by intro T; simp [Desc.layout])).elim
  | cell _ h1 => exact (not_layout hw hdec h1 hI (by intro T; simp [Desc.layout])).elim
  | some h1 => exact (not_layout hw hdec h1 hI (by intro T; simp [Desc.layout])).elim
  | recordVariant h1 => exact (not_layout hw hdec h1 hI (by intro T; simp [Desc.layout])).elim
  | _ => cases hx

/-- The elements of a `Vec` or array hold what is shown as them. -/
theorem holds_element (hw : WellFormed db) (hdec : Decodes db) {n a e t i : Nat} {vs : List RVal} {val : RVal} (h : Holds typedef db m lossy floatStr n a e (.seq vs))
    (hI : (∃ l d c, Is typedef db e (.vec l d c t)) ∨ (∃ len, Is typedef db e (.array t len))) (hv : vs[i]? = some val) :
    ∃ k s q, n = k + 1 ∧ SizeIs typedef db t s ∧ Element typedef db m a e i t s q ∧ Holds typedef db m lossy floatStr k q t val := by
  have hi : i < vs.length := (List.getElem?_eq_some_iff.1 hv).1
  have key : ∀ {d' : Desc}, Is typedef db e d' → (∀ T, (∀ l d c, Layout.vec l d c (T t) ≠ d'.layout T) ∧ ∀ n, Layout.array (T t) n ≠ d'.layout T) → False := by
    intro d' h1 hne
    rcases hI with ⟨l, d, c, h2⟩ | ⟨len, h2⟩
    · exact not_layout hw hdec h2 h1 fun T => (hne T).1 _ _ _
    · exact not_layout hw hdec h2 h1 fun T => (hne T).2 _
  generalize hx : RVal.seq vs = x at h
  cases h with
  | vec h1 h2 h3 h4 h5 h6 h7 h8 h9 =>
    rename_i n l d c t' p s vs'
    cases hx
    have ht : t = t' := by
      rcases hI with ⟨l, d, c, hI⟩ | ⟨len, hI⟩
      · obtain ⟨N, hN⟩ := is_layout hw hdec hI h1
        refine part_eq hw hdec (hI.2 t (by simp [Desc.parts])) (h1.2 t' (by simp [Desc.parts])) N fun d hd => ?_
        have := hN d hd
        simp only [Desc.layout] at this
        injection this
      · exact (not_layout hw hdec hI h1 (by intro T; simp [Desc.layout])).elim
    subst ht
    refine ⟨n, s, _, rfl, h2, .vec h1 h3 h4 hi h6 h7 ?_, h5 i val hv⟩
    have : i * s ≤ vs.length * s := Nat.mul_le_mul_right s (by omega)
    omega
  | array h1 h2 h3 h4 h5 =>
    rename_i n t' s vs'
    cases hx
    have ht : t = t' := by
      rcases hI with ⟨l, d, c, hI⟩ | ⟨len, hI⟩
      · exact (not_layout hw hdec hI h1 (by intro T; simp [Desc.layout])).elim
      · obtain ⟨N, hN⟩ := is_layout hw hdec hI h1
        refine part_eq hw hdec (hI.2 t (by simp [Desc.parts])) (h1.2 t' (by simp [Desc.parts])) N fun d hd => ?_
        have := hN d hd
        simp only [Desc.layout] at this
        injection this
    subst ht
    refine ⟨n, s, _, rfl, h2, .array h1 hi ?_, h3 i val hv⟩
    have : i * s ≤ vs.length * s := Nat.mul_le_mul_right s (by omega)
    omega
  | slice h1 => exact (key h1 (by intro T; simp [Desc.layout])).elim
  | reference h1 => exact (key h1 (by intro T; simp [Desc.layout])).elim
  | pointer h1 => exact (key h1 (by intro T; simp [Desc.layout])).elim
  | box h1 => exact (key h1 (by intro T; simp [Desc.layout])).elim
  | shared _ h1 => exact (key h1 (by intro T; simp [Desc.layout])).elim
  | cell _ h1 => exact (key h1 (by intro T; simp [Desc.layout])).elim
  | some h1 => exact (key h1 (by intro T; simp [Desc.layout])).elim
  | _ => cases hx

/-- The places of keys and values, with what the keys are. -/
theorem contents_of {kt vt n : Nat} {items : List (Str × RVal)} {L : List (Nat × Nat)} (hl : items.length = L.length)
    (hk : ∀ (j : Nat) (p : Nat × Nat) (i : Str × RVal), L[j]? = some p → items[j]? = some i → Holds typedef db m lossy floatStr n p.1 kt (.leaf (quoted i.1)))
    (hv : ∀ (j : Nat) (p : Nat × Nat) (i : Str × RVal), L[j]? = some p → items[j]? = some i → Holds typedef db m lossy floatStr n p.2 vt i.2) :
    ∃ contents : List (Str × Nat × Nat), contents.map (·.2) = L ∧ contents.map (·.1) = items.map (·.1) ∧
      (∀ c ∈ contents, Holds typedef db m lossy floatStr 0 c.2.1 kt (.leaf (quoted c.1))) ∧
      ∀ key val, (key, val) ∈ items → ∃ ka va, (key, ka, va) ∈ contents ∧ Holds typedef db m lossy floatStr n va vt val := by
  induction items generalizing L with
  | nil =>
    cases L with
    | nil => exact ⟨[], rfl, rfl, by simp, by simp⟩
    | cons p L => simp at hl
  | cons i items ih =>
    cases L with
    | nil => simp at hl
    | cons p L =>
      obtain ⟨contents, h1, h2, h3, h4⟩ := ih (L := L) (by simpa using hl) (fun j => hk (j + 1)) (fun j => hv (j + 1))
      refine ⟨(i.1, p) :: contents, by simp [h1], by simp [h2], ?_, ?_⟩
      · intro c hc
        rcases List.mem_cons.1 hc with rfl | hc
        · exact holds_leaf (hk 0 p i rfl rfl) _ rfl
        · exact h3 c hc
      · intro key val hkv
        rcases List.mem_cons.1 hkv with rfl | hkv
        · exact ⟨p.1, p.2, List.mem_cons_self .., hv 0 p _ rfl rfl⟩
        · obtain ⟨ka, va, h5, h6⟩ := h4 key val hkv
          exact ⟨ka, va, List.mem_cons_of_mem _ h5, h6⟩

/-- The entries of a map hold what is shown as them. -/
theorem holds_entry (hw : WellFormed db) (hdec : Decodes db) {n a e kt vt : Nat} {items : List (Str × RVal)} {key : Str} {val : RVal}
    (h : Holds typedef db m lossy floatStr n a e (.map (items.map fun i => (.leaf (quoted i.1), i.2))))
    (hI : (∃ mask ctrl n ps ko vo, Is typedef db e (.hashMap mask ctrl n ps ko vo kt vt)) ∨ (∃ l r n h nl, Is typedef db e (.btreeMap l r n h nl kt vt))) (hm : (key, val) ∈ items) :
    ∃ k, n = k + 1 ∧ ∃ contents : List (Str × Nat × Nat), Entries typedef db m a e kt vt (contents.map (·.2)) ∧ contents.map (·.1) = items.map (·.1) ∧
      (∀ c ∈ contents, Holds typedef db m lossy floatStr 0 c.2.1 kt (.leaf (quoted c.1))) ∧ ∃ ka va, (key, ka, va) ∈ contents ∧ Holds typedef db m lossy floatStr k va vt val := by
  have key' : ∀ {d' : Desc}, Is typedef db e d' → (∀ T v, Layout.map v (T kt) (T vt) ≠ d'.layout T) → False := by
    intro d' h1 hne
    rcases hI with ⟨_, _, _, _, _, _, h2⟩ | ⟨_, _, _, _, _, h2⟩
    · exact not_layout hw hdec h2 h1 fun T => hne T _
    · exact not_layout hw hdec h2 h1 fun T => hne T _
  have parts : ∀ {d' : Desc} {kt' vt' : Nat}, Is typedef db e d' → kt' ∈ d'.parts → vt' ∈ d'.parts → (∀ T, ∃ v, d'.layout T = .map v (T kt') (T vt')) → kt = kt' ∧ vt = vt' := by
    intro d' kt' vt' h1 hk hv hd
    obtain ⟨d2, h2, hk2, hv2, hd2⟩ : ∃ d2, Is typedef db e d2 ∧ kt ∈ d2.parts ∧ vt ∈ d2.parts ∧ ∀ T, ∃ v, d2.layout T = .map v (T kt) (T vt) := by
      rcases hI with ⟨_, _, _, _, _, _, h2⟩ | ⟨_, _, _, _, _, h2⟩
      · exact ⟨_, h2, by simp [Desc.parts], by simp [Desc.parts], fun T => ⟨_, rfl⟩⟩
      · exact ⟨_, h2, by simp [Desc.parts], by simp [Desc.parts], fun T => ⟨_, rfl⟩⟩
    obtain ⟨N, hN⟩ := is_layout hw hdec h2 h1
    constructor
    · refine part_eq hw hdec (h2.2 _ hk2) (h1.2 _ hk) N fun d hd' => ?_
      obtain ⟨v, h3⟩ := hd (ty typedef db d)
      obtain ⟨v', h4⟩ := hd2 (ty typedef db d)
      have := hN d hd'
      rw [h3, h4] at this
      injection this
    · refine part_eq hw hdec (h2.2 _ hv2) (h1.2 _ hv) N fun d hd' => ?_
      obtain ⟨v, h3⟩ := hd (ty typedef db d)
      obtain ⟨v', h4⟩ := hd2 (ty typedef db d)
      have := hN d hd'
      rw [h3, h4] at this
      injection this
  generalize hx : RVal.map (items.map fun i => (RVal.leaf (quoted i.1), i.2)) = x at h
  cases h with
  | hashMap h1 h2 h3 h4 h5 h6 h7 h8 h9 h10 h11 h12 h13 h14 h15 h16 =>
    rename_i n mask ctrl its ps ko vo kt' vt' c k bytes vs
    cases hx
    obtain ⟨rfl, rfl⟩ := parts h1 (by simp [Desc.parts]) (by simp [Desc.parts]) (fun T => ⟨_, rfl⟩)
    obtain ⟨contents, c1, c2, c3, c4⟩ := contents_of (n := n) (L := (occupied bytes).map (bucketEntry k ps ko vo)) (kt := kt) (vt := vt) (items := items) (m := m) (lossy := lossy) (floatStr := floatStr)
      (typedef := typedef) (db := db) (by simpa using h7) (by
        intro j p i hp hi
        rw [List.getElem?_map, Option.map_eq_some_iff] at hp
        obtain ⟨b, hb, rfl⟩ := hp
        exact h8 j b (.leaf (quoted i.1), i.2) hb (by rw [List.getElem?_map, hi]; rfl)) (by
        intro j p i hp hi
        rw [List.getElem?_map, Option.map_eq_some_iff] at hp
        obtain ⟨b, hb, rfl⟩ := hp
        exact h9 j b (.leaf (quoted i.1), i.2) hb (by rw [List.getElem?_map, hi]; rfl))
    exact ⟨n, rfl, contents, by rw [c1]; exact .hash h1 h2 h3 h4 h5 h6 h10 h11 h12 h13 h14 h15 h16, c2, c3, c4 key val hm⟩
  | btreeMap h1 h2 h3 h4 h5 h6 h7 h8 h9 h10 h11 h12 h13 h14 h15 h16 h17 =>
    rename_i n lengthOff rootOff heightOff kt' vt' ks ws height nl tree vs
    cases hx
    obtain ⟨rfl, rfl⟩ := parts h1 (by simp [Desc.parts]) (by simp [Desc.parts]) (fun T => ⟨_, rfl⟩)
    obtain ⟨contents, c1, c2, c3, c4⟩ := contents_of (n := n) (L := tree.inorder.map fun b => (b.1 + nl.keysOff + b.2 * ks, b.1 + nl.valsOff + b.2 * ws)) (kt := kt) (vt := vt) (items := items) (m := m)
      (lossy := lossy) (floatStr := floatStr) (typedef := typedef) (db := db) (by simpa using h13) (by
        intro j p i hp hi
        rw [List.getElem?_map, Option.map_eq_some_iff] at hp
        obtain ⟨b, hb, rfl⟩ := hp
        exact h14 j b (.leaf (quoted i.1), i.2) hb (by rw [List.getElem?_map, hi]; rfl)) (by
        intro j p i hp hi
        rw [List.getElem?_map, Option.map_eq_some_iff] at hp
        obtain ⟨b, hb, rfl⟩ := hp
        exact h15 j b (.leaf (quoted i.1), i.2) hb (by rw [List.getElem?_map, hi]; rfl))
    exact ⟨n, rfl, contents, by rw [c1]; exact .btree h1 h2 h3 h4 h5 h6 h7 h8 h9 h10 h11 h12 h16 h17, c2, c3, c4 key val hm⟩
  | btreeEmpty h1 =>
    cases items with
    | nil => cases hm
    | cons _ _ => simp at hx
  | reference h1 => exact (key' h1 (by intro T; simp [Desc.layout])).elim
  | pointer h1 => exact (key' h1 (by intro T; simp [Desc.layout])).elim
  | box h1 => exact (key' h1 (by intro T; simp [Desc.layout])).elim
  | shared _ h1 => exact (key' h1 (by intro T; simp [Desc.layout])).elim
  | cell _ h1 => exact (key' h1 (by intro T; simp [Desc.layout])).elim
  | some h1 => exact (key' h1 (by intro T; simp [Desc.layout])).elim
  | _ => cases hx

/-- The part is at a place, and holds what is shown. -/
theorem inside_place (hw : WellFormed db) (hdec : Decodes db) {v : Str} {a0 e0 n a e e' : Nat} {ex ex' : Expr} {val val' : RVal} (hp : Place typedef db m lossy floatStr v a0 e0 ex a e)
    (h : Holds typedef db m lossy floatStr n a e val) {E : Str} (hne : ¬ val.Has E) (hi : Inside typedef db lossy v ex val e ex' val' e') :
    ∃ a' n', n' ≤ n ∧ Place typedef db m lossy floatStr v a0 e0 ex' a' e' ∧ Holds typedef db m lossy floatStr n' a' e' val' ∧ ¬ val'.Has E := by
  induction hi with
  | all => exact ⟨a, n, Nat.le_refl _, hp, h, hne⟩
  | field _ hI ho hf hv ih =>
    obtain ⟨a', n', hn, hp', h', hne'⟩ := ih hp h hne
    obtain ⟨k, hk, h1, h2, h3⟩ := holds_field hw hdec h' hI hf hv
    exact ⟨_, k, by omega, .field hp' ho hI hf h3 h2, h1, fun hh => hne' (.record hv hh)⟩
  | element _ hI ho hot hv ih =>
    obtain ⟨a', n', hn, hp', h', hne'⟩ := ih hp h hne
    obtain ⟨k, s, q, hk, h1, h2, h3⟩ := holds_element hw hdec h' hI hv
    exact ⟨q, k, by omega, .element hp' ho h2 hot h1, h3, fun hh => hne' (.seq (List.mem_of_getElem? hv) hh)⟩
  | entry _ hI hpl hnd hv ih =>
    obtain ⟨a', n', hn, hp', h', hne'⟩ := ih hp h hne
    obtain ⟨k, hk, contents, h1, h2, h3, ka, va, h4, h5⟩ := holds_entry hw hdec h' hI hv
    refine ⟨va, k, by omega, .entry hp' h1 (fun c hc => ?_) (by rw [h2]; exact hnd) h4, h5, fun hh => hne' (.value (List.mem_map.2 ⟨_, hv, rfl⟩) hh)⟩
    obtain ⟨i, hi, hi'⟩ := List.mem_map.1 (h2 ▸ List.mem_map.2 ⟨c, hc, rfl⟩ : c.1 ∈ _)
    rw [← hi']
    exact ⟨(hpl i hi).1, (hpl i hi).2, by rw [hi']; exact h3 c hc⟩

end
end Rudy.Shown

namespace Rudy.Image
open Rudy Rudy.Dwarf Rudy.Walker Rudy.Layout Rudy.Data Rudy.Resolve Rudy.Declared Rudy.Entries Rudy.Modules Rudy.TypeNames Rudy.FnIndex Rudy.Shown Rudy.Whole Rudy.Listing
open Rudy.TypeRes (shallow resolveType Ordinary)
open Rudy.Expr (Expr)
section
variable {w : Libs} {x : Executable} {us : List UnitOf} {m : Mem} {a0 e0 : Nat} {v : Str} {u : UnitOf} {files : UnitFiles} {t : Tree Die}

/-- C106: what `rd print` shows for a part of a place - a field, an element, an entry of a map, or parts of parts - is what it shows at this part inside of the whole, if the code finds the part at all (for others, as a field of a field that is a struct,
or of what is behind a reference, see the `C98_…_fails`). -/
theorem C106_inside_partial (hs : Stops w x us u files t) {n a e e' : Nat} {val val' : RVal} {name name' : Str} {ex ex' : Expr} (hn : n ≤ 4) {desc : Desc}
    (h0 : Is (typedef w.lib x) (fileDb x.units) e0 desc) (hp : Place (typedef w.lib x) (fileDb x.units) m w.lossy w.floatStr v a0 e0 ex a e)
    (h : Holds (typedef w.lib x) (fileDb x.units) m w.lossy w.floatStr n a e val) (hne : ¬ val.Has (emptyText w.lossy))
    (hcl : Called (typedef w.lib x) (fileDb x.units) w.lib.render e name)
    (hi : Inside (typedef w.lib x) (fileDb x.units) w.lossy v ex val e ex' val' e') (hcl' : Called (typedef w.lib x) (fileDb x.units) w.lib.render e' name') :
    Answers w x us files t m v a0 e0 ex (.text (page [chars! "type: " ++ name, chars! "value: " ++ val.text])) ∧
    Answers w x us files t m v a0 e0 ex' (.text (page [chars! "type: " ++ name', chars! "value: " ++ val'.text])) := by
  obtain ⟨a', n', h1, h2, h3, h4⟩ := inside_place hs.wellFormed (C95_decodes _) hp h hne hi
  exact ⟨C98_place_printed_partial hs hn h0 hp h hne hcl, C98_place_printed_partial hs (by omega) h0 h2 h3 h4 hcl'⟩

end

/-! ### Example -/

theorem part_t : Shown.Is (typedef shopLibs.lib partImage) (fileDb partImage.units) 30 (.struct (chars! "T") 1 1 [(chars! "b", 0, 60)]) := by
  refine ⟨⟨?_, ⟨_, rfl, rfl⟩, ⟨_, rfl, rfl⟩, ⟨_, rfl, rfl⟩, ⟨_, rfl, rfl⟩, [31], rfl, ?_, ?_⟩, ?_⟩
  · simp [Ordinary, part_types.1]
  · intro c hc
    simp only [List.mem_cons, List.not_mem_nil, or_false] at hc
    rcases hc with rfl
    rintro ⟨d, h1, h2⟩; cases h1; cases h2
  · exact .cons ⟨⟨_, rfl, rfl⟩, ⟨_, rfl, rfl⟩, ⟨_, rfl, rfl⟩⟩ .nil
  · simpa [Shown.Desc.parts] using part_known.1

theorem part_s_holds : Holds (typedef shopLibs.lib partImage) (fileDb partImage.units) partMem shopLibs.lossy shopLibs.floatStr 2 100 34
    (.record (chars! "S") [(chars! "a", .leaf (natStr 7)), (chars! "t", .record (chars! "T") [(chars! "b", .leaf (natStr 9))])]) := by
  refine .struct (vs := [(chars! "a", 0, 60, .leaf (natStr 7)), (chars! "t", 1, 30, .record (chars! "T") [(chars! "b", .leaf (natStr 9))])]) part_s (.refl _) (by decide) ?_ (by decide)
  intro y hy
  simp only [List.mem_cons, List.not_mem_nil, or_false] at hy
  rcases hy with rfl | rfl
  · exact .plain part_u8 ⟨7, by unfold Mem.HoldsNat; decide, by rw [natStr_toString]⟩
  · refine .struct (vs := [(chars! "b", 0, 60, .leaf (natStr 9))]) part_t (.refl _) (by decide) ?_ (by decide)
    intro y hy
    simp only [List.mem_cons, List.not_mem_nil, or_false] at hy
    subst hy
    exact part_byte 101 9 (by unfold Mem.HoldsNat; decide)

theorem part_s_plain : ¬ (RVal.record (chars! "S") [(chars! "a", .leaf (natStr 7)), (chars! "t", .record (chars! "T") [(chars! "b", .leaf (natStr 9))])]).Has (emptyText shopLibs.lossy) := by
  intro h
  cases h with
  | record hf h =>
    simp only [List.mem_cons, List.not_mem_nil, or_false] at hf
    rcases hf with rfl | rfl
    · cases h
    · cases h with
      | record hf h =>
        simp only [List.mem_cons, List.not_mem_nil, or_false] at hf
        subst hf
        cases h

/-- `C106_inside_partial` at work: the user types `rd p s`, and then `rd p s.t`. -/
example (other : Wire.Json → Str) : (∃ N b, binary shopLibs N N partImage = .ok b ∧
    rd Remote.toy other b.program.backend ⟨partMem, 0⟩ (chars! "p s") = some (.text (chars! "type: S\nvalue: S {\n  a: 7,\n  t: T {\n    b: 9\n  }\n}\n"), ⟨partMem, 0⟩)) ∧
    ∃ N b, binary shopLibs N N partImage = .ok b ∧
    rd Remote.toy other b.program.backend ⟨partMem, 0⟩ (chars! "p s.t") = some (.text (chars! "type: T\nvalue: T {\n  b: 9\n}\n"), ⟨partMem, 0⟩) := by
  have h := C106_inside_partial (t := partRun) (v := chars! "s") (a0 := 100) part_stops (by omega) part_s .var part_s_holds part_s_plain (.struct part_s)
    (.field .all part_s (fun _ => rfl) (f := chars! "t") (o := 1) (t := 30) (by decide) (List.mem_cons_of_mem _ (List.mem_cons_self ..))) (.struct part_t)
  exact ⟨part_answer h.1 ⟨partVars[0], List.mem_of_getElem? (i := 0) rfl, rfl, rfl, rfl, by omega, by omega, by decide⟩ _ ⟨chars! "p", chars! "s", [], rfl, .inl rfl, by with_unfolding_all rfl⟩ other,
    part_answer h.2 ⟨partVars[0], List.mem_of_getElem? (i := 0) rfl, rfl, rfl, rfl, by omega, by omega, by decide⟩ _ ⟨chars! "p", chars! "s.t", [], rfl, .inl rfl, by with_unfolding_all rfl⟩ other⟩

end Rudy.Image
