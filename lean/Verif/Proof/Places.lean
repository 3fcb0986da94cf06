import Verif.Props.DeclaredShown
/-
Places in the memory of a program: a variable, a field of it, an element, an entry of a map. Used for C98.
-/
set_option linter.unusedSimpArgs false
namespace Rudy.Shown
open Rudy Rudy.Dwarf Rudy.Parse Rudy.Layout Rudy.Data Rudy.TypeRes Rudy.Eval
open Rudy.Expr (Expr)

/-- Specification: the map of type `e` at `a` has its keys, of type `kt`, and values, of type `vt`, at these addresses. -/
inductive Entries (typedef : Nat → Option Layout) (db : Db) (m : Mem) : (a e kt vt : Nat) → List (Nat × Nat) → Prop
  | hash {a e mask ctrl items ps ko vo kt vt c k : Nat} {bytes : List UInt8} : Is typedef db e (.hashMap mask ctrl items ps ko vo kt vt) →
      m.HoldsNat (a + mask) 8 c → m.HoldsNat (a + ctrl) 8 k → m.HoldsNat (a + items) 8 (occupied bytes).length →
      bytes.length = c + 1 → m.HoldsBytes k bytes → c + 1 < u64Max1 → (c + 1) * ps ≤ k → ko ≤ ps → vo ≤ ps →
      a + mask < u64Max1 → a + ctrl < u64Max1 → a + items < u64Max1 →
      Entries typedef db m a e kt vt ((occupied bytes).map (bucketEntry k ps ko vo))
  | btree {a e lengthOff rootOff heightOff kt vt ks ws height : Nat} {nl : NodeLayout} {tree : BTree} :
      Is typedef db e (.btreeMap lengthOff rootOff 0 heightOff nl kt vt) →
      ¬ Ordinary typedef kt → ¬ Ordinary typedef vt → SizeIs typedef db kt ks → SizeIs typedef db vt ws → 0 < ks → 0 < ws →
      Stored m nl ks ws height tree → tree.addr ≠ 0 → m.HoldsNat (a + lengthOff) 8 tree.inorder.length →
      m.HoldsNat (a + rootOff) 8 tree.addr → m.HoldsNat (a + rootOff + heightOff) 8 height →
      a + lengthOff < u64Max1 → a + rootOff + heightOff < u64Max1 →
      Entries typedef db m a e kt vt (tree.inorder.map fun b => (b.1 + nl.keysOff + b.2 * ks, b.1 + nl.valsOff + b.2 * ws))

/-- Specification: where a place is, and the entry of its type, given a variable `v` at `a0` with the type of the entry `e0`. The places are those of which the code finds the parts: it looks into a value of
a type of the user's own, or into an array, only if that is the variable itself, and into elements only of types that are not the user's own. -/
inductive Place (typedef : Nat → Option Layout) (db : Db) (m : Mem) (lossy : List UInt8 → Str) (floatStr : Nat → Nat → Str) (v : Str) (a0 e0 : Nat) :
    Expr → (a e : Nat) → Prop
  /-- The variable. -/
  | var : Place typedef db m lossy floatStr v a0 e0 (.var v) a0 e0
  /-- `b.f`: at its offset. -/
  | field {b : Expr} {a e o t size align : Nat} {name f : Str} {fs : List (Str × Nat × Nat)} : Place typedef db m lossy floatStr v a0 e0 b a e →
      (Ordinary typedef e → b = .var v) → Is typedef db e (.struct name size align fs) → (f, o, t) ∈ fs → (fs.map (·.1)).Nodup → a + o < u64Max1 →
      Place typedef db m lossy floatStr v a0 e0 (.field b f) (a + o) t
  /-- `b[i]`: the element of a `Vec` or an array. -/
  | element {b : Expr} {a e i t s q : Nat} : Place typedef db m lossy floatStr v a0 e0 b a e → (Ordinary typedef e → b = .var v) →
      Element typedef db m a e i t s q → ¬ Ordinary typedef t → SizeIs typedef db t s →
      Place typedef db m lossy floatStr v a0 e0 (.index b (.num i)) q t
  /-- `b["key"]`: the value of the entry with this key; `contents` are the keys with the places of keys and values. No two keys are the same, none is empty or has a quotation mark at its ends. -/
  | entry {b : Expr} {a e kt vt ka va : Nat} {key : Str} {contents : List (Str × Nat × Nat)} : Place typedef db m lossy floatStr v a0 e0 b a e →
      Entries typedef db m a e kt vt (contents.map (·.2)) →
      (∀ c ∈ contents, Data.Plain c.1 ∧ c.1 ≠ lossy [] ∧ Holds typedef db m lossy floatStr 0 c.2.1 kt (.leaf (quoted c.1))) →
      (contents.map (·.1)).Nodup → (key, ka, va) ∈ contents →
      Place typedef db m lossy floatStr v a0 e0 (.index b (.str key)) va vt

section
variable {typedef : Nat → Option Layout} {db : Db} {m : Mem} {lossy : List UInt8 → Str} {floatStr : Nat → Nat → Str}

/-- What a value read is, if it is shown as a text. -/
theorem leaf_scalar {d s : Nat} {x : Value} {t : Str} (h : Shows typedef db m lossy floatStr d s 0 x (.leaf t)) : ∃ ty, x = .scalar ty t := by
  obtain ⟨hp, h⟩ := h
  obtain ⟨y, h1, h2⟩ := h 0 (by omega)
  cases h1
  cases x with
  | scalar ty t' => simp only [shown] at h2; cases h2; exact ⟨ty, rfl⟩
  | pointer => exact hp.elim
  | _ => simp [shown] at h2

theorem entries_kind {a e kt vt : Nat} {es : List (Nat × Nat)} (h : Entries typedef db m a e kt vt es) :
    ¬ Ordinary typedef e ∧ ∃ desc, Is typedef db e desc ∧ kt ∈ desc.parts ∧ vt ∈ desc.parts := by
  cases h with
  | hash hI =>
    refine ⟨?_, _, hI, by simp [Desc.parts], by simp [Desc.parts]⟩
    obtain ⟨⟨⟨_, _, _, _, _, _, _, _, h1⟩, _⟩, _⟩ := hI
    simp [Ordinary, h1]
  | btree hI =>
    refine ⟨?_, _, hI, by simp [Desc.parts], by simp [Desc.parts]⟩
    obtain ⟨⟨⟨_, _, _, _, _, _, _, h1⟩, _⟩, _⟩ := hI
    simp [Ordinary, h1]

/-- The map as it is read. -/
theorem entries_read (hw : WellFormed db) (hdec : Decodes db) {a e kt vt : Nat} {es : List (Nat × Nat)} (h : Entries typedef db m a e kt vt es) :
    ∃ N, ∀ d f td, N ≤ d → resolveType typedef db d e = .ok td ∨ shallow typedef db d e = .ok td → ∃ variant tn,
      td = .mk (some e) (.map variant (ty typedef db d kt) (ty typedef db d vt)) ∧
      readMem (target typedef db m lossy floatStr d) (f + 1) a td =
        .ok (.map tn (es.map fun x => (.pointer x.1 (ty typedef db d kt), .pointer x.2 (ty typedef db d vt)))) := by
  have ho := (entries_kind h).1
  cases h with
  | hash hI hm hc hi hl hb h1 h2 h3 h4 h5 h6 h7 =>
    obtain ⟨N, hN⟩ := types_at hw hdec hI
    refine ⟨N, fun d f td hd htd => ?_⟩
    rcases (hN d hd).2.2 td htd with rfl | ⟨ho', _⟩
    · have hr := C27_entries _ m (target_reads typedef db m lossy floatStr d) f a (some e) _ _ _ _ _ _ (ty typedef db d kt) (ty typedef db d vt) _ _ _
        h5 h6 h7 hm h1 hc hi hl hb h2 h3 h4
      exact ⟨_, _, rfl, hr.trans (by rw [List.map_map]; rfl)⟩
    · exact absurd ho' ho
  | btree hI hko hvo hks hvs hk0 hv0 hst h0 hlen hroot hheight h1 h2 =>
    obtain ⟨N, hN⟩ := types_at hw hdec hI
    obtain ⟨K, hK⟩ := (size_named hw hdec hko hks).and (size_named hw hdec hvo hvs)
    refine ⟨max N K, fun d f td hd htd => ?_⟩
    obtain ⟨hp, -, hcase⟩ := hN d (by omega)
    obtain ⟨hs1, hs2⟩ := hK d d d (by omega) (by omega) (by omega)
    rcases hcase td htd with rfl | ⟨ho', _⟩
    · have hr := C28_inorder_partial _ m (target_reads typedef db m lossy floatStr d) f a (some e) _ _ _ _ (ty typedef db d kt) (ty typedef db d vt) _ _
        (hs1 (hp _ (by simp [Desc.parts]))) (hs2 (hp _ (by simp [Desc.parts]))) hk0 hv0 _ _ hst h0 hlen hroot hheight h1 h2
      exact ⟨_, _, rfl, hr.trans (by rw [List.map_map]; rfl)⟩
    · exact absurd ho' ho

/-- Specification: where the variable is. -/
def RootAt {σ : Type} (W : World σ) (p : σ) (pc : Nat) (typedef : Nat → Option Layout) (db : Db) (depth : Nat) (v : Str) (a0 e0 : Nat) : Prop :=
  W.frame p = some pc ∧ ∃ td, resolveType typedef db depth e0 = .ok td ∧ W.variableAt p pc v = .ok (some (some (a0, td)))

/-- The code finds the place where it is, from any state of the evaluation, as that in which an argument of a call is evaluated. -/
theorem place_found_from (hw : WellFormed db) (hdec : Decodes db) {v : Str} {a0 e0 a e : Nat} {ex : Expr} (h : Place typedef db m lossy floatStr v a0 e0 ex a e) :
    ∃ N, ∀ (σ : Type) (W : World σ) (p : σ) (pc depth : Nat) (pc0 : Option Nat) (cs : List Server.Event), pc0 = none ∨ pc0 = some pc → N ≤ depth → N ≤ W.stack → RootAt W p pc typedef db depth v a0 e0 →
      Strict (W.target p) (target typedef db m lossy floatStr depth) →
      ∃ td, ((resolveType typedef db depth e = .ok td ∧ ex = .var v) ∨ shallow typedef db depth e = .ok td) ∧ toRef W ex ⟨pc0, cs, p⟩ = (.ok (a, td), ⟨some pc, cs, p⟩) := by
  induction h with
  | var =>
    refine ⟨0, fun σ W p pc depth pc0 cs hpc _ _ ⟨hf, td, htd, hv⟩ _ => ⟨td, .inl ⟨htd, rfl⟩, ?_⟩⟩
    rcases hpc with rfl | rfl <;> simp only [toRef, variableRef, Ev.bind, getPc, hf, Ev.reading, hv, Ev.lift]
  | @field b a e o t size align name f fs hb ho hI hf hnd ha ih =>
    obtain ⟨N, hN⟩ := ih
    obtain ⟨M, hM⟩ := types_at hw hdec hI
    refine ⟨max N M, fun σ W p pc depth pc0 cs hpc hd hs hr hT => ?_⟩
    obtain ⟨td, htd, href⟩ := hN σ W p pc depth pc0 cs hpc (by omega) (by omega) hr hT
    obtain ⟨hp, hre, _⟩ := hM depth (by omega)
    have hb' := ho hI.1.1
    subst hb'
    have htd' : td = full typedef db depth e (.struct name size align fs) := by
      cases hb
      obtain ⟨hfr, td', htd', hv⟩ := hr
      have : toRef W (.var v) ⟨pc0, cs, p⟩ = (.ok (a0, td'), ⟨some pc, cs, p⟩) := by
        rcases hpc with rfl | rfl <;> simp only [toRef, variableRef, Ev.bind, getPc, hfr, Ev.reading, hv, Ev.lift]
      rw [this] at href
      cases href
      rw [hre] at htd'
      cases htd'
      rfl
    subst htd'
    have hft := hp t (by simp only [Desc.parts]; exact List.mem_map_of_mem (f := fun x => x.2.2) hf)
    refine ⟨_, .inr hft, ?_⟩
    have hfind := find_field (ty typedef db depth) hf hnd
    rw [toRef, bind_ok href]
    simp only [Ev.lift, getStructField, full, TypeDef.layout, Desc.layout, toList_membersOf, hfind, Res.ofOption, Res.bind_ok, addU_ok ha]
  | @element b a e i t s q hb ho hel hto hsz ih =>
    obtain ⟨N, hN⟩ := ih
    obtain ⟨K, hK⟩ := size_named hw hdec hto hsz
    have key : ∀ desc : Desc, Is typedef db e desc → t ∈ desc.parts →
        (∀ d f T', Strict T' (target typedef db m lossy floatStr d) → shallow typedef db d t = .ok (ty typedef db d t) → (ty typedef db d t).size = .ok (some s) →
          indexSeq T' f a (full typedef db d e desc) i = .ok (q, ty typedef db d t)) →
        (∀ d, isMap (full typedef db d e desc) = false) →
        ∃ N, ∀ (σ : Type) (W : World σ) (p : σ) (pc depth : Nat) (pc0 : Option Nat) (cs : List Server.Event), pc0 = none ∨ pc0 = some pc → N ≤ depth → N ≤ W.stack → RootAt W p pc typedef db depth v a0 e0 →
          Strict (W.target p) (target typedef db m lossy floatStr depth) →
          ∃ td, ((resolveType typedef db depth t = .ok td ∧ (Expr.index b (.num i)) = .var v) ∨ shallow typedef db depth t = .ok td) ∧
            toRef W (.index b (.num i)) ⟨pc0, cs, p⟩ = (.ok (q, td), ⟨some pc, cs, p⟩) := by
      intro desc hI hmem hix hmap
      obtain ⟨M, hM⟩ := types_at hw hdec hI
      refine ⟨max N (max K M), fun σ W p pc depth pc0 cs hpc hd hs hr hT => ?_⟩
      obtain ⟨td, htd, href⟩ := hN σ W p pc depth pc0 cs hpc (by omega) (by omega) hr hT
      obtain ⟨hp, hre, hcase⟩ := hM depth (by omega)
      have hft := hp t hmem
      have hes := hK depth depth depth (by omega) (by omega) (by omega) hft
      have htd' : td = full typedef db depth e desc := by
        rcases htd with ⟨htd, -⟩ | htd
        · rw [hre] at htd; cases htd; rfl
        · rcases hcase td (.inr htd) with h | ⟨ho', -⟩
          · exact h
          · have := ho ho'
            subst this
            cases hb
            obtain ⟨hfr, td', htd', hv⟩ := hr
            have : toRef W (.var v) ⟨pc0, cs, p⟩ = (.ok (a0, td'), ⟨some pc, cs, p⟩) := by
              rcases hpc with rfl | rfl <;> simp only [toRef, variableRef, Ev.bind, getPc, hfr, Ev.reading, hv, Ev.lift]
            rw [this] at href
            cases href
            rw [hre] at htd'
            cases htd'
            rfl
      subst htd'
      refine ⟨_, .inr hft, ?_⟩
      rw [toRef, bind_ok href, indexRef, hmap]
      simp only [Bool.false_eq_true, if_false, toInt, Ev.bind, Ev.lift, Ev.reading, hix depth W.stack _ hT hft hes]
    cases hel with
    | vec hI hl hq hi h1 h2 h3 =>
      refine key _ hI (by simp [Desc.parts]) ?_ (fun d => rfl)
      intro d f T' hT hsh hes
      have hR := target_reads typedef db m lossy floatStr d
      simp only [indexSeq, full, TypeDef.layout, Desc.layout, hT.vecInfo]
      simp only [vecInfo, addU_ok h1, addU_ok h2, Res.bind_ok, readLen_eq hR, readAddress_eq hR,
        (readNat_ok hR _ _ _).2 hl, (readNat_ok hR _ _ _).2 hq]
      rw [if_neg (by omega)]
      exact elementAt_ok _ _ _ _ hes h3
    | array hI hi h3 =>
      refine key _ hI (by simp [Desc.parts]) ?_ (fun d => rfl)
      intro d f T' hT hsh hes
      simp only [indexSeq, full, TypeDef.layout, Desc.layout]
      rw [if_neg (by omega)]
      exact elementAt_ok _ _ _ _ hes h3
  | @entry b a e kt vt ka va key contents hb hes hk hnd hmem ih =>
    obtain ⟨N, hN⟩ := ih
    obtain ⟨M, hM⟩ := entries_read (lossy := lossy) (floatStr := floatStr) hw hdec hes
    obtain ⟨-, desc, hI, hkt, hvt⟩ := entries_kind hes
    obtain ⟨K, hK⟩ := types_at hw hdec hI
    obtain ⟨J, hJ⟩ := list_bound contents (fun c d => ∀ f, d ≤ f → ∀ td, shallow typedef db f kt = .ok td → ∀ s, d ≤ s → ∃ sty,
        readMem (target typedef db m lossy floatStr f) s c.2.1 td = .ok (.scalar sty (quoted c.1))) (by
      intro c hc
      obtain ⟨J, hJ⟩ := holds_core hw hdec (hk c hc).2.2
      refine ⟨J, fun d hd f hf td htd s hs => ?_⟩
      obtain ⟨x, h1, h2⟩ := hJ f s s (by omega) (by omega) (by omega) td (.inr htd)
      obtain ⟨sty, rfl⟩ := leaf_scalar h2
      exact ⟨sty, h1⟩)
    refine ⟨max (max N M) (max (K + 1) (J + 1)), fun σ W p pc depth pc0 cs hpc hd hs hr hT => ?_⟩
    obtain ⟨td, htd, href⟩ := hN σ W p pc depth pc0 cs hpc (by omega) (by omega) hr hT
    obtain ⟨variant, tn, htd', hread⟩ := hM depth 0 td (by omega) (htd.imp (·.1) id)
    subst htd'
    obtain ⟨hp, -, -⟩ := hK depth (by omega)
    refine ⟨_, .inr (hp vt hvt), ?_⟩
    have hR := target_reads typedef db m lossy floatStr depth
    have hread' := readMem_strict hT hR _ _ _ _ hread (by intro ty h; cases h)
    have hkey : ∀ c ∈ contents, Data.Plain c.1 ∧ ∃ sty, readMem (W.target p) W.stack c.2.1 (ty typedef db depth kt) = .ok (.scalar sty (quoted c.1)) ∨
        readMem (W.target p) W.stack c.2.1 (ty typedef db depth kt) = .ok (.scalar sty c.1) := by
      intro c hc
      obtain ⟨sty, hx⟩ := hJ J (Nat.le_refl _) c hc depth (by omega) _ (hp kt hkt) W.stack (by omega)
      refine ⟨(hk c hc).1, sty, .inl (readMem_strict hT hR _ _ _ _ hx ?_)⟩
      intro ty' h
      have h' := (Value.scalar.inj h).2
      simp only [quoted, List.cons.injEq, true_and, List.append_left_inj] at h'
      exact (hk c hc).2.1 h'
    have hix := C30_text_keys_partial (W.target p) W.stack 0 a (some e) variant (ty typedef db depth kt) (ty typedef db depth vt) tn (chars! "String") contents key
      (by rw [hread', List.map_map]; rfl) hkey (hk _ hmem).1
    have hfind : contents.find? (fun c => c.1 == key) = some (key, ka, va) := by
      clear hix hkey hread' hread hJ hk hes hM
      induction contents with
      | nil => cases hmem
      | cons c cs ih' =>
        rw [List.map_cons, List.nodup_cons] at hnd
        rcases List.mem_cons.1 hmem with rfl | hmem
        · simp
        · have : c.1 ≠ key := fun h => hnd.1 (h ▸ List.mem_map_of_mem (f := (·.1)) hmem)
          rw [List.find?_cons_of_neg (by simpa using this)]
          exact ih' hnd.2 hmem
    rw [hfind] at hix
    have hmap : isMap (.mk (some e) (.map variant (ty typedef db depth kt) (ty typedef db depth vt))) = true := rfl
    rw [toRef, bind_ok href, indexRef, hmap]
    simp only [if_true, toStr, Ev.bind, Ev.lift, Ev.reading, hix]

/-- The code finds the place where it is. -/
theorem place_found (hw : WellFormed db) (hdec : Decodes db) {v : Str} {a0 e0 a e : Nat} {ex : Expr} (h : Place typedef db m lossy floatStr v a0 e0 ex a e) :
    ∃ N, ∀ (σ : Type) (W : World σ) (p : σ) (pc depth : Nat), N ≤ depth → N ≤ W.stack → RootAt W p pc typedef db depth v a0 e0 →
      Strict (W.target p) (target typedef db m lossy floatStr depth) →
      ∃ td, ((resolveType typedef db depth e = .ok td ∧ ex = .var v) ∨ shallow typedef db depth e = .ok td) ∧ toRef W ex (St.new p) = (.ok (a, td), ⟨some pc, [], p⟩) := by
  obtain ⟨N, hN⟩ := place_found_from hw hdec h
  exact ⟨N, fun σ W p pc depth hd hs hr hT => hN σ W p pc depth none [] (.inl rfl) hd hs hr hT⟩

/-- The name of the type of a place, whether it is known in full or by name only. -/
theorem called_place (hw : WellFormed db) (hdec : Decodes db) {render : List TypeNames.Tok → Str} {e : Nat} {name : Str} (h : Called typedef db render e name) :
    ∃ N, ∀ d, N ≤ d → ∀ td, resolveType typedef db d e = .ok td ∨ shallow typedef db d e = .ok td → td.displayName = name := by
  obtain ⟨N, hN⟩ := called_ok hw hdec h
  have user : ∀ {desc : Desc}, Is typedef db e desc → Ordinary typedef e → Named db e name →
      ∃ N, ∀ d, N ≤ d → ∀ td, shallow typedef db d e = .ok td → td.displayName = name := by
    intro desc hI ho hn
    refine ⟨1, fun d hd td htd => ?_⟩
    obtain ⟨d, rfl⟩ : ∃ k, d = k + 1 := ⟨d - 1, by omega⟩
    simp only [shallow, builtin_ordinary ho, Res.bind_ok, (dieName_ok db e name).2 hn, Res.ok.injEq] at htd
    rw [← htd]; rfl
  obtain ⟨M, hM⟩ : ∃ M, ∀ d, M ≤ d → ∀ td, shallow typedef db d e = .ok td → td.displayName = name := by
    cases h with
    | known hE hg ho =>
      obtain ⟨N, hN⟩ := TypeText.C85_named_as_in_rust_partial (render := render) hw hdec hE hg
      refine ⟨N, fun d hd td htd => ?_⟩
      obtain ⟨td', h1, h2, _⟩ := hN d hd
      rw [h1] at htd; cases htd; exact h2
    | struct hI => exact user hI hI.1.1 hI.1.2.2.1
    | enum hI =>
      obtain ⟨part, cs, hE, -⟩ := hI.1.2.2
      exact user hI hI.1.1 hE.1
    | cenum hI => exact user hI hI.1.1 hI.1.2.2.1
  refine ⟨max N M, fun d hd td htd => ?_⟩
  rcases htd with h | h
  · exact hN d (by omega) td h
  · exact hM d (by omega) td h

end
end Rudy.Shown
