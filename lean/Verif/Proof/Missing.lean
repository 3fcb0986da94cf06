import Verif.Proof.Places
/-
Parts that a value does not have. Used for C101.
-/
set_option linter.unusedSimpArgs false
namespace Rudy.Shown
open Rudy Rudy.Dwarf Rudy.Parse Rudy.Layout Rudy.Data Rudy.TypeRes Rudy.Eval
open Rudy.Expr (Expr)

/-- Specification: the values of this type have no field `f`: it is a struct without it, or no struct. -/
def NoField (f : Str) : Desc → Prop
  | .struct _ _ _ fs => f ∉ fs.map (·.1)
  | _ => True

/-- Specification: the values of this type have no elements with numbers. -/
def NoElements : Desc → Prop
  | .vec .. | .slice .. | .array .. | .hashMap .. | .btreeMap .. => False
  | _ => True

/-- Specification: the type is a map. -/
def IsMapDesc : Desc → Prop
  | .hashMap .. | .btreeMap .. => True
  | _ => False

/-- Specification: the expression names a part that is not there, given a variable `v` at `a0` with the type of the entry `e0`. -/
inductive Missing (typedef : Nat → Option Layout) (db : Db) (m : Mem) (lossy : List UInt8 → Str) (floatStr : Nat → Nat → Str) (v : Str) (a0 e0 : Nat) : Expr → Prop
  /-- `b.f`, where `b` has no such field. -/
  | field {b : Expr} {a e : Nat} {f : Str} {desc : Desc} : Place typedef db m lossy floatStr v a0 e0 b a e → Is typedef db e desc → NoField f desc →
      Missing typedef db m lossy floatStr v a0 e0 (.field b f)
  /-- `b[i]` beyond the length of a `Vec`. -/
  | vec {b : Expr} {a e lenOff dataOff capOff t len q i : Nat} : Place typedef db m lossy floatStr v a0 e0 b a e → Is typedef db e (.vec lenOff dataOff capOff t) →
      m.HoldsNat (a + lenOff) 8 len → m.HoldsNat (a + dataOff) 8 q → a + lenOff < u64Max1 → a + dataOff < u64Max1 → len ≤ i →
      Missing typedef db m lossy floatStr v a0 e0 (.index b (.num i))
  /-- `b[i]` beyond the length of an array. -/
  | array {b : Expr} {a e t len i : Nat} : Place typedef db m lossy floatStr v a0 e0 b a e → Is typedef db e (.array t len) → len ≤ i →
      Missing typedef db m lossy floatStr v a0 e0 (.index b (.num i))
  /-- `b[i]`, where `b` has no elements. -/
  | element {b : Expr} {a e i : Nat} {desc : Desc} : Place typedef db m lossy floatStr v a0 e0 b a e → Is typedef db e desc → NoElements desc →
      Missing typedef db m lossy floatStr v a0 e0 (.index b (.num i))
  /-- `b["key"]`, where `b` is a map with text keys, but none of them is `key`. -/
  | entry {b : Expr} {a e kt vt : Nat} {key : Str} {contents : List (Str × Nat × Nat)} : Place typedef db m lossy floatStr v a0 e0 b a e →
      Entries typedef db m a e kt vt (contents.map (·.2)) →
      (∀ c ∈ contents, Data.Plain c.1 ∧ c.1 ≠ lossy [] ∧ Holds typedef db m lossy floatStr 0 c.2.1 kt (.leaf (quoted c.1))) →
      Data.Plain key → key ∉ contents.map (·.1) →
      Missing typedef db m lossy floatStr v a0 e0 (.index b (.str key))
  /-- `b["key"]`, where `b` is no map. -/
  | key {b : Expr} {a e : Nat} {key : Str} {desc : Desc} : Place typedef db m lossy floatStr v a0 e0 b a e → Is typedef db e desc → ¬ IsMapDesc desc →
      Missing typedef db m lossy floatStr v a0 e0 (.index b (.str key))
  /-- A part of what is not there. -/
  | inField {b : Expr} {f : Str} : Missing typedef db m lossy floatStr v a0 e0 b → Missing typedef db m lossy floatStr v a0 e0 (.field b f)
  | inElement {b i : Expr} : Missing typedef db m lossy floatStr v a0 e0 b → Missing typedef db m lossy floatStr v a0 e0 (.index b i)

section
variable {typedef : Nat → Option Layout} {db : Db} {m : Mem} {lossy : List UInt8 → Str} {floatStr : Nat → Nat → Str}

theorem bind_err' {σ α β : Type} {x : Ev σ α} {f : α → Ev σ β} {s s' : St σ} (h : x s = (.err, s')) : Ev.bind x f s = (.err, s') := by
  simp only [Ev.bind, h]

/-- What has no place is not shown. -/
theorem evaluate_no_place {σ : Type} (W : World σ) {b : Expr} {st st' : St σ} :
    (∀ f, toRef W (.field b f) st = (.err, st') → evaluate W (.field b f) st = (.err, st')) ∧
    ∀ i, toRef W (.index b i) st = (.err, st') → evaluate W (.index b i) st = (.err, st') := by
  constructor
  · intro f h
    simp only [toRef, Ev.bind] at h
    simp only [evaluate, Ev.bind]
    rcases hx : toRef W b st with ⟨_ | _ | _, s⟩ <;> simp only [hx] at h ⊢
    · rw [h]
    · exact congrArg _ (Prod.mk.inj h).2
    · cases h
  · intro i h
    simp only [toRef, Ev.bind] at h
    simp only [evaluate, Ev.bind]
    rcases hx : toRef W b st with ⟨_ | _ | _, s⟩ <;> simp only [hx] at h ⊢
    · rw [h]
    · exact congrArg _ (Prod.mk.inj h).2
    · cases h

/-- The code does not find what is not there. -/
theorem missing_ref (hw : WellFormed db) (hdec : Decodes db) {v : Str} {a0 e0 : Nat} {ex : Expr} (h : Missing typedef db m lossy floatStr v a0 e0 ex) :
    ∃ N, ∀ (σ : Type) (W : World σ) (p : σ) (pc depth : Nat), N ≤ depth → N ≤ W.stack → RootAt W p pc typedef db depth v a0 e0 →
      Strict (W.target p) (target typedef db m lossy floatStr depth) → toRef W ex (St.new p) = (.err, ⟨some pc, [], p⟩) := by
  have base : ∀ {b : Expr} {a e : Nat} {desc : Desc}, Place typedef db m lossy floatStr v a0 e0 b a e → Is typedef db e desc →
      ∃ N, ∀ (σ : Type) (W : World σ) (p : σ) (pc depth : Nat), N ≤ depth → N ≤ W.stack → RootAt W p pc typedef db depth v a0 e0 →
        Strict (W.target p) (target typedef db m lossy floatStr depth) →
        ∃ td, (td = full typedef db depth e desc ∨ ∃ nm, td = .mk (some e) (.alias nm)) ∧ toRef W b (St.new p) = (.ok (a, td), ⟨some pc, [], p⟩) := by
    intro b a e desc hb hI
    obtain ⟨N, hN⟩ := place_found hw hdec hb
    obtain ⟨M, hM⟩ := types_at hw hdec hI
    refine ⟨max N M, fun σ W p pc depth hd hs hr hT => ?_⟩
    obtain ⟨td, htd, href⟩ := hN σ W p pc depth (by omega) (by omega) hr hT
    obtain ⟨-, -, hcase⟩ := hM depth (by omega)
    exact ⟨td, (hcase td (htd.imp (·.1) id)).imp id (·.2), href⟩
  induction h with
  | @field b a e f desc hb hI hno =>
    obtain ⟨N, hN⟩ := base hb hI
    refine ⟨N, fun σ W p pc depth hd hs hr hT => ?_⟩
    obtain ⟨td, htd, href⟩ := hN σ W p pc depth hd hs hr hT
    rw [toRef, bind_ok href]
    rcases htd with rfl | ⟨nm, rfl⟩
    · cases desc with
      | struct name size align fs =>
        have : (fs.map fun x => (x.1, x.2.1, ty typedef db depth x.2.2)).find? (fun x => x.1 == f) = none := by
          rw [List.find?_eq_none]
          rintro x hx
          obtain ⟨y, hy, rfl⟩ := List.mem_map.1 hx
          simp only [beq_iff_eq]
          rintro rfl
          exact hno (List.mem_map_of_mem (f := (·.1)) hy)
        simp only [Ev.lift, getStructField, full, TypeDef.layout, Desc.layout, toList_membersOf, this, Res.ofOption]
        rfl
      | plain l =>
        have hpl := hI.1.2
        cases l <;> first | rfl | exact hpl.elim
      | _ => rfl
    · rfl
  | @vec b a e lenOff dataOff capOff t len q i hb hI hl hq h1 h2 hi =>
    obtain ⟨N, hN⟩ := base hb hI
    refine ⟨N, fun σ W p pc depth hd hs hr hT => ?_⟩
    obtain ⟨td, htd, href⟩ := hN σ W p pc depth hd hs hr hT
    rw [toRef, bind_ok href, indexRef]
    rcases htd with rfl | ⟨nm, rfl⟩
    · have hR := target_reads typedef db m lossy floatStr depth
      have : indexSeq (W.target p) W.stack a (full typedef db depth e (.vec lenOff dataOff capOff t)) i = .err := by
        simp only [indexSeq, full, TypeDef.layout, Desc.layout, hT.vecInfo]
        simp only [vecInfo, addU_ok h1, addU_ok h2, Res.bind_ok, readLen_eq hR, readAddress_eq hR, (readNat_ok hR _ _ _).2 hl, (readNat_ok hR _ _ _).2 hq]
        rw [if_pos (by omega)]
      have hmap : isMap (full typedef db depth e (.vec lenOff dataOff capOff t)) = false := rfl
      simp only [hmap, Bool.false_eq_true, if_false, toInt, Ev.bind, Ev.lift, Ev.reading, this]
    · rfl
  | @array b a e t len i hb hI hi =>
    obtain ⟨N, hN⟩ := base hb hI
    refine ⟨N, fun σ W p pc depth hd hs hr hT => ?_⟩
    obtain ⟨td, htd, href⟩ := hN σ W p pc depth hd hs hr hT
    rw [toRef, bind_ok href, indexRef]
    rcases htd with rfl | ⟨nm, rfl⟩
    · have : indexSeq (W.target p) W.stack a (full typedef db depth e (.array t len)) i = .err := by
        simp only [indexSeq, full, TypeDef.layout, Desc.layout]
        rw [if_pos (by omega)]
      have hmap : isMap (full typedef db depth e (.array t len)) = false := rfl
      simp only [hmap, Bool.false_eq_true, if_false, toInt, Ev.bind, Ev.lift, Ev.reading, this]
    · rfl
  | @element b a e i desc hb hI hno =>
    obtain ⟨N, hN⟩ := base hb hI
    refine ⟨N, fun σ W p pc depth hd hs hr hT => ?_⟩
    obtain ⟨td, htd, href⟩ := hN σ W p pc depth hd hs hr hT
    rw [toRef, bind_ok href, indexRef]
    rcases htd with rfl | ⟨nm, rfl⟩
    · cases desc with
      | plain l =>
        have hpl := hI.1.2
        cases l <;> first | rfl | exact hpl.elim
      | vec => exact hno.elim
      | slice => exact hno.elim
      | array => exact hno.elim
      | hashMap => exact hno.elim
      | btreeMap => exact hno.elim
      | _ => rfl
    · rfl
  | @entry b a e kt vt key contents hb hes hk hpl hno =>
    obtain ⟨N, hN⟩ := place_found hw hdec hb
    obtain ⟨M, hM⟩ := entries_read (lossy := lossy) (floatStr := floatStr) hw hdec hes
    obtain ⟨-, desc, hI, hkt, hvt⟩ := entries_kind hes
    obtain ⟨K, hK⟩ := types_at hw hdec hI
    obtain ⟨J, hJ⟩ := list_bound contents (fun c d => ∀ f, d ≤ f → ∀ td, shallow typedef db f kt = .ok td → ∀ s, d ≤ s → ∃ sty,
        readMem (target typedef db m lossy floatStr f) s c.2.1 td = .ok (.scalar sty (quoted c.1))) (by
      intro c hc
      obtain ⟨J, hJ⟩ := holds_core hw hdec (hk c hc).2.2
      refine ⟨J, fun d hd f hf td htd s hs => ?_⟩
      obtain ⟨x, h1, h2⟩ := hJ f s s (by omega) (by omega) (by omega) td (.inr htd)
      obtain ⟨sty, rfl⟩ := leaf_scalar h2
      exact ⟨sty, h1⟩)
    refine ⟨max (max N M) (max (K + 1) (J + 1)), fun σ W p pc depth hd hs hr hT => ?_⟩
    obtain ⟨td, htd, href⟩ := hN σ W p pc depth (by omega) (by omega) hr hT
    obtain ⟨variant, tn, htd', hread⟩ := hM depth 0 td (by omega) (htd.imp (·.1) id)
    subst htd'
    obtain ⟨hp, -, -⟩ := hK depth (by omega)
    have hR := target_reads typedef db m lossy floatStr depth
    have hread' := readMem_strict hT hR _ _ _ _ hread (by intro ty h; cases h)
    have hkey : ∀ c ∈ contents, Data.Plain c.1 ∧ ∃ sty, readMem (W.target p) W.stack c.2.1 (ty typedef db depth kt) = .ok (.scalar sty (quoted c.1)) ∨
        readMem (W.target p) W.stack c.2.1 (ty typedef db depth kt) = .ok (.scalar sty c.1) := by
      intro c hc
      obtain ⟨sty, hx⟩ := hJ J (Nat.le_refl _) c hc depth (by omega) _ (hp kt hkt) W.stack (by omega)
      refine ⟨(hk c hc).1, sty, .inl (readMem_strict hT hR _ _ _ _ hx ?_)⟩
      intro ty' h
      have h' := (Value.scalar.inj h).2
      simp only [quoted, List.cons.injEq, true_and, List.append_left_inj] at h'
      exact (hk c hc).2.1 h'
    have hix := C30_text_keys_partial (W.target p) W.stack 0 a (some e) variant (ty typedef db depth kt) (ty typedef db depth vt) tn (chars! "String") contents key
      (by rw [hread', List.map_map]; rfl) hkey hpl
    have hfind : contents.find? (fun c => c.1 == key) = none := by
      rw [List.find?_eq_none]
      intro c hc
      simp only [beq_iff_eq]
      rintro rfl
      exact hno (List.mem_map_of_mem (f := (·.1)) hc)
    rw [hfind] at hix
    have hmap : isMap (.mk (some e) (.map variant (ty typedef db depth kt) (ty typedef db depth vt))) = true := rfl
    rw [toRef, bind_ok href, indexRef, hmap]
    simp only [if_true, toStr, Ev.bind, Ev.lift, Ev.reading, hix]
  | @key b a e key desc hb hI hno =>
    obtain ⟨N, hN⟩ := base hb hI
    refine ⟨N, fun σ W p pc depth hd hs hr hT => ?_⟩
    obtain ⟨td, htd, href⟩ := hN σ W p pc depth hd hs hr hT
    rw [toRef, bind_ok href, indexRef]
    rcases htd with rfl | ⟨nm, rfl⟩
    · cases desc with
      | plain l =>
        have hpl := hI.1.2
        cases l <;> first | rfl | exact hpl.elim
      | hashMap => exact (hno trivial).elim
      | btreeMap => exact (hno trivial).elim
      | _ => rfl
    · rfl
  | @inField b f hb ih =>
    obtain ⟨N, hN⟩ := ih
    refine ⟨N, fun σ W p pc depth hd hs hr hT => ?_⟩
    rw [toRef, bind_err' (hN σ W p pc depth hd hs hr hT)]
  | @inElement b i hb ih =>
    obtain ⟨N, hN⟩ := ih
    refine ⟨N, fun σ W p pc depth hd hs hr hT => ?_⟩
    rw [toRef, bind_err' (hN σ W p pc depth hd hs hr hT)]

/-- What is not there is an error. -/
theorem missing_error (hw : WellFormed db) (hdec : Decodes db) {v : Str} {a0 e0 : Nat} {ex : Expr} (h : Missing typedef db m lossy floatStr v a0 e0 ex) :
    ∃ N, ∀ (σ : Type) (W : World σ) (p : σ) (pc depth : Nat), N ≤ depth → N ≤ W.stack → RootAt W p pc typedef db depth v a0 e0 →
      Strict (W.target p) (target typedef db m lossy floatStr depth) → evaluate W ex (St.new p) = (.err, ⟨some pc, [], p⟩) := by
  obtain ⟨N, hN⟩ := missing_ref hw hdec h
  refine ⟨N, fun σ W p pc depth hd hs hr hT => ?_⟩
  have := hN σ W p pc depth hd hs hr hT
  cases h with
  | field | inField => exact (evaluate_no_place W).1 _ this
  | vec | array | element | entry | key | inElement => exact (evaluate_no_place W).2 _ this

end

end Rudy.Shown
