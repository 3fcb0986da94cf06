import Verif.Props.ImageRich
import Verif.Props.ImageInside
/-
C107: what the methods answer agrees with what is shown.
-/
namespace Rudy.Image
open Rudy Rudy.Dwarf Rudy.Walker Rudy.Layout Rudy.Data Rudy.Resolve Rudy.Declared Rudy.Entries Rudy.Modules Rudy.TypeNames Rudy.FnIndex Rudy.Shown Rudy.Whole Rudy.Listing
open Rudy.TypeRes (shallow resolveType Ordinary)
open Rudy.Expr (Expr)

/-- Specification: what a method says of a value of a type described by `desc` that is shown as `val`. A slice has its length behind its pointer. -/
inductive Says : (desc : Desc) → (val : RVal) → (name value type : Str) → Prop
  /-- `len()` is how many elements are shown. -/
  | vecLen {l d c t : Nat} {vs : List RVal} : Says (.vec l d c t) (.seq vs) (chars! "len") (numText vs.length) (chars! "usize")
  | sliceLen {d t : Nat} {vs : List RVal} : Says (.slice d 8 t) (.seq vs) (chars! "len") (numText vs.length) (chars! "usize")
  | arrayLen {t n : Nat} {vs : List RVal} : Says (.array t n) (.seq vs) (chars! "len") (numText vs.length) (chars! "usize")
  /-- `is_empty()` is whether `[]` is shown. -/
  | vecEmpty {l d c t : Nat} {vs : List RVal} : Says (.vec l d c t) (.seq vs) (chars! "is_empty") (boolText vs.isEmpty) (chars! "bool")
  | sliceEmpty {d t : Nat} {vs : List RVal} : Says (.slice d 8 t) (.seq vs) (chars! "is_empty") (boolText vs.isEmpty) (chars! "bool")
  /-- An option that is not shown as `None` is `Some`. -/
  | isSome {name : Str} {disc : Disc} {o t s : Nat} {val : RVal} : val ≠ .leaf (chars! "None") → Says (.option name disc o t s) val (chars! "is_some") (chars! "true") (chars! "bool")
  | isNone {name : Str} {disc : Disc} {o t s : Nat} {val : RVal} : val ≠ .leaf (chars! "None") → Says (.option name disc o t s) val (chars! "is_none") (chars! "false") (chars! "bool")

section
variable {typedef : Nat → Option Layout} {db : Parse.Db} {m : Mem} {lossy : List UInt8 → Str} {floatStr : Nat → Nat → Str}

/-- The description that a value was shown by is the one of its type. -/
theorem holds_returns (hw : TypeRes.WellFormed db) (hdec : TypeRes.Decodes db) {n a e : Nat} {desc : Desc} {val : RVal} {name value type : Str}
    (h : Holds typedef db m lossy floatStr n a e val) (hI : Is typedef db e desc) (hA : Says desc val name value type) :
    ∃ desc', Is typedef db e desc' ∧ Tagged db e desc' ∧ Returns m a desc' name value type := by
  have kill : ∀ {d' : Desc}, Is typedef db e d' → (∀ T, d'.layout T ≠ desc.layout T) → ∃ desc', Is typedef db e desc' ∧ Tagged db e desc' ∧ Returns m a desc' name value type :=
    fun h1 hne => (not_layout hw hdec h1 hI hne).elim
  cases hA with
  | vecLen =>
    rename_i l d c t vs
    generalize hx : RVal.seq vs = x at h
    cases h with
    | vec h1 h2 h3 h4 h5 h6 =>
      cases hx
      exact ⟨_, h1, trivial, .vecLen h3 h6⟩
    | slice h1 | array h1 | reference h1 | pointer h1 | box h1 | some h1 => exact kill h1 (by intro T; simp [Desc.layout])
    | shared _ h1 | cell _ h1 => exact kill h1 (by intro T; simp [Desc.layout])
    | _ => cases hx
  | vecEmpty =>
    rename_i l d c t vs
    generalize hx : RVal.seq vs = x at h
    cases h with
    | vec h1 h2 h3 h4 h5 h6 =>
      cases hx
      have : boolText vs.isEmpty = boolText (decide (vs.length = 0)) := by cases vs <;> rfl
      rw [this]
      exact ⟨_, h1, trivial, .vecEmpty h3 h6⟩
    | slice h1 | array h1 | reference h1 | pointer h1 | box h1 | some h1 => exact kill h1 (by intro T; simp [Desc.layout])
    | shared _ h1 | cell _ h1 => exact kill h1 (by intro T; simp [Desc.layout])
    | _ => cases hx
  | sliceLen =>
    rename_i d t vs
    generalize hx : RVal.seq vs = x at h
    cases h with
    | slice h1 h2 h3 h4 h5 h6 =>
      cases hx
      obtain ⟨N, hN⟩ := is_layout hw hdec h1 hI
      have hl := hN N (Nat.le_refl _)
      simp only [Desc.layout] at hl
      simp only [Layout.slice.injEq] at hl
      have hl := hl.2.2
      subst hl
      exact ⟨_, h1, trivial, .sliceLen h3 h6⟩
    | vec h1 | array h1 | reference h1 | pointer h1 | box h1 | some h1 => exact kill h1 (by intro T; simp [Desc.layout])
    | shared _ h1 | cell _ h1 => exact kill h1 (by intro T; simp [Desc.layout])
    | _ => cases hx
  | sliceEmpty =>
    rename_i d t vs
    generalize hx : RVal.seq vs = x at h
    cases h with
    | slice h1 h2 h3 h4 h5 h6 =>
      cases hx
      obtain ⟨N, hN⟩ := is_layout hw hdec h1 hI
      have hl := hN N (Nat.le_refl _)
      simp only [Desc.layout] at hl
      simp only [Layout.slice.injEq] at hl
      have hl := hl.2.2
      subst hl
      have : boolText vs.isEmpty = boolText (decide (vs.length = 0)) := by cases vs <;> rfl
      rw [this]
      exact ⟨_, h1, trivial, .sliceEmpty h3 h6⟩
    | vec h1 | array h1 | reference h1 | pointer h1 | box h1 | some h1 => exact kill h1 (by intro T; simp [Desc.layout])
    | shared _ h1 | cell _ h1 => exact kill h1 (by intro T; simp [Desc.layout])
    | _ => cases hx
  | arrayLen =>
    rename_i t n vs
    generalize hx : RVal.seq vs = x at h
    cases h with
    | array h1 =>
      cases hx
      exact ⟨_, h1, trivial, .arrayLen⟩
    | vec h1 | slice h1 | reference h1 | pointer h1 | box h1 | some h1 => exact kill h1 (by intro T; simp [Desc.layout])
    | shared _ h1 | cell _ h1 => exact kill h1 (by intro T; simp [Desc.layout])
    | _ => cases hx
  | isSome hv =>
    cases h with
    | none => exact absurd rfl hv
    | some h1 h2 h3 h4 h5 h6 h7 h8 =>
      rename_i off t size d name disc v
      have hd : boolText (decide (d ≠ 0)) = chars! "true" := by
        have : d ≠ 0 := by rintro rfl; simp at h5
        simp only [this, ne_eq, not_false_eq_true, decide_true, decide_false, boolText]
        decide
      exact ⟨_, h1, h2, hd ▸ .isSome h3 h4 h6⟩
    | shared _ h1 | cell _ h1 => exact kill h1 (by intro T; simp [Desc.layout])
    | plain h1 hp => exact kill h1 (by intro T h; simp only [Desc.layout] at h; subst h; have := h1.1.2; simp [Shown.Plain] at this)
    | string h1 | str h1 | vec h1 | slice h1 | array h1 | reference h1 | pointer h1 | box h1 | struct h1 | hashMap h1 | btreeMap h1 | btreeEmpty h1 | unitVariant h1 | recordVariant h1 | tupleVariant h1 | cenum h1 =>
      exact kill h1 (by intro T; simp [Desc.layout])
  | isNone hv =>
    cases h with
    | none => exact absurd rfl hv
    | some h1 h2 h3 h4 h5 h6 h7 h8 =>
      rename_i off t size d name disc v
      have hd : boolText (decide (d = 0)) = chars! "false" := by
        have : d ≠ 0 := by rintro rfl; simp at h5
        simp only [this, ne_eq, not_false_eq_true, decide_true, decide_false, boolText]
        decide
      exact ⟨_, h1, h2, hd ▸ .isNone h3 h4 h6⟩
    | shared _ h1 | cell _ h1 => exact kill h1 (by intro T; simp [Desc.layout])
    | plain h1 hp => exact kill h1 (by intro T h; simp only [Desc.layout] at h; subst h; have := h1.1.2; simp [Shown.Plain] at this)
    | string h1 | str h1 | vec h1 | slice h1 | array h1 | reference h1 | pointer h1 | box h1 | struct h1 | hashMap h1 | btreeMap h1 | btreeEmpty h1 | unitVariant h1 | recordVariant h1 | tupleVariant h1 | cenum h1 =>
      exact kill h1 (by intro T; simp [Desc.layout])

/-- A text is the bytes that memory holds for it, and `len` is how many. -/
theorem holds_text (hw : TypeRes.WellFormed db) (hdec : TypeRes.Decodes db) {n a e : Nat} {desc : Desc} {val : RVal} (h : Holds typedef db m lossy floatStr n a e val)
    (hI : Is typedef db e desc) (hd : (∃ l d c t, desc = .string l d c t) ∨ ∃ d, desc = .str d 8) :
    ∃ p bs, m.HoldsBytes p bs ∧ val = .leaf (quoted (lossy bs)) ∧
      ∃ desc', Is typedef db e desc' ∧ Tagged db e desc' ∧ Returns m a desc' (chars! "len") (numText bs.length) (chars! "usize") := by
  have no : ∀ {d' : Desc}, Is typedef db e d' → (∀ T, (∀ l d c t, d'.layout T ≠ Desc.layout T (.string l d c t)) ∧ ∀ d, d'.layout T ≠ Desc.layout T (.str d 8)) → False := by
    intro d' h1 hne
    rcases hd with ⟨l, d, c, t, rfl⟩ | ⟨d, rfl⟩
    · exact not_layout hw hdec h1 hI fun T => (hne T).1 _ _ _ _
    · exact not_layout hw hdec h1 hI fun T => (hne T).2 _
  cases h with
  | string h1 h2 h3 h4 h5 => exact ⟨_, _, h4, rfl, _, h1, trivial, .stringLen h2 h5⟩
  | str h1 h2 h3 h4 h5 =>
    rcases hd with ⟨l, d, c, t, rfl⟩ | ⟨d, rfl⟩
    · exact (not_layout hw hdec h1 hI fun T => by simp [Desc.layout]).elim
    · obtain ⟨N, hN⟩ := is_layout hw hdec h1 hI
      have hl := hN N (Nat.le_refl _)
      simp only [Desc.layout] at hl
      simp only [Layout.strSlice.injEq] at hl
      obtain ⟨-, hl⟩ := hl
      subst hl
      exact ⟨_, _, h4, rfl, _, h1, trivial, .strLen h2 h5⟩
  | shared _ h1 | cell _ h1 => exact (no h1 (by intro T; simp [Desc.layout])).elim
  | plain h1 hp => 
    exact (no h1 (by intro T; constructor <;> intros <;> (intro h; simp only [Desc.layout] at h; subst h; have := h1.1.2; simp [Shown.Plain] at this))).elim
  | vec h1 | slice h1 | array h1 | reference h1 | pointer h1 | box h1 | struct h1 | hashMap h1 | btreeMap h1 | btreeEmpty h1 | unitVariant h1 | recordVariant h1 | tupleVariant h1 | cenum h1 | none h1 | some h1 =>
    exact (no h1 (by intro T; simp [Desc.layout])).elim

end

section
variable {w : Libs} {x : Executable} {us : List UnitOf} {m : Mem} {a0 e0 : Nat} {v : Str} {u : UnitOf} {files : UnitFiles} {t : Tree Die}

/-- C107: what `rd print` shows for a place agrees with what it prints for the place with `.len()`, `.is_empty()`, `.is_some()` or `.is_none()`: the length of a `Vec`, slice or array is the number of elements shown, and it is empty if none is; what is not shown as
`None` is `Some`. That what is shown as `None` is `None` is false, see below; and `is_ok`, `is_err` are left out, as results are not shown (C85). -/
theorem C107_agrees_partial (hs : Stops w x us u files t) {n a e : Nat} {b : Expr} {desc desc0 : Desc} {val : RVal} {shown name value type : Str} (hn : n ≤ 4) (h0 : Is (typedef w.lib x) (fileDb x.units) e0 desc0)
    (hp : Place (typedef w.lib x) (fileDb x.units) m w.lossy w.floatStr v a0 e0 b a e) (hI : Is (typedef w.lib x) (fileDb x.units) e desc) (ho : Ordinary (typedef w.lib x) e → b = .var v)
    (h : Holds (typedef w.lib x) (fileDb x.units) m w.lossy w.floatStr n a e val) (hne : ¬ val.Has (emptyText w.lossy)) (hcl : Called (typedef w.lib x) (fileDb x.units) w.lib.render e shown)
    (hA : Says desc val name value type) :
    Answers w x us files t m v a0 e0 b (.text (page [chars! "type: " ++ shown, chars! "value: " ++ val.text])) ∧
    Answers w x us files t m v a0 e0 (.method b name []) (.text (page [chars! "type: " ++ type, chars! "value: " ++ value])) := by
  obtain ⟨desc', h1, h2, h3⟩ := holds_returns hs.wellFormed (C95_decodes _) h hI hA
  exact ⟨C98_place_printed_partial hs hn h0 hp h hne hcl, C102_builtin_partial hs h0 hp h1 ho h2 h3⟩

/-- C107: of a text, the bytes that memory holds for it are shown in quotation marks, and `.len()` is the number of these bytes. -/
theorem C107_text (hs : Stops w x us u files t) {n a e : Nat} {b : Expr} {desc desc0 : Desc} {val : RVal} {shown : Str} (hn : n ≤ 4) (h0 : Is (typedef w.lib x) (fileDb x.units) e0 desc0)
    (hp : Place (typedef w.lib x) (fileDb x.units) m w.lossy w.floatStr v a0 e0 b a e) (hI : Is (typedef w.lib x) (fileDb x.units) e desc) (ho : Ordinary (typedef w.lib x) e → b = .var v)
    (h : Holds (typedef w.lib x) (fileDb x.units) m w.lossy w.floatStr n a e val) (hne : ¬ val.Has (emptyText w.lossy)) (hcl : Called (typedef w.lib x) (fileDb x.units) w.lib.render e shown)
    (hd : (∃ l d c t, desc = .string l d c t) ∨ ∃ d, desc = .str d 8) :
    ∃ p bs, m.HoldsBytes p bs ∧
      Answers w x us files t m v a0 e0 b (.text (page [chars! "type: " ++ shown, chars! "value: \"" ++ w.lossy bs ++ chars! "\""])) ∧
      Answers w x us files t m v a0 e0 (.method b (chars! "len") []) (.text (page [chars! "type: usize", chars! "value: " ++ numText bs.length])) := by
  obtain ⟨p, bs, h1, rfl, desc', h2, h3, h4⟩ := holds_text hs.wellFormed (C95_decodes _) h hI hd
  refine ⟨p, bs, h1, ?_, C102_builtin_partial hs h0 hp h2 ho h3 h4⟩
  have := C98_place_printed_partial hs hn h0 hp h hne hcl
  simpa [RVal.text, quoted] using this

/-- C107 is false of an option of which the payload is shown as `None`, as `Some(None)`: it is shown as `None`, but `is_none()` prints `false`. -/
theorem C107_none_fails (hs : Stops w x us u files t) {n a e off t' size d : Nat} {b : Expr} {desc0 : Desc} {shown oname : Str} {disc : Disc} (hn : n ≤ 4) (h0 : Is (typedef w.lib x) (fileDb x.units) e0 desc0)
    (hp : Place (typedef w.lib x) (fileDb x.units) m w.lossy w.floatStr v a0 e0 b a e) (hI : Is (typedef w.lib x) (fileDb x.units) e (.option oname disc off t' size)) (ho : ¬ Ordinary (typedef w.lib x) e)
    (h1 : DiscStored (fileDb x.units) e disc) (h2 : disc.size ∈ [1, 2, 4, 8]) (h3 : m.HoldsNat (a + disc.offset) disc.size d) (h4 : d % 256 ≠ 0) (h5 : a + disc.offset < u64Max1)
    (h6 : Holds (typedef w.lib x) (fileDb x.units) m w.lossy w.floatStr n (a + off) t' (.leaf (chars! "None"))) (h7 : a + off < u64Max1) (hne : chars! "None" ≠ emptyText w.lossy)
    (hcl : Called (typedef w.lib x) (fileDb x.units) w.lib.render e shown) :
    Answers w x us files t m v a0 e0 b (.text (page [chars! "type: " ++ shown, chars! "value: None"])) ∧
    Answers w x us files t m v a0 e0 (.method b (chars! "is_none") []) (.text (page [chars! "type: bool", chars! "value: false"])) := by
  refine ⟨C98_place_printed_partial hs hn h0 hp (.some hI h1 h2 h3 h4 h5 h6 h7) (fun h => ?_) hcl, ?_⟩
  · simp only [RVal.mark] at h
    cases h
  · have hd : boolText (decide (d = 0)) = chars! "false" := by
      have : d ≠ 0 := by rintro rfl; simp at h4
      simp only [this, decide_false, boolText]
      decide
    have := C102_builtin_partial hs h0 hp hI (fun h => absurd h ho) h1 (.isNone h2 h3 h5)
    rw [hd] at this
    exact this

end
end Rudy.Image
