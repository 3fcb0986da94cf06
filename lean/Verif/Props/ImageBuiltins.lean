import Verif.Props.ImageMissing
import Verif.Props.Synthetic
/-
C102: from the executable to what is printed for the methods that rudy answers itself, as `v.len()`.
-/
namespace Rudy.Image
open Rudy Rudy.Dwarf Rudy.Walker Rudy.Layout Rudy.Data Rudy.Resolve Rudy.Declared Rudy.Entries Rudy.Modules Rudy.TypeNames Rudy.FnIndex Rudy.Shown Rudy.Whole Rudy.Listing
open Rudy.TypeRes (shallow resolveType Ordinary)
open Rudy.Expr (Expr)

/-- A number, as Rust prints it. -/
def numText (n : Nat) : Str := (toString n).toList
/-- A truth value, as Rust prints it. -/
def boolText (b : Bool) : Str := (toString b).toList

/-- Specification: what Rust's own method `name` returns for the value at `a` of a type described by `desc`, and of what type that is. Slices and texts have their length behind the pointer. -/
inductive Returns (m : Mem) (a : Nat) : (desc : Desc) → (name value type : Str) → Prop
  | vecLen {lenOff dataOff capOff t n : Nat} : m.HoldsNat (a + lenOff) 8 n → a + lenOff < u64Max1 →
      Returns m a (.vec lenOff dataOff capOff t) (chars! "len") (numText n) (chars! "usize")
  | vecEmpty {lenOff dataOff capOff t n : Nat} : m.HoldsNat (a + lenOff) 8 n → a + lenOff < u64Max1 →
      Returns m a (.vec lenOff dataOff capOff t) (chars! "is_empty") (boolText (decide (n = 0))) (chars! "bool")
  | vecCapacity {lenOff dataOff capOff t n : Nat} : m.HoldsNat (a + capOff) 8 n → a + capOff < u64Max1 →
      Returns m a (.vec lenOff dataOff capOff t) (chars! "capacity") (numText n) (chars! "usize")
  | stringLen {lenOff dataOff capOff t n : Nat} : m.HoldsNat (a + lenOff) 8 n → a + lenOff < u64Max1 →
      Returns m a (.string lenOff dataOff capOff t) (chars! "len") (numText n) (chars! "usize")
  | stringEmpty {lenOff dataOff capOff t n : Nat} : m.HoldsNat (a + lenOff) 8 n → a + lenOff < u64Max1 →
      Returns m a (.string lenOff dataOff capOff t) (chars! "is_empty") (boolText (decide (n = 0))) (chars! "bool")
  | sliceLen {dataOff t n : Nat} : m.HoldsNat (a + 8) 8 n → a + 8 < u64Max1 →
      Returns m a (.slice dataOff 8 t) (chars! "len") (numText n) (chars! "usize")
  | sliceEmpty {dataOff t n : Nat} : m.HoldsNat (a + 8) 8 n → a + 8 < u64Max1 →
      Returns m a (.slice dataOff 8 t) (chars! "is_empty") (boolText (decide (n = 0))) (chars! "bool")
  | strLen {dataOff n : Nat} : m.HoldsNat (a + 8) 8 n → a + 8 < u64Max1 →
      Returns m a (.str dataOff 8) (chars! "len") (numText n) (chars! "usize")
  | strEmpty {dataOff n : Nat} : m.HoldsNat (a + 8) 8 n → a + 8 < u64Max1 →
      Returns m a (.str dataOff 8) (chars! "is_empty") (boolText (decide (n = 0))) (chars! "bool")
  | arrayLen {t n : Nat} : Returns m a (.array t n) (chars! "len") (numText n) (chars! "usize")
  /-- An option is `None` if its discriminant is zero. -/
  | isSome {name : Str} {disc : Disc} {off t size d : Nat} : disc.size ∈ [1, 2, 4, 8] → m.HoldsNat (a + disc.offset) disc.size d → a + disc.offset < u64Max1 →
      Returns m a (.option name disc off t size) (chars! "is_some") (boolText (decide (d ≠ 0))) (chars! "bool")
  | isNone {name : Str} {disc : Disc} {off t size d : Nat} : disc.size ∈ [1, 2, 4, 8] → m.HoldsNat (a + disc.offset) disc.size d → a + disc.offset < u64Max1 →
      Returns m a (.option name disc off t size) (chars! "is_none") (boolText (decide (d = 0))) (chars! "bool")
  /-- A result with a tag of one or two bytes is `Ok` if that is zero. -/
  | isOk {name : Str} {disc : Disc} {okOff okTy errOff errTy size d : Nat} : disc.size ∈ [1, 2] → m.HoldsNat (a + disc.offset) disc.size d → a + disc.offset < u64Max1 →
      Returns m a (.result name disc okOff okTy errOff errTy size) (chars! "is_ok") (boolText (decide (d = 0))) (chars! "bool")
  | isErr {name : Str} {disc : Disc} {okOff okTy errOff errTy size d : Nat} : disc.size ∈ [1, 2] → m.HoldsNat (a + disc.offset) disc.size d → a + disc.offset < u64Max1 →
      Returns m a (.result name disc okOff okTy errOff errTy size) (chars! "is_err") (boolText (decide (d ≠ 0))) (chars! "bool")

/-- Specification: where the discriminant is stored, if the type has one, is where its description says. -/
def Tagged (db : Parse.Db) (e : Nat) : Desc → Prop
  | .option _ disc _ _ _ => DiscStored db e disc
  | .result _ disc _ _ _ _ _ => DiscStored db e disc
  | _ => True

section
variable {w : Libs} {x : Executable} {us : List UnitOf} {m : Mem} {a0 e0 : Nat} {v : Str} {u : UnitOf} {files : UnitFiles} {t : Tree Die}

theorem strict_usize {T' T : Target} (h : Strict T' T) (a off : Nat) : readUsize T' a off = readUsize T a off := by
  simp only [readUsize, h.readE _ 8 (by omega)]

theorem strict_tag {T' T : Target} (h : Strict T' T) (a : Nat) (disc : Disc) (hd : disc.size ≠ 0) : readTag T' a disc = readTag T a disc := by
  simp only [readTag, h.readE _ _ hd]

/-- What the code answers itself. -/
theorem builtin_value {typedef : Nat → Option Layout} {db : Parse.Db} {lossy : List UInt8 → Str} {floatStr : Nat → Nat → Str} {depth a e : Nat} {desc : Desc} {name value type : Str}
    (h : Returns m a desc name value type) {T' : Target} (hS : Strict T' (target typedef db m lossy floatStr depth)) :
    (syntheticMethods (full typedef db depth e desc).layout).contains name = true ∧ evalSynthetic T' a (full typedef db depth e desc) name = .ok (.scalar type value) := by
  have hR := target_reads typedef db m lossy floatStr depth
  cases h with
  | vecLen h1 h2 =>
    refine ⟨by simp [full, TypeDef.layout, Desc.layout, syntheticMethods], ?_⟩
    simp only [evalSynthetic, full, TypeDef.layout, Desc.layout, vecMethod, strict_usize hS, readUsize_ok _ m hR _ _ _ h1 h2, Res.bind_ok]
    simp [usizeValue_eq, shownUsize, numText]
  | vecEmpty h1 h2 =>
    refine ⟨by simp [full, TypeDef.layout, Desc.layout, syntheticMethods], ?_⟩
    simp only [evalSynthetic, full, TypeDef.layout, Desc.layout, vecMethod, strict_usize hS, readUsize_ok _ m hR _ _ _ h1 h2, Res.bind_ok]
    simp [boolValue_eq, shownBool, boolText, beq0]
  | vecCapacity h1 h2 =>
    refine ⟨by simp [full, TypeDef.layout, Desc.layout, syntheticMethods], ?_⟩
    simp only [evalSynthetic, full, TypeDef.layout, Desc.layout, vecMethod, strict_usize hS, readUsize_ok _ m hR _ _ _ h1 h2, Res.bind_ok]
    simp [usizeValue_eq, shownUsize, numText]
  | stringLen h1 h2 =>
    refine ⟨by simp [full, TypeDef.layout, Desc.layout, syntheticMethods], ?_⟩
    simp only [evalSynthetic, full, TypeDef.layout, Desc.layout, stringMethod, vecMethod, strict_usize hS, readUsize_ok _ m hR _ _ _ h1 h2, Res.bind_ok]
    simp [usizeValue_eq, shownUsize, numText]
  | stringEmpty h1 h2 =>
    refine ⟨by simp [full, TypeDef.layout, Desc.layout, syntheticMethods], ?_⟩
    simp only [evalSynthetic, full, TypeDef.layout, Desc.layout, stringMethod, vecMethod, strict_usize hS, readUsize_ok _ m hR _ _ _ h1 h2, Res.bind_ok]
    simp [boolValue_eq, shownBool, boolText, beq0]
  | sliceLen h1 h2 =>
    refine ⟨by simp [full, TypeDef.layout, Desc.layout, syntheticMethods], ?_⟩
    simp only [evalSynthetic, full, TypeDef.layout, Desc.layout, sliceMethod, strict_usize hS, readUsize_ok _ m hR _ _ _ h1 h2, Res.bind_ok]
    simp [usizeValue_eq, shownUsize, numText]
  | sliceEmpty h1 h2 =>
    refine ⟨by simp [full, TypeDef.layout, Desc.layout, syntheticMethods], ?_⟩
    simp only [evalSynthetic, full, TypeDef.layout, Desc.layout, sliceMethod, strict_usize hS, readUsize_ok _ m hR _ _ _ h1 h2, Res.bind_ok]
    simp [boolValue_eq, shownBool, boolText, beq0]
  | strLen h1 h2 =>
    refine ⟨by simp [full, TypeDef.layout, Desc.layout, syntheticMethods], ?_⟩
    simp only [evalSynthetic, full, TypeDef.layout, Desc.layout, sliceMethod, strict_usize hS, readUsize_ok _ m hR _ _ _ h1 h2, Res.bind_ok]
    simp [usizeValue_eq, shownUsize, numText]
  | strEmpty h1 h2 =>
    refine ⟨by simp [full, TypeDef.layout, Desc.layout, syntheticMethods], ?_⟩
    simp only [evalSynthetic, full, TypeDef.layout, Desc.layout, sliceMethod, strict_usize hS, readUsize_ok _ m hR _ _ _ h1 h2, Res.bind_ok]
    simp [boolValue_eq, shownBool, boolText, beq0]
  | arrayLen =>
    refine ⟨by simp [full, TypeDef.layout, Desc.layout, syntheticMethods], ?_⟩
    simp only [evalSynthetic, full, TypeDef.layout, Desc.layout, arrayMethod]
    simp [usizeValue_eq, shownUsize, numText]
  | isSome hs h1 h2 =>
    refine ⟨by simp [full, TypeDef.layout, Desc.layout, syntheticMethods], ?_⟩
    rename_i disc _ _ _ _
    have h0 : disc.size ≠ 0 := by rintro h; rw [h] at hs; simp at hs
    simp only [evalSynthetic, full, TypeDef.layout, Desc.layout, optionMethod, strict_tag hS _ _ h0, readTag_ok _ m hR _ _ _ hs h1 h2, Res.bind_ok]
    simp [boolValue_eq, shownBool, boolText, bne0]
  | isNone hs h1 h2 =>
    refine ⟨by simp [full, TypeDef.layout, Desc.layout, syntheticMethods], ?_⟩
    rename_i disc _ _ _ _
    have h0 : disc.size ≠ 0 := by rintro h; rw [h] at hs; simp at hs
    simp only [evalSynthetic, full, TypeDef.layout, Desc.layout, optionMethod, strict_tag hS _ _ h0, readTag_ok _ m hR _ _ _ hs h1 h2, Res.bind_ok]
    simp [boolValue_eq, shownBool, boolText, beq0]
  | isOk hs h1 h2 =>
    refine ⟨by simp [full, TypeDef.layout, Desc.layout, syntheticMethods], ?_⟩
    rename_i disc _ _ _ _ _ _
    have h0 : disc.size ≠ 0 := by rintro h; rw [h] at hs; simp at hs
    have hs' : disc.size ∈ [1, 2, 4, 8] := by simp only [List.mem_cons, List.not_mem_nil, or_false] at hs ⊢; omega
    simp only [evalSynthetic, full, TypeDef.layout, Desc.layout, resultMethod, strict_tag hS _ _ h0, readTag_ok _ m hR _ _ _ hs' h1 h2, Res.bind_ok]
    simp only [List.mem_cons, List.not_mem_nil, or_false] at hs
    rcases hs with hs | hs <;> simp [hs, resultIsOk, boolValue_eq, shownBool, boolText, beq0]
  | isErr hs h1 h2 =>
    refine ⟨by simp [full, TypeDef.layout, Desc.layout, syntheticMethods], ?_⟩
    rename_i disc _ _ _ _ _ _
    have h0 : disc.size ≠ 0 := by rintro h; rw [h] at hs; simp at hs
    have hs' : disc.size ∈ [1, 2, 4, 8] := by simp only [List.mem_cons, List.not_mem_nil, or_false] at hs ⊢; omega
    simp only [evalSynthetic, full, TypeDef.layout, Desc.layout, resultMethod, strict_tag hS _ _ h0, readTag_ok _ m hR _ _ _ hs' h1 h2, Res.bind_ok]
    simp only [List.mem_cons, List.not_mem_nil, or_false] at hs
    rcases hs with hs | hs <;> simp [hs, resultIsOk, boolValue_eq, shownBool, boolText, beq0]

/-- The place with its type in full. -/
theorem full_place (hs : Stops w x us u files t) {a e : Nat} {ex : Expr} {desc : Desc} (hp : Place (typedef w.lib x) (fileDb x.units) m w.lossy w.floatStr v a0 e0 ex a e)
    (hI : Is (typedef w.lib x) (fileDb x.units) e desc) (ho : Ordinary (typedef w.lib x) e → ex = .var v) :
    ∃ N, ∀ (σ : Type) (W : Eval.World σ) (p : σ) (pc depth : Nat), N ≤ depth → N ≤ W.stack → RootAt W p pc (typedef w.lib x) (fileDb x.units) depth v a0 e0 →
      Shown.Strict (W.target p) (target (typedef w.lib x) (fileDb x.units) m w.lossy w.floatStr depth) →
      Eval.toRef W ex (Eval.St.new p) = (.ok (a, full (typedef w.lib x) (fileDb x.units) depth e desc), ⟨some pc, [], p⟩) := by
  obtain ⟨N, hN⟩ := place_found hs.wellFormed (C95_decodes _) hp
  obtain ⟨M, hM⟩ := types_at hs.wellFormed (C95_decodes _) hI
  refine ⟨max N M, fun σ W p pc depth hd hst hr hT => ?_⟩
  obtain ⟨td, htd, href⟩ := hN σ W p pc depth (by omega) (by omega) hr hT
  obtain ⟨-, hre, hcase⟩ := hM depth (by omega)
  by_cases hor : Ordinary (typedef w.lib x) e
  · have := ho hor
    subst this
    cases hp
    exact root_ref hre hr
  · rcases hcase td (htd.imp (·.1) id) with rfl | ⟨h, -⟩
    · exact href
    · exact absurd h hor

/-- C102: the user types `rd print` and a place with one of the methods `len`, `is_empty`, `capacity`, `is_some`, `is_none`, `is_ok`, `is_err` of Rust, on a `Vec`, array, slice, text, option or result. What is printed is what the method
returns for the value that memory holds there; nothing is run, and the process is left as it was. Results with a tag of four or eight bytes are missing, for which the claim is false: see below. -/
theorem C102_builtin_partial (hs : Stops w x us u files t) {a e : Nat} {b : Expr} {desc desc0 : Desc} {name value type : Str} (h0 : Is (typedef w.lib x) (fileDb x.units) e0 desc0)
    (hp : Place (typedef w.lib x) (fileDb x.units) m w.lossy w.floatStr v a0 e0 b a e) (hI : Is (typedef w.lib x) (fileDb x.units) e desc)
    (ho : Ordinary (typedef w.lib x) e → b = .var v) (_ : Tagged (fileDb x.units) e desc) (h : Returns m a desc name value type) :
    Answers w x us files t m v a0 e0 (.method b name []) (.text (page [chars! "type: " ++ type, chars! "value: " ++ value])) := by
  obtain ⟨N, hN⟩ := full_place hs hp hI ho
  refine answers_of hs h0 (q := .ok (value, type)) rfl ⟨N, fun σ W p pc depth hd hst hroot hS => ?_⟩
  have href := hN σ W p pc depth hd hst hroot hS
  obtain ⟨h1, h2⟩ := builtin_value (e := e) h hS
  refine ⟨⟨some pc, [], p⟩, ?_, rfl⟩
  rw [Eval.evaluate, Shown.bind_ok href, Eval.methodShown, if_pos h1]
  simp only [List.length_nil, ne_eq, not_true_eq_false, if_false, Eval.Ev.reading, h2, Res.bind_ok]
  rfl

/-- C102: with arguments such a method is an error. -/
theorem C102_arguments (hs : Stops w x us u files t) {a e : Nat} {b arg : Expr} {args : List Expr} {desc desc0 : Desc} {name value type : Str} (h0 : Is (typedef w.lib x) (fileDb x.units) e0 desc0)
    (hp : Place (typedef w.lib x) (fileDb x.units) m w.lossy w.floatStr v a0 e0 b a e) (hI : Is (typedef w.lib x) (fileDb x.units) e desc)
    (ho : Ordinary (typedef w.lib x) e → b = .var v) (h : Returns m a desc name value type) :
    Answers w x us files t m v a0 e0 (.method b name (arg :: args)) .error := by
  obtain ⟨N, hN⟩ := full_place hs hp hI ho
  refine answers_of hs h0 (q := .err) rfl ⟨N, fun σ W p pc depth hd hst hroot hS => ?_⟩
  have href := hN σ W p pc depth hd hst hroot hS
  obtain ⟨h1, h2⟩ := builtin_value (e := e) h hS
  refine ⟨⟨some pc, [], p⟩, ?_, rfl⟩
  rw [Eval.evaluate, Shown.bind_ok href, Eval.methodShown, if_pos h1]
  simp only [List.length_cons, ne_eq, Nat.add_eq_zero_iff, Nat.succ_ne_self, and_false, not_false_eq_true, if_true, Eval.Ev.lift]

/-- C102: what such a method returns has no parts. -/
theorem C102_no_parts (hs : Stops w x us u files t) {a e : Nat} {b i : Expr} {args : List Expr} {f : Str} {desc desc0 : Desc} {name value type : Str} (h0 : Is (typedef w.lib x) (fileDb x.units) e0 desc0)
    (hp : Place (typedef w.lib x) (fileDb x.units) m w.lossy w.floatStr v a0 e0 b a e) (hI : Is (typedef w.lib x) (fileDb x.units) e desc)
    (ho : Ordinary (typedef w.lib x) e → b = .var v) (h : Returns m a desc name value type) :
    Answers w x us files t m v a0 e0 (.field (.method b name args) f) .error ∧ Answers w x us files t m v a0 e0 (.index (.method b name args) i) .error := by
  obtain ⟨N, hN⟩ := full_place hs hp hI ho
  have key : ∀ (σ : Type) (W : Eval.World σ) (p : σ) (pc depth : Nat), N ≤ depth → N ≤ W.stack → RootAt W p pc (typedef w.lib x) (fileDb x.units) depth v a0 e0 →
      Shown.Strict (W.target p) (target (typedef w.lib x) (fileDb x.units) m w.lossy w.floatStr depth) →
      Eval.toRef W (.method b name args) (Eval.St.new p) = (.err, ⟨some pc, [], p⟩) := by
    intro σ W p pc depth hd hst hroot hS
    have href := hN σ W p pc depth hd hst hroot hS
    obtain ⟨h1, h2⟩ := builtin_value (e := e) h hS
    rw [Eval.toRef, Shown.bind_ok href, Eval.methodRef, if_pos h1]
    rfl
  constructor
  · refine answers_of hs h0 (q := .err) rfl ⟨N, fun σ W p pc depth hd hst hroot hS => ⟨⟨some pc, [], p⟩, ?_, rfl⟩⟩
    rw [Eval.evaluate, bind_err' (key σ W p pc depth hd hst hroot hS)]
  · refine answers_of hs h0 (q := .err) rfl ⟨N, fun σ W p pc depth hd hst hroot hS => ⟨⟨some pc, [], p⟩, ?_, rfl⟩⟩
    rw [Eval.evaluate, bind_err' (key σ W p pc depth hd hst hroot hS)]

/-- C102 is false of results with a tag of four or eight bytes, as `Result<u32, u32>` has: `Err` has the tag 1, but `is_ok()` prints `true`. -/
theorem C102_result_fails (hs : Stops w x us u files t) {a e okOff okTy errOff errTy size : Nat} {b : Expr} {desc0 : Desc} {n : Str} {disc : Disc} (h0 : Is (typedef w.lib x) (fileDb x.units) e0 desc0)
    (hp : Place (typedef w.lib x) (fileDb x.units) m w.lossy w.floatStr v a0 e0 b a e) (hI : Is (typedef w.lib x) (fileDb x.units) e (.result n disc okOff okTy errOff errTy size))
    (hd : disc.size = 4 ∨ disc.size = 8) (h1 : m.HoldsNat (a + disc.offset) disc.size 1) (h2 : a + disc.offset < u64Max1) :
    Answers w x us files t m v a0 e0 (.method b (chars! "is_ok") []) (.text (page [chars! "type: " ++ chars! "bool", chars! "value: " ++ chars! "true"])) := by
  obtain ⟨N, hN⟩ := full_place hs hp hI (fun h => by
    obtain ⟨⟨⟨_, _, _, _, _, _, _, h1⟩, _⟩, _⟩ := hI
    simp [Ordinary, h1] at h)
  refine answers_of hs h0 (q := .ok (chars! "true", chars! "bool")) rfl ⟨N, fun σ W p pc depth hdp hst hroot hS => ?_⟩
  have href := hN σ W p pc depth hdp hst hroot hS
  have hc : (syntheticMethods (full (typedef w.lib x) (fileDb x.units) depth e (.result n disc okOff okTy errOff errTy size)).layout).contains (chars! "is_ok") = true := by
    simp [full, TypeDef.layout, Desc.layout, syntheticMethods]
  have hR := target_reads (typedef w.lib x) (fileDb x.units) m w.lossy w.floatStr depth
  have hv : evalSynthetic (W.target p) a (full (typedef w.lib x) (fileDb x.units) depth e (.result n disc okOff okTy errOff errTy size)) (chars! "is_ok") =
      .ok (.scalar (chars! "bool") (chars! "true")) := by
    simp only [evalSynthetic, full, TypeDef.layout, Desc.layout, resultMethod, strict_tag hS a disc (by omega)]
    exact C32_result_tag_fails (target (typedef w.lib x) (fileDb x.units) m w.lossy w.floatStr depth) m hR a (some e) n disc
      (ty (typedef w.lib x) (fileDb x.units) depth okTy) okOff (ty (typedef w.lib x) (fileDb x.units) depth errTy) errOff size h2 hd h1
  refine ⟨⟨some pc, [], p⟩, ?_, rfl⟩
  rw [Eval.evaluate, Shown.bind_ok href, Eval.methodShown, if_pos hc]
  simp only [List.length_nil, ne_eq, not_true_eq_false, if_false, Eval.Ev.reading, hv, Res.bind_ok]
  rfl

end

/-! ### Examples -/

/-- `C102_builtin_partial` at work: the user types `rd p sl.len()`. -/
example (other : Wire.Json → Str) : ∃ N b, binary shopLibs N N partImage = .ok b ∧
    rd Remote.toy other b.program.backend ⟨partMem, 0⟩ (chars! "p sl.len()") = some (.text (chars! "type: usize\nvalue: 2\n"), ⟨partMem, 0⟩) :=
  part_answer (C102_builtin_partial (a0 := 120) part_stops part_sl .var part_sl (fun _ => rfl) trivial (.sliceLen (n := 2) (by unfold Mem.HoldsNat; decide) (by decide)))
    ⟨partVars[5], List.mem_of_getElem? (i := 5) rfl, rfl, rfl, rfl, by omega, by omega, by decide⟩ _ ⟨chars! "p", chars! "sl.len()", [], rfl, .inl rfl, by with_unfolding_all rfl⟩ other

/-- The same with `rd p xs.len()`, an array. -/
example (other : Wire.Json → Str) : ∃ N b, binary shopLibs N N partImage = .ok b ∧
    rd Remote.toy other b.program.backend ⟨partMem, 0⟩ (chars! "p xs.len()") = some (.text (chars! "type: usize\nvalue: 2\n"), ⟨partMem, 0⟩) :=
  part_answer (C102_builtin_partial (a0 := 112) part_stops part_xs .var part_xs (fun _ => rfl) trivial .arrayLen)
    ⟨partVars[2], List.mem_of_getElem? (i := 2) rfl, rfl, rfl, rfl, by omega, by omega, by decide⟩ _ ⟨chars! "p", chars! "xs.len()", [], rfl, .inl rfl, by with_unfolding_all rfl⟩ other

/-- `C102_arguments` at work: the user types `rd p sl.len(1)`. -/
example (other : Wire.Json → Str) : ∃ N b, binary shopLibs N N partImage = .ok b ∧
    rd Remote.toy other b.program.backend ⟨partMem, 0⟩ (chars! "p sl.len(1)") = some (.error, ⟨partMem, 0⟩) :=
  part_answer (C102_arguments (a0 := 120) part_stops part_sl .var part_sl (fun _ => rfl) (.sliceLen (n := 2) (by unfold Mem.HoldsNat; decide) (by decide)))
    ⟨partVars[5], List.mem_of_getElem? (i := 5) rfl, rfl, rfl, rfl, by omega, by omega, by decide⟩ _ ⟨chars! "p", chars! "sl.len(1)", [], rfl, .inl rfl, by with_unfolding_all rfl⟩ other

/-- `C102_no_parts` at work: the user types `rd p sl.len().a`. -/
example (other : Wire.Json → Str) : ∃ N b, binary shopLibs N N partImage = .ok b ∧
    rd Remote.toy other b.program.backend ⟨partMem, 0⟩ (chars! "p sl.len().a") = some (.error, ⟨partMem, 0⟩) :=
  part_answer (C102_no_parts (a0 := 120) (i := .num 0) part_stops part_sl .var part_sl (fun _ => rfl) (.sliceLen (n := 2) (by unfold Mem.HoldsNat; decide) (by decide))).1
    ⟨partVars[5], List.mem_of_getElem? (i := 5) rfl, rfl, rfl, rfl, by omega, by omega, by decide⟩ _ ⟨chars! "p", chars! "sl.len().a", [], rfl, .inl rfl, by with_unfolding_all rfl⟩ other

end Rudy.Image
