import Verif.Props.ImageFunctions
/-
Which types count as those of a receiver, and the functions and modules of a file as discovery sees them. Used for C99.
-/
namespace Rudy.Image
open Rudy Rudy.Walker Rudy.Dwarf Rudy.Parse Rudy.Layout Rudy.Symbols Rudy.FnIndex Rudy.Entries Rudy.Modules
open Rudy.TypeRes (resolveType shallow WellFormed Decodes Ordinary)
open Rudy.Shown (Is Desc Known Describes ty full)

/-! ### Vocabulary -/

/-- The structure, or the enumeration with data, `S`. -/
def Own (S : Str) : Desc → Prop
  | .struct n _ _ _ => n = S
  | .enum n _ _ _ => n = S
  | .cenum n _ _ _ => n = S
  | _ => False

/-- Structures with the same name, or enumerations with the same name. -/
def SameKind : Desc → Desc → Prop
  | .struct n _ _ _, .struct m _ _ _ => n = m
  | .enum n _ _ _, .enum m _ _ _ => n = m
  | .cenum n _ _ _, .cenum m _ _ _ => n = m
  | _, _ => False

section
variable (typedef : Nat → Option Layout) (db : Db)

/-- The type at `e`, which is behind a reference or a pointer, is called `S`, or is a reference or a pointer to such a type. -/
inductive Reaches (S : Str) : Nat → Prop
  | own {e : Nat} : Ordinary typedef e → Parse.Named db e S → Reaches S e
  | ref {e t : Nat} {m : Bool} : Is typedef db e (.reference m t) → Reaches S t → Reaches S e
  | ptr {e t : Nat} {m : Bool} : Is typedef db e (.pointer m t) → Reaches S t → Reaches S e

/-- The type at `e` is one that `self` can have in a method of the type `own`, which is called `S`; the receiver is written `text`. -/
inductive Receiver (S : Str) (own : Desc) (e : Nat) : Str → Prop
  | value {desc : Desc} : Is typedef db e desc → SameKind desc own → Receiver S own e (chars! "self")
  | ref {t : Nat} : Is typedef db e (.reference false t) → Reaches typedef db S t → Receiver S own e (chars! "&self")
  | refMut {t : Nat} : Is typedef db e (.reference true t) → Reaches typedef db S t → Receiver S own e (chars! "&mut self")
  | ptr {t : Nat} {m : Bool} : Is typedef db e (.pointer m t) → Reaches typedef db S t → Receiver S own e (chars! "self")
end

/-! ### Matching -/

section
variable {typedef : Nat → Option Layout} {db : Db}

/-- Specification: `S` is not how the debugger writes a type that it knows itself, such as `u8`, `String` or `Vec<u8>`. -/
def OwnName (S : Str) : Prop :=
  S ∉ [chars! "bool", chars! "char", chars! "String", chars! "i8", chars! "i16", chars! "i32", chars! "i64", chars! "i128", chars! "u8", chars! "u16", chars! "u32", chars! "u64", chars! "u128", chars! "f32", chars! "f64"] ∧
  ∀ p ∈ [chars! "[", chars! "*", chars! "&", chars! "(", chars! "Box<", chars! "Rc<", chars! "Arc<", chars! "RefCell<", chars! "Mutex<", chars! "RwLock<", chars! "Cell<", chars! "UnsafeCell<",
    chars! "HashMap<", chars! "BTreeMap<", chars! "Option<", chars! "Result<", chars! "Vec<"], ¬ p <+: S

/-- Specification: the name `S` alone tells that a type is `own`: it is not written like a type that the debugger knows itself, and there are not both a structure and an enumeration of this name. -/
def Unmistakable (typedef : Nat → Option Layout) (db : Db) (S : Str) (own : Desc) : Prop :=
  OwnName S ∧ ∀ e desc, Is typedef db e desc → Own S desc → SameKind desc own

/-- What the code has of the type `own`, called `S`: what its entry says, or (for a part of a variable) its name alone, if that is enough. -/
def Stands (typedef : Nat → Option Layout) (db : Db) (S : Str) (own : Desc) (lay : Layout) : Prop :=
  (∃ T, lay = own.layout T) ∨ (lay = .alias S ∧ Unmistakable typedef db S own)

/-- How the types that the code knows itself are written. -/
theorem not_ownName {S : Str} (hS : OwnName S) {e : Nat} {desc : Desc} (hI : Describes typedef db e desc) (T : Nat → TypeDef) (h : (desc.layout T).displayName = S) : Own S desc := by
  obtain ⟨h1, h2⟩ := hS
  have no : ∀ (p t : Str), p ++ t = S → p ∈ [chars! "[", chars! "*", chars! "&", chars! "(", chars! "Box<", chars! "Rc<", chars! "Arc<", chars! "RefCell<", chars! "Mutex<", chars! "RwLock<", chars! "Cell<", chars! "UnsafeCell<",
    chars! "HashMap<", chars! "BTreeMap<", chars! "Option<", chars! "Result<", chars! "Vec<"] → False := fun p t ht hp => h2 p hp ⟨t, ht⟩
  cases desc with
  | struct => exact h
  | «enum» => exact h
  | cenum => exact h
  | plain l =>
    exfalso
    obtain ⟨-, hp⟩ := hI
    cases l with
    | bool => exact h1 (by rw [← h]; simp [Desc.layout, Layout.displayName])
    | char => exact h1 (by rw [← h]; simp [Desc.layout, Layout.displayName])
    | unit => exact no (chars! "(") _ h (by simp)
    | int n =>
      simp only [Shown.Plain, List.mem_cons, List.not_mem_nil, or_false] at hp
      rcases hp with rfl | rfl | rfl | rfl | rfl <;> exact h1 (by rw [← h]; simp only [Desc.layout, Layout.displayName]; decide)
    | uint n =>
      simp only [Shown.Plain, List.mem_cons, List.not_mem_nil, or_false] at hp
      rcases hp with rfl | rfl | rfl | rfl | rfl <;> exact h1 (by rw [← h]; simp only [Desc.layout, Layout.displayName]; decide)
    | float n =>
      simp only [Shown.Plain, List.mem_cons, List.not_mem_nil, or_false] at hp
      rcases hp with rfl | rfl <;> exact h1 (by rw [← h]; simp only [Desc.layout, Layout.displayName]; decide)
    | _ => exact hp.elim
  | string => exact absurd (by rw [← h]; simp [Desc.layout, Layout.displayName]) h1
  | str => exact (no (chars! "&") _ h (by simp)).elim
  | vec => exact (no (chars! "Vec<") _ (by rw [← h]; simp only [Desc.layout, Layout.displayName, List.append_assoc]; rfl) (by simp)).elim
  | slice => exact (no (chars! "&") _ (by rw [← h]; simp only [Desc.layout, Layout.displayName, List.append_assoc]; rfl) (by simp)).elim
  | array => exact (no (chars! "[") _ (by rw [← h]; simp only [Desc.layout, Layout.displayName, List.append_assoc]; rfl) (by simp)).elim
  | pointer => exact (no (chars! "*") _ h (by simp)).elim
  | reference => exact (no (chars! "&") _ (by rw [← h]; simp only [Desc.layout, Layout.displayName, List.append_assoc]; rfl) (by simp)).elim
  | smart v =>
    cases v <;> exact (no (_ ++ chars! "<") _ (by rw [← h]; simp only [Desc.layout, Layout.displayName, List.append_assoc]; rfl) (by simp [SmartPtr.name])).elim
  | option => exact (no (chars! "Option<") _ (by rw [← h]; simp only [Desc.layout, Layout.displayName, List.append_assoc]; rfl) (by simp)).elim
  | hashMap => exact (no (_ ++ chars! "<") _ (by rw [← h]; simp only [Desc.layout, Layout.displayName, List.append_assoc]; rfl) (by simp [MapVariant.name])).elim
  | btreeMap => exact (no (_ ++ chars! "<") _ (by rw [← h]; simp only [Desc.layout, Layout.displayName, List.append_assoc]; rfl) (by simp [MapVariant.name])).elim
  | tuple => exact (no (chars! "(") _ (by rw [← h]; simp only [Desc.layout, Layout.displayName, List.append_assoc]; rfl) (by simp)).elim
  | result => exact (no (chars! "Result<") _ (by rw [← h]; simp only [Desc.layout, Layout.displayName, List.append_assoc]; rfl) (by simp)).elim

theorem sameKind_own {S : Str} {own desc : Desc} (ho : Own S own) (h : SameKind desc own) : Own S desc := by
  cases own <;> first | exact ho.elim | (cases desc <;> first | exact h.elim | (cases ho; exact h))

theorem name_matching {S : Str} {own desc : Desc} (ho : Own S own) {e : Nat} (hI : Is typedef db e desc) (hu : Unmistakable typedef db S own) (T : Nat → TypeDef) :
    (desc.layout T).matching (.alias S) = true ↔ SameKind desc own := by
  have hm : (desc.layout T).matching (.alias S) = (S == (desc.layout T).displayName) := by
    cases desc with
    | plain l =>
      obtain ⟨⟨-, h⟩, -⟩ := hI
      cases l <;> first | exact h.elim | simp [Desc.layout, Layout.matching]
    | _ => simp [Desc.layout, Layout.matching]
  rw [hm, beq_iff_eq]
  refine ⟨fun h => hu.2 e desc hI (not_ownName hu.1 hI.1 T h.symm), fun h => ?_⟩
  have := sameKind_own ho h
  cases desc <;> first | exact this.elim | exact this.symm

theorem alias_matching_full {S nm : Str} {own : Desc} (ho : Own S own) (T : Nat → TypeDef) : (Layout.alias nm).matching (own.layout T) = (nm == S) := by
  cases own <;> first | exact ho.elim | (cases ho; simp [Desc.layout, Layout.matching, Layout.displayName])

theorem desc_direct_full {S : Str} {own desc : Desc} (ho : Own S own) {e : Nat} (hI : Describes typedef db e desc) (T T' : Nat → TypeDef) :
    (desc.layout T).matching (own.layout T') = true ↔ SameKind desc own := by
  cases own with
  | struct n s a fs =>
    cases desc with
    | plain l =>
      obtain ⟨-, h⟩ := hI
      cases l <;> first | exact h.elim | simp [Desc.layout, Layout.matching, SameKind]
    | _ => simp [Desc.layout, Layout.matching, SameKind]
  | «enum» n s a fs =>
    cases desc with
    | plain l =>
      obtain ⟨-, h⟩ := hI
      cases l <;> first | exact h.elim | simp [Desc.layout, Layout.matching, SameKind]
    | _ => simp [Desc.layout, Layout.matching, SameKind]
  | cenum n s a fs =>
    cases desc with
    | plain l =>
      obtain ⟨-, h⟩ := hI
      cases l <;> first | exact h.elim | simp [Desc.layout, Layout.matching, SameKind]
    | _ => simp [Desc.layout, Layout.matching, SameKind]
  | _ => exact ho.elim

theorem alias_matching {S nm : Str} {own : Desc} (ho : Own S own) {lay : Layout} (hl : Stands typedef db S own lay) : (Layout.alias nm).matching lay = (nm == S) := by
  rcases hl with ⟨T, rfl⟩ | ⟨rfl, -⟩
  · exact alias_matching_full ho T
  · simp [Layout.matching]

theorem desc_direct {S : Str} {own desc : Desc} (ho : Own S own) {e : Nat} (hI : Is typedef db e desc) (T : Nat → TypeDef) {lay : Layout} (hl : Stands typedef db S own lay) :
    (desc.layout T).matching lay = true ↔ SameKind desc own := by
  rcases hl with ⟨T', rfl⟩ | ⟨rfl, hu⟩
  · exact desc_direct_full ho hI.1 T T'
  · exact name_matching ho hI hu T

theorem desc_matching {S : Str} {own desc : Desc} (ho : Own S own) {e : Nat} (hI : Is typedef db e desc) (T : Nat → TypeDef) {lay : Layout} (hl : Stands typedef db S own lay)
    (hr : ∀ m t, desc ≠ .reference m t) (hp : ∀ m t, desc ≠ .pointer m t) :
    (desc.layout T).dereferenced.matching lay = true ↔ SameKind desc own := by
  have : (desc.layout T).dereferenced = desc.layout T := by
    cases desc with
    | plain l =>
      obtain ⟨⟨-, h⟩, -⟩ := hI
      cases l <;> first | exact h.elim | rfl
    | reference m t => exact absurd rfl (hr m t)
    | pointer m t => exact absurd rfl (hp m t)
    | _ => rfl
  rw [this]
  exact desc_direct ho hI T hl

theorem dieName_iff (db : Db) (e : Nat) (n : Str) : dieName db e = .ok n ↔ Parse.Named db e n := by
  rw [dieName, Discovery.stringAttr_ok]
  exact Iff.rfl

theorem dereferenced_mk (t : TypeDef) : t.dereferenced = t.layout.dereferenced := by cases t; rfl

/-- What the type behind a reference looks like. -/
theorem ty_ordinary {d e : Nat} (h : Ordinary typedef e) (hd : 1 ≤ d) :
    (ty typedef db d e).layout = .alias (match dieName db e with | .ok s => s | _ => chars! "unknown") := by
  obtain ⟨d, rfl⟩ : ∃ k, d = k + 1 := ⟨d - 1, by omega⟩
  have : shallow typedef db (d + 1) e = .ok (.mk (some e) (.alias (match dieName db e with | .ok s => s | _ => chars! "unknown"))) := by
    simp only [shallow, Shown.builtin_ordinary h, Res.bind_ok]
    cases dieName db e <;> rfl
  rw [Shown.ty_eq this]
  rfl

theorem ty_known {d e : Nat} {desc : Desc} (ho : ¬ Ordinary typedef e) (h : resolveType typedef db d e = .ok (full typedef db d e desc)) :
    (ty typedef db (d + 1) e).layout = desc.layout (ty typedef db d) := by
  rw [Shown.ty_eq (Shown.shallow_of_resolve ho h)]
  rfl

theorem reference_known {e t : Nat} {m : Bool} (h : Describes typedef db e (.reference m t)) : ¬ Ordinary typedef e := by
  obtain ⟨⟨i, h⟩, -⟩ := h
  simp [Ordinary, h]

theorem pointer_known {e t : Nat} {m : Bool} (h : Describes typedef db e (.pointer m t)) : ¬ Ordinary typedef e := by
  obtain ⟨⟨i, h⟩, -⟩ := h
  simp [Ordinary, h]

theorem reaches_matching (hw : WellFormed db) (hdec : Decodes db) {S : Str} {own : Desc} (ho : Own S own) {e : Nat} (h : Reaches typedef db S e) :
    ∃ N, ∀ d lay, N ≤ d → Stands typedef db S own lay → (ty typedef db d e).layout.dereferenced.matching (lay) = true := by
  induction h with
  | own hO hn =>
    refine ⟨1, fun d lay hd hl => ?_⟩
    rw [ty_ordinary hO hd, (dieName_iff _ _ _).2 hn]
    simp [Layout.dereferenced, alias_matching ho hl]
  | @ref e t m hI _ ih =>
    obtain ⟨N, hN⟩ := ih
    obtain ⟨M, hM⟩ := Shown.types_at hw hdec hI
    refine ⟨max N M + 1, fun d lay hd hl => ?_⟩
    obtain ⟨d, rfl⟩ : ∃ k, d = k + 1 := ⟨d - 1, by omega⟩
    rw [ty_known (reference_known hI.1) (hM d (by omega)).2.1]
    simp only [Desc.layout, Layout.dereferenced, dereferenced_mk]
    exact hN d lay (by omega) hl
  | @ptr e t m hI _ ih =>
    obtain ⟨N, hN⟩ := ih
    obtain ⟨M, hM⟩ := Shown.types_at hw hdec hI
    refine ⟨max N M + 1, fun d lay hd hl => ?_⟩
    obtain ⟨d, rfl⟩ : ∃ k, d = k + 1 := ⟨d - 1, by omega⟩
    rw [ty_known (pointer_known hI.1) (hM d (by omega)).2.1]
    simp only [Desc.layout, Layout.dereferenced, dereferenced_mk]
    exact hN d lay (by omega) hl

theorem not_reaches_matching (hw : WellFormed db) (hdec : Decodes db) {S : Str} (hS : S ≠ chars! "unknown") {own : Desc} (ho : Own S own) {e : Nat} (hk : Known typedef db e)
    (h : ¬ Reaches typedef db S e) : ∃ N, ∀ d lay, N ≤ d → Stands typedef db S own lay → (ty typedef db d e).layout.dereferenced.matching (lay) = false := by
  induction hk with
  | @user e hO =>
    refine ⟨1, fun d lay hd hl => ?_⟩
    rw [ty_ordinary hO hd]
    simp only [Layout.dereferenced, alias_matching ho hl, beq_eq_false_iff_ne]
    cases hn : dieName db e with
    | ok n =>
      simp only
      rintro rfl
      exact h (.own hO ((dieName_iff _ _ _).1 hn))
    | err => exact fun hh => hS hh.symm
    | panic => exact fun hh => hS hh.symm
  | @built e desc hO hD hK ih =>
    obtain ⟨M, hM⟩ := Shown.types_at hw hdec (⟨hD, hK⟩ : Is typedef db e desc)
    have behind : ∀ t ∈ desc.parts, ¬ Reaches typedef db S t → (∀ T, ((desc.layout T).dereferenced = (T t).layout.dereferenced)) →
        ∃ N, ∀ d lay, N ≤ d → Stands typedef db S own lay → (ty typedef db d e).layout.dereferenced.matching (lay) = false := by
      intro t ht hr hL
      obtain ⟨N, hN⟩ := ih t ht hr
      refine ⟨max N M + 1, fun d lay hd hl => ?_⟩
      obtain ⟨d, rfl⟩ : ∃ k, d = k + 1 := ⟨d - 1, by omega⟩
      rw [ty_known hO (hM d (by omega)).2.1, hL]
      exact hN d lay (by omega) hl
    by_cases hr : ∃ m t, desc = .reference m t
    · obtain ⟨m, t, rfl⟩ := hr
      exact behind t (by simp [Desc.parts]) (fun hr => h (.ref ⟨hD, hK⟩ hr)) fun T => by simp [Desc.layout, Layout.dereferenced, dereferenced_mk]
    · by_cases hp : ∃ m t, desc = .pointer m t
      · obtain ⟨m, t, rfl⟩ := hp
        exact behind t (by simp [Desc.parts]) (fun hr => h (.ptr ⟨hD, hK⟩ hr)) fun T => by simp [Desc.layout, Layout.dereferenced, dereferenced_mk]
      · refine ⟨M + 1, fun d lay hd hl => ?_⟩
        obtain ⟨d, rfl⟩ : ∃ k, d = k + 1 := ⟨d - 1, by omega⟩
        rw [ty_known hO (hM d (by omega)).2.1, Bool.eq_false_iff]
        intro hm
        rw [desc_matching ho ⟨hD, hK⟩ _ hl (fun m t hh => hr ⟨m, t, hh⟩) fun m t hh => hp ⟨m, t, hh⟩] at hm
        cases desc with
        | struct => exact hO hD.1
        | «enum» => exact hO hD.1
        | cenum => exact hO hD.1
        | _ => cases own <;> exact hm.elim

/-- The receiver as the code finds it. -/
theorem receiver_found (hw : WellFormed db) (hdec : Decodes db) {S : Str} {own : Desc} (ho : Own S own) {e : Nat} {text : Str} (h : Receiver typedef db S own e text) :
    ∃ N, ∀ d lay, N ≤ d → Stands typedef db S own lay → ∃ td, resolveType typedef db d e = .ok td ∧ td.layout.dereferenced.matching (lay) = true ∧ (Discovery.SelfType.of td.layout).text = text := by
  cases h with
  | value hI hs =>
    rename_i desc
    obtain ⟨M, hM⟩ := Shown.types_at hw hdec hI
    refine ⟨M, fun d lay hd hl => ⟨_, (hM d hd).2.1, ?_, ?_⟩⟩
    · refine (desc_matching ho hI _ hl ?_ ?_).2 hs
      · rintro m t rfl; cases own <;> exact hs.elim
      · rintro m t rfl; cases own <;> exact hs.elim
    · cases desc <;> first | rfl | (cases own <;> exact hs.elim)
  | ref hI hr =>
    obtain ⟨N, hN⟩ := reaches_matching hw hdec ho hr
    obtain ⟨M, hM⟩ := Shown.types_at hw hdec hI
    refine ⟨max N M, fun d lay hd hl => ⟨_, (hM d (by omega)).2.1, ?_, rfl⟩⟩
    simp only [full, TypeDef.layout, Desc.layout, Layout.dereferenced, dereferenced_mk]
    exact hN d lay (by omega) hl
  | refMut hI hr =>
    obtain ⟨N, hN⟩ := reaches_matching hw hdec ho hr
    obtain ⟨M, hM⟩ := Shown.types_at hw hdec hI
    refine ⟨max N M, fun d lay hd hl => ⟨_, (hM d (by omega)).2.1, ?_, rfl⟩⟩
    simp only [full, TypeDef.layout, Desc.layout, Layout.dereferenced, dereferenced_mk]
    exact hN d lay (by omega) hl
  | ptr hI hr =>
    obtain ⟨N, hN⟩ := reaches_matching hw hdec ho hr
    obtain ⟨M, hM⟩ := Shown.types_at hw hdec hI
    refine ⟨max N M, fun d lay hd hl => ⟨_, (hM d (by omega)).2.1, ?_, rfl⟩⟩
    simp only [full, TypeDef.layout, Desc.layout, Layout.dereferenced, dereferenced_mk]
    exact hN d lay (by omega) hl

/-- No receiver, as the code finds it. -/
theorem receiver_none (hw : WellFormed db) (hdec : Decodes db) {S : Str} (hS : S ≠ chars! "unknown") {own : Desc} (ho : Own S own) {e : Nat} {desc : Desc}
    (hI : Is typedef db e desc) (h : ∀ text, ¬ Receiver typedef db S own e text) :
    ∃ N, ∀ d lay, N ≤ d → Stands typedef db S own lay → ∃ td, resolveType typedef db d e = .ok td ∧ td.layout.dereferenced.matching (lay) = false := by
  obtain ⟨M, hM⟩ := Shown.types_at hw hdec hI
  have behind : ∀ t ∈ desc.parts, ¬ Reaches typedef db S t → (∀ T, ((desc.layout T).dereferenced = (T t).layout.dereferenced)) →
      ∃ N, ∀ d lay, N ≤ d → Stands typedef db S own lay → ∃ td, resolveType typedef db d e = .ok td ∧ td.layout.dereferenced.matching (lay) = false := by
    intro t ht hr hL
    obtain ⟨N, hN⟩ := not_reaches_matching hw hdec hS ho (hI.2 t ht) hr
    refine ⟨max N M, fun d lay hd hl => ⟨_, (hM d (by omega)).2.1, ?_⟩⟩
    simp only [full, TypeDef.layout]
    rw [hL]
    exact hN d lay (by omega) hl
  by_cases hr : ∃ m t, desc = .reference m t
  · obtain ⟨m, t, rfl⟩ := hr
    refine behind t (by simp [Desc.parts]) (fun hr => ?_) fun T => by simp [Desc.layout, Layout.dereferenced, dereferenced_mk]
    cases m
    · exact h _ (.ref hI hr)
    · exact h _ (.refMut hI hr)
  · by_cases hp : ∃ m t, desc = .pointer m t
    · obtain ⟨m, t, rfl⟩ := hp
      exact behind t (by simp [Desc.parts]) (fun hr => h _ (.ptr hI hr)) fun T => by simp [Desc.layout, Layout.dereferenced, dereferenced_mk]
    · refine ⟨M, fun d lay hd hl => ⟨_, (hM d hd).2.1, ?_⟩⟩
      rw [Bool.eq_false_iff]
      intro hm
      exact h _ (.value hI ((desc_matching ho hI _ hl (fun m t hh => hr ⟨m, t, hh⟩) fun m t hh => hp ⟨m, t, hh⟩).1 hm))

end

end Rudy.Image
