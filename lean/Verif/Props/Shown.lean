import Verif.Proof.ShownReads
/-
Property theorems C76: what is printed is what the program holds. The specification (values and their texts, what debug
information says about types, what memory holds) is in Proof/Shown.lean.
-/
set_option linter.unusedSimpArgs false
namespace Rudy.Shown
open Rudy Rudy.Dwarf Rudy.Parse Rudy.Layout Rudy.Data Rudy.TypeRes Rudy.Eval Rudy.Expr

theorem bind_ok {σ α β : Type} {x : Ev σ α} {f : α → Ev σ β} {s s' : St σ} {a : α} (h : x s = (.ok a, s')) :
    x.bind f s = f a s' := by simp only [Ev.bind, h]

theorem bind_inv {σ α β : Type} {x : Ev σ α} {f : α → Ev σ β} {s s' : St σ} {b : β} (h : x.bind f s = (.ok b, s')) :
    ∃ a s1, x s = (.ok a, s1) ∧ f a s1 = (.ok b, s') := by
  cases hx : x s with
  | mk r s1 => cases r with
    | ok a => exact ⟨a, s1, rfl, by rw [bind_ok hx] at h; exact h⟩
    | err => simp only [Ev.bind, hx] at h; cases h
    | panic => simp only [Ev.bind, hx] at h; cases h

theorem callRef_shown {σ : Type} {W : World σ} {r : Server.CallResult × Option TypeDef} {s s' : St σ} {p : Ptr}
    (h : (Ev.lift (callRef r) : Ev σ Ptr) s = (.ok p, s')) : callShown W r s = pointerToResult W p s' := by
  obtain ⟨r1, r2⟩ := r
  cases r1 with
  | simple v t => cases h
  | complex a sz t =>
    cases r2 with
    | none => cases h
    | some t => cases h; rfl

/-- An expression that evaluates to a place is shown as what is at that place. -/
theorem evaluate_place {σ : Type} (W : World σ) (ex : Expr) (st st' : St σ) (p : Ptr)
    (h : toRef W ex st = (.ok p, st')) : evaluate W ex st = pointerToResult W p st' := by
  cases ex with
  | var x =>
    rw [toRef] at h
    rw [evaluate, bind_ok h]
  | field b f =>
    rw [toRef] at h
    obtain ⟨q, s, h1, h2⟩ := bind_inv h
    rw [evaluate, bind_ok h1, bind_ok h2]
  | index b i =>
    rw [toRef] at h
    obtain ⟨q, s, h1, h2⟩ := bind_inv h
    rw [evaluate, bind_ok h1, bind_ok h2]
  | method b n as =>
    rw [toRef] at h
    obtain ⟨q, s, h1, h2⟩ := bind_inv h
    rw [evaluate, bind_ok h1]
    rw [methodRef] at h2
    rw [methodShown]
    split at h2
    · cases h2
    · rename_i hs
      rw [if_neg hs]
      obtain ⟨r, s2, h3, h4⟩ := bind_inv h2
      rw [bind_ok h3, callRef_shown h4]
  | call f as =>
    rw [toRef] at h
    obtain ⟨r, s2, h3, h4⟩ := bind_inv h
    rw [evaluate, bind_ok h3, callRef_shown h4]
  | _ => simp only [toRef, Ev.lift] at h; cases h

theorem find_field (g : Nat → TypeDef) {f : Str} {o t : Nat} {fs : List (Str × Nat × Nat)} (hf : (f, o, t) ∈ fs)
    (hnd : (fs.map (·.1)).Nodup) :
    (fs.map fun x => (x.1, x.2.1, g x.2.2)).find? (fun x => x.1 == f) = some (f, o, g t) := by
  induction fs with
  | nil => cases hf
  | cons x fs ih =>
    rw [List.map_cons] at hnd ⊢
    obtain ⟨h1, h2⟩ := List.nodup_cons.1 hnd
    rcases List.mem_cons.1 hf with rfl | hf
    · simp
    · have : x.1 ≠ f := by
        rintro rfl; exact h1 (List.mem_map_of_mem (f := fun x => x.1) hf)
      rw [List.find?_cons_of_neg (by simpa using this)]
      exact ih hf h2

section
variable {typedef : Nat → Option Layout} {db : Db} {m : Mem} {lossy : List UInt8 → Str} {floatStr : Nat → Nat → Str}

/-- C76: an expression that evaluates to a place in memory — a variable, a field, an element, the result of a call — is
printed, given enough stack, as exactly the value memory holds there, if that is nested at most four levels deep. The type of
the place is that of the entry `e`, by name or in full. -/
theorem C76_shown_partial (hw : WellFormed db) (hdec : Decodes db) {n a e : Nat} {v : RVal} (hn : n ≤ 4)
    (h : Holds typedef db m lossy floatStr n a e v) :
    ∃ N, ∀ (σ : Type) (W : World σ) (ex : Expr) (st st' : St σ) (td : TypeDef) (depth : Nat), N ≤ depth → N ≤ W.stack →
      W.target st'.proc = target typedef db m lossy floatStr depth →
      resolveType typedef db depth e = .ok td ∨ shallow typedef db depth e = .ok td →
      toRef W ex st = (.ok (a, td), st') →
      evaluate W ex st = (.ok (v.text, td.displayName), st') := by
  obtain ⟨N, hN⟩ := holds_core hw hdec h
  refine ⟨N, fun σ W ex st st' td depth hd hs hT htd hp => ?_⟩
  obtain ⟨x, hx, hsh⟩ := hN depth W.stack W.stack hd hs hs td htd
  obtain ⟨y, hy, hv⟩ := hsh.2 8 (by omega)
  rw [evaluate_place W ex st st' _ hp]
  simp only [pointerToResult, Ev.reading, hT, hx, Res.bind_ok, hy, formatValue_shown, hv]

/-- C76 for a variable: where the program is stopped, the variable `x` is at `a`. -/
theorem C76_variable_partial (hw : WellFormed db) (hdec : Decodes db) {n a e : Nat} {v : RVal} (hn : n ≤ 4)
    (h : Holds typedef db m lossy floatStr n a e v) :
    ∃ N, ∀ (σ : Type) (W : World σ) (x : Str) (p : σ) (pc : Nat) (td : TypeDef) (depth : Nat), N ≤ depth → N ≤ W.stack →
      W.target p = target typedef db m lossy floatStr depth → W.frame p = some pc →
      resolveType typedef db depth e = .ok td ∨ shallow typedef db depth e = .ok td →
      W.variableAt p pc x = .ok (some (some (a, td))) →
      (evaluate W (.var x) (St.new p)).1 = .ok (v.text, td.displayName) := by
  obtain ⟨N, hN⟩ := C76_shown_partial hw hdec hn h
  refine ⟨N, fun σ W x p pc td depth hd hs hT hf htd hv => ?_⟩
  rw [hN σ W (.var x) (St.new p) ⟨some pc, [], p⟩ td depth hd hs hT htd]
  simp only [toRef, variableRef, Ev.bind, getPc, St.new, hf, Ev.reading, hv, Ev.lift]

/-- C76 for a field of a struct: of the variable `x`, a struct at `a` with a field `f` at offset `o`. -/
theorem C76_field_partial (hw : WellFormed db) (hdec : Decodes db) {n a e o t size align : Nat} {name f : Str} {v : RVal}
    {fs : List (Str × Nat × Nat)} (hn : n ≤ 4) (hI : Is typedef db e (.struct name size align fs))
    (hf : (f, o, t) ∈ fs) (hnd : (fs.map (·.1)).Nodup) (ha : a + o < u64Max1)
    (h : Holds typedef db m lossy floatStr n (a + o) t v) :
    ∃ N, ∀ (σ : Type) (W : World σ) (x : Str) (p : σ) (pc : Nat) (td : TypeDef) (depth : Nat), N ≤ depth → N ≤ W.stack →
      W.target p = target typedef db m lossy floatStr depth → W.frame p = some pc →
      resolveType typedef db depth e = .ok td →
      W.variableAt p pc x = .ok (some (some (a, td))) →
      ∃ tf, shallow typedef db depth t = .ok tf ∧
        (evaluate W (.field (.var x) f) (St.new p)).1 = .ok (v.text, tf.displayName) := by
  obtain ⟨N, hN⟩ := C76_shown_partial hw hdec hn h
  obtain ⟨M, hM⟩ := types_at hw hdec hI
  refine ⟨max N M, fun σ W x p pc td depth hd hs hT hfr htd hv => ?_⟩
  obtain ⟨hp, hr, _⟩ := hM depth (by omega)
  have hft := hp t (by simp only [Desc.parts]; exact List.mem_map_of_mem (f := fun x => x.2.2) hf)
  refine ⟨_, hft, ?_⟩
  rw [hr] at htd
  cases htd
  rw [hN σ W (.field (.var x) f) (St.new p) ⟨some pc, [], p⟩ _ depth (by omega) (by omega) hT (.inr hft)]
  have hfind := find_field (ty typedef db depth) hf hnd
  simp only [toRef, variableRef, Ev.bind, getPc, St.new, hfr, Ev.reading, hv, Ev.lift, getStructField, full, TypeDef.layout,
    Desc.layout, toList_membersOf, hfind, Res.ofOption, Res.bind_ok, addU_ok ha]

/-- C76 is false of the code for a field of a field: if the field `f` of the variable `x` is of a type of the user's own,
every `x.f.g` is an error, whether or not that type has a field `g` (debug_info.rs:507-540 does not look behind the name). -/
theorem C76_nested_field_fails (hw : WellFormed db) (hdec : Decodes db) {a e o t size align : Nat} {name f : Str}
    {fs : List (Str × Nat × Nat)} (hI : Is typedef db e (.struct name size align fs))
    (hf : (f, o, t) ∈ fs) (hnd : (fs.map (·.1)).Nodup) (ho : Ordinary typedef t) :
    ∃ N, ∀ (σ : Type) (W : World σ) (x g : Str) (p : σ) (pc : Nat) (td : TypeDef) (depth : Nat), N ≤ depth →
      W.frame p = some pc → resolveType typedef db depth e = .ok td → W.variableAt p pc x = .ok (some (some (a, td))) →
      ∀ r, (evaluate W (.field (.field (.var x) f) g) (St.new p)).1 ≠ .ok r := by
  obtain ⟨M, hM⟩ := types_at hw hdec hI
  refine ⟨M + 1, fun σ W x g p pc td depth hd hfr htd hv r => ?_⟩
  obtain ⟨hp, hr, _⟩ := hM depth (by omega)
  have hft := hp t (by simp only [Desc.parts]; exact List.mem_map_of_mem (f := fun x => x.2.2) hf)
  rw [hr] at htd
  cases htd
  have hfind := find_field (ty typedef db depth) hf hnd
  obtain ⟨depth, rfl⟩ : ∃ k, depth = k + 1 := ⟨depth - 1, by omega⟩
  obtain ⟨nm, hnm⟩ := shallow_ordinary (db := db) (d := depth) ho
  rw [hnm] at hft
  have hty : ty typedef db (depth + 1) t = .mk (some t) (.alias nm) := ty_eq hnm
  have hs : toRef W (.var x) (St.new p) = (.ok (a, full typedef db (depth + 1) e (.struct name size align fs)), ⟨some pc, [], p⟩) := by
    simp only [toRef, variableRef, Ev.bind, getPc, St.new, hfr, Ev.reading, hv, Ev.lift]
  intro he
  cases hq : toRef W (.field (.var x) f) (St.new p) with
  | mk q s =>
    rw [evaluate, Ev.bind, hq] at he
    cases q with
    | ok q =>
      rw [toRef, bind_ok hs] at hq
      simp only [Ev.lift, getStructField, full, TypeDef.layout, Desc.layout, toList_membersOf, hfind, Res.ofOption,
        Res.bind_ok, Prod.mk.injEq, Res.bind_eq_ok] at hq
      obtain ⟨⟨v, hv1, hv2⟩, -⟩ := hq
      cases hv2
      simp [Ev.bind, Ev.lift, getStructField, hty, TypeDef.layout] at he
    | err => cases he
    | panic => cases he

end

/-! ### Examples -/

/-- A memory made of pieces. -/
def pieces (l : List (Nat × List UInt8)) : Mem := fun x => l.findSome? fun p => if p.1 ≤ x then p.2[x - p.1]? else none

/-- A `HashMap<u8, Vec<u8>>` at 100 with one entry, `7: [1, 2]`: its table at 200, the elements of the vector at 300. -/
def mapMem : Mem := pieces [(100 + 16, encNat 8 200), (100 + 24, encNat 8 0), (100 + 40, encNat 8 1), (200, [5]),
  (168 + 8, encNat 8 300), (168 + 16, encNat 8 2), (168 + 24, [7]), (300, [1, 2])]

theorem firstNamed {db : Db} {e c : Nat} {n : Str} (h : member n db e = .ok c) : FirstChild db e (fun c => Named db c n) c :=
  (getMember_ok db e n c).1 h

theorem field_of {db : Db} {e c o t : Nat} {n : Str} (h : member n db e = .ok c) (h1 : Located db c o) (h2 : Typed db c t) :
    Field db e n o t := ⟨c, firstNamed h, h1, h2⟩

theorem off_of {db : Db} {e c o : Nat} {n : Str} (h : member n db e = .ok c) (h1 : Located db c o) : OffOf db e n o :=
  ⟨c, firstNamed h, h1⟩

theorem param_of {db : Db} {e c t : Nat} {n : Str} (h : member n db e = .ok c) (h1 : Tagged db c .templateTypeParameter)
    (h2 : Typed db c t) : Param db e n t := ⟨c, firstNamed h, h1, h2⟩

theorem is_u8 : Is demoTypedef (dbOf demo) 30 (.plain (.uint 1)) :=
  ⟨⟨rfl, by simp [Plain]⟩, by simp [Desc.parts]⟩

theorem known_u8 : Known demoTypedef (dbOf demo) 30 := .built (fun h => h) is_u8.1 is_u8.2

theorem is_vec : Is demoTypedef (dbOf demo) 1 (.vec 16 8 0 30) := by
  refine ⟨⟨⟨_, _, _, _, rfl⟩, demo_wellFormed.2.2 1, ?_, off_of (c := 4) rfl ⟨_, rfl, rfl⟩, ?_,
    param_of (c := 2) rfl ⟨_, rfl, rfl⟩ ⟨_, rfl, rfl⟩, by decide, by decide⟩, ?_⟩
  · exact ⟨32, .cons (o := 0) (o' := 8) (field_of (c := 3) rfl ⟨_, rfl, rfl⟩ ⟨_, rfl, rfl⟩)
      (.cons (o := 0) (o' := 8) (field_of (c := 11) rfl ⟨_, rfl, rfl⟩ ⟨_, rfl, rfl⟩)
        (.cons (o := 8) (o' := 0) (field_of (c := 13) rfl ⟨_, rfl, rfl⟩ ⟨_, rfl, rfl⟩) (.nil _)))⟩
  · exact ⟨31, .cons (o := 0) (o' := 0) (field_of (c := 3) rfl ⟨_, rfl, rfl⟩ ⟨_, rfl, rfl⟩)
      (.cons (o := 0) (o' := 0) (field_of (c := 11) rfl ⟨_, rfl, rfl⟩ ⟨_, rfl, rfl⟩)
        (.cons (o := 0) (o' := 0) (field_of (c := 14) rfl ⟨_, rfl, rfl⟩ ⟨_, rfl, rfl⟩)
          (.cons (o := 0) (o' := 0) (field_of (c := 16) rfl ⟨_, rfl, rfl⟩ ⟨_, rfl, rfl⟩) (.nil _))))⟩
  · simp only [Desc.parts, List.mem_singleton, forall_eq]; exact known_u8

theorem known_vec : Known demoTypedef (dbOf demo) 1 := .built (fun h => h) is_vec.1 is_vec.2

theorem is_map : Is demoTypedef (dbOf demo) 40 (.hashMap 24 16 40 32 24 0 30 1) := by
  refine ⟨⟨⟨_, _, _, _, _, _, _, _, rfl⟩, demo_wellFormed.2.2 40, param_of (c := 41) rfl ⟨_, rfl, rfl⟩ ⟨_, rfl, rfl⟩,
    param_of (c := 42) rfl ⟨_, rfl, rfl⟩ ⟨_, rfl, rfl⟩, 44, .inl ⟨43, firstNamed rfl, _, rfl, rfl⟩, 16, 46, 0, 55, 50, 8, 0, 24,
    field_of (c := 45) rfl ⟨_, rfl, rfl⟩ ⟨_, rfl, rfl⟩, field_of (c := 48) rfl ⟨_, rfl, rfl⟩ ⟨_, rfl, rfl⟩,
    param_of (c := 47) rfl ⟨_, rfl, rfl⟩ ⟨_, rfl, rfl⟩, ⟨_, rfl, rfl⟩, off_of (c := 51) rfl ⟨_, rfl, rfl⟩,
    off_of (c := 52) rfl ⟨_, rfl, rfl⟩, off_of (c := 56) rfl ⟨_, rfl, rfl⟩, off_of (c := 57) rfl ⟨_, rfl, rfl⟩,
    off_of (c := 58) rfl ⟨_, rfl, rfl⟩, rfl, rfl, rfl, by decide, by decide, by decide⟩, ?_⟩
  simp only [Desc.parts, List.mem_cons, List.not_mem_nil, or_false, forall_eq_or_imp, forall_eq]
  exact ⟨known_u8, known_vec⟩

theorem holds_u8 {n a v : Nat} {t : Str} (h : mapMem.HoldsNat a 1 v) (ht : natStr v = t) :
    Holds demoTypedef (dbOf demo) mapMem (fun _ => []) (fun _ _ => []) n a 30 (.leaf t) :=
  .plain is_u8 ⟨v, h, by rw [← ht, natStr_toString]⟩

theorem holds_vec : Holds demoTypedef (dbOf demo) mapMem (fun _ => []) (fun _ _ => []) 1 168 1
    (.seq [.leaf (chars! "1"), .leaf (chars! "2")]) := by
  refine .vec (p := 300) (s := 1) is_vec (.one is_u8 rfl) ?_ ?_ ?_ (by decide) (by decide) (by decide) (by decide)
  · unfold Mem.HoldsNat; decide
  · unfold Mem.HoldsNat; decide
  · intro i v hi
    match i, hi with
    | 0, hi => cases hi; exact holds_u8 (v := 1) (by unfold Mem.HoldsNat; decide) rfl
    | 1, hi => cases hi; exact holds_u8 (v := 2) (by unfold Mem.HoldsNat; decide) rfl
    | _ + 2, hi => cases hi

theorem holds_map : Holds demoTypedef (dbOf demo) mapMem (fun _ => []) (fun _ _ => []) 2 100 40
    (.map [(.leaf (chars! "7"), .seq [.leaf (chars! "1"), .leaf (chars! "2")])]) := by
  have ho : occupied [5] = [0] := by decide
  refine .hashMap (c := 0) (k := 200) (bytes := [5]) is_map ?_ ?_ ?_ rfl ?_ rfl ?_ ?_ ?_ ?_ ?_ ?_ ?_ ?_ ?_
  · unfold Mem.HoldsNat; decide
  · unfold Mem.HoldsNat; decide
  · unfold Mem.HoldsNat; decide
  · intro i hi
    have : i = 0 := by simp only [List.length_singleton] at hi; omega
    subst this; rfl
  · intro j b kv hb hk
    rw [ho] at hb
    match j, hb, hk with
    | 0, hb, hk => cases hb; cases hk; exact holds_u8 (v := 7) (by unfold Mem.HoldsNat; decide) rfl
    | _ + 1, hb, hk => cases hb
  · intro j b kv hb hk
    rw [ho] at hb
    match j, hb, hk with
    | 0, hb, hk => cases hb; cases hk; exact holds_vec
    | _ + 1, hb, hk => cases hb
  all_goals decide

/-- The map, as it is printed. -/
example : (RVal.map [(.leaf (chars! "7"), .seq [.leaf (chars! "1"), .leaf (chars! "2")])]).text =
    chars! "{\n  7: [\n    1,\n    2\n  ]\n}" := by decide

/-- A process stopped at 4096 with this map as its variable `m`. -/
def mapWorld (N : Nat) : World Unit where
  target := fun _ => target demoTypedef (dbOf demo) mapMem (fun _ => []) (fun _ _ => []) (N + 3)
  frame := fun _ => some 4096
  variableAt := fun _ _ x => .ok (if x = chars! "m" then some (some (100, .mk (some 40) (.map (.hashMap 24 16 40 32 24 0)
      (.mk (some 30) (.uint 1)) (.mk (some 1) (.vec 16 8 0 (.mk (some 30) (.uint 1))))))) else none)
  methods := fun _ => .err
  functions := fun _ => .err
  execute := fun _ s => (none, s)
  remote := { alloc := fun _ s => (none, s), write := fun _ _ s => (none, s), read := fun _ _ _ => none, lossy := fun _ => [] }
  isFloat := fun _ => false
  stack := N

/-- `C76_variable_partial` at work: the user types `m`. -/
example : ∃ N, (evaluate (mapWorld N) (.var (chars! "m")) (St.new ())).1 =
    .ok (chars! "{\n  7: [\n    1,\n    2\n  ]\n}", chars! "HashMap<u8, Vec<u8>>") := by
  obtain ⟨N, hN⟩ := C76_variable_partial demo_wellFormed.1 demo_wellFormed.2.1 (by omega) holds_map
  exact ⟨N, hN Unit (mapWorld N) (chars! "m") () 4096 _ (N + 3) (by omega) (Nat.le_refl _) rfl rfl
    (.inl (((resolveType_le demoTypedef (dbOf demo) 3 (N + 3) (by omega) 40).eq
      (by rw [demo_resolves.2.1]; simp)).trans demo_resolves.2.1)) rfl⟩

/-! ### Where it ends -/

/-- Five structs, one inside the other: `S1 { a: S2 }`, …, `S5 { a: u8 }`, and `[[S5; 2]; 2]` (70). -/
def nested : Table :=
  let s (n i t : Nat) (nm : Str) : Table :=
    [(n, .structureType, [(.name, .str nm), (.byteSize, .data 1), (.alignment, .data 1)], [i]),
     (i, .member, [(.name, .str (chars! "a")), (.dataMemberLocation, .data 0), (.type, .ref t)], [])]
  s 10 11 20 (chars! "S1") ++ s 20 21 30 (chars! "S2") ++ s 30 31 40 (chars! "S3") ++ s 40 41 50 (chars! "S4") ++
    s 50 51 60 (chars! "S5") ++
  [(60, .baseType, [(.name, .str (chars! "u8")), (.byteSize, .data 1)], []),
   (70, .arrayType, [(.type, .ref 72)], [71]), (71, .subrangeType, [(.count, .data 2)], []),
   (72, .arrayType, [(.type, .ref 50)], [73]), (73, .subrangeType, [(.count, .data 2)], [])]

/-- Only `u8` is told by its name. -/
def nestedTypedef : Nat → Option Layout
  | 60 => some (.uint 1)
  | _ => none

/-- A process with enough stack, stopped at 4096, with a variable `x` at 100 of this type. -/
def nestedWorld (td : TypeDef) : World Unit where
  target := fun _ => target nestedTypedef (dbOf nested) (pieces [(100, [7, 8, 9, 10])]) (fun _ => []) (fun _ _ => []) 9
  frame := fun _ => some 4096
  variableAt := fun _ _ _ => .ok (some (some (100, td)))
  methods := fun _ => .err
  functions := fun _ => .err
  execute := fun _ s => (none, s)
  remote := { alloc := fun _ s => (none, s), write := fun _ _ s => (none, s), read := fun _ _ _ => none, lossy := fun _ => [] }
  isFloat := fun _ => false
  stack := 9

/-- C76 is false of the code for values nested more than four levels deep: of five structs one inside the other the
innermost is printed with the address of its field instead of the number there. -/
theorem C76_deep_fails : ∃ td, resolveType nestedTypedef (dbOf nested) 9 10 = .ok td ∧
    (evaluate (nestedWorld td) (.var (chars! "x")) (St.new ())).1 =
      .ok (chars! "S1 {\n  a: S2 {\n    a: S3 {\n      a: S4 {\n        a: S5 {\n          a: <u8 @ 0x64>\n        }\n      }\n    }\n  }\n}",
        chars! "S1") := ⟨_, rfl, by with_unfolding_all rfl⟩

/-- C76 is false of the code for arrays of arrays of a user's type: `[[S5; 2]; 2]` cannot be read, because the size of an
array of a type known by name is not determined. -/
theorem C76_array_of_arrays_fails : ∃ td, resolveType nestedTypedef (dbOf nested) 9 70 = .ok td ∧
    (evaluate (nestedWorld td) (.var (chars! "x")) (St.new ())).1 = .err := ⟨_, rfl, by with_unfolding_all rfl⟩

theorem nested_wellFormed : WellFormed (dbOf nested) ∧ Decodes (dbOf nested) :=
  wellFormed_of nested (by decide)

theorem is_s5 : Is nestedTypedef (dbOf nested) 50 (.struct (chars! "S5") 1 1 [(chars! "a", 0, 60)]) := by
  refine ⟨⟨trivial, ⟨_, rfl, rfl⟩, ⟨_, rfl, rfl⟩, ⟨_, rfl, rfl⟩, ⟨_, rfl, rfl⟩, [51], rfl, ?_, ?_⟩, ?_⟩
  · intro c hc
    simp only [List.mem_singleton] at hc
    subst hc
    rintro ⟨d, h1, h2⟩
    cases h1
    cases h2
  · exact .cons ⟨⟨_, rfl, rfl⟩, ⟨_, rfl, rfl⟩, ⟨_, rfl, rfl⟩⟩ .nil
  · simp only [Desc.parts, List.map_cons, List.map_nil, List.mem_singleton, forall_eq]
    exact .built (d := .plain (.uint 1)) (fun h => h) ⟨rfl, by simp [Plain]⟩ (by simp [Desc.parts])

theorem is_s4 : Is nestedTypedef (dbOf nested) 40 (.struct (chars! "S4") 1 1 [(chars! "a", 0, 50)]) := by
  refine ⟨⟨trivial, ⟨_, rfl, rfl⟩, ⟨_, rfl, rfl⟩, ⟨_, rfl, rfl⟩, ⟨_, rfl, rfl⟩, [41], rfl, ?_, ?_⟩, ?_⟩
  · intro c hc
    simp only [List.mem_singleton] at hc
    subst hc
    rintro ⟨d, h1, h2⟩
    cases h1
    cases h2
  · exact .cons ⟨⟨_, rfl, rfl⟩, ⟨_, rfl, rfl⟩, ⟨_, rfl, rfl⟩⟩ .nil
  · simp only [Desc.parts, List.map_cons, List.map_nil, List.mem_singleton, forall_eq]
    exact .user trivial

theorem holds_s5 : Holds nestedTypedef (dbOf nested) (pieces [(100, [7, 8, 9, 10])]) (fun _ => []) (fun _ _ => []) 1 100 50
    (.record (chars! "S5") [(chars! "a", .leaf (chars! "7"))]) := by
  refine .struct (vs := [(chars! "a", 0, 60, .leaf (chars! "7"))]) is_s5 (.refl _) (by simp) ?_ (by decide)
  simp only [List.mem_singleton, forall_eq]
  refine .plain (l := .uint 1) ⟨⟨rfl, by simp [Plain]⟩, by simp [Desc.parts]⟩ ⟨7, ?_, ?_⟩
  · unfold Mem.HoldsNat; decide
  · rw [← natStr_toString]; rfl

/-- `C76_field_partial` at work: the variable `x` is an `S4`, the user types `x.a`. -/
example : ∃ N, ∀ (W : World Unit) (td : TypeDef), W.target () = target nestedTypedef (dbOf nested) (pieces [(100, [7, 8, 9, 10])])
      (fun _ => []) (fun _ _ => []) (N + 3) → W.frame () = some 4096 → N ≤ W.stack →
    resolveType nestedTypedef (dbOf nested) (N + 3) 40 = .ok td → W.variableAt () 4096 (chars! "x") = .ok (some (some (100, td))) →
    ∃ name, (evaluate W (.field (.var (chars! "x")) (chars! "a")) (St.new ())).1 = .ok (chars! "S5 {\n  a: 7\n}", name) := by
  obtain ⟨N, hN⟩ := C76_field_partial (a := 100) (f := chars! "a") (o := 0) (t := 50) nested_wellFormed.1 nested_wellFormed.2
    (by omega : 1 ≤ 4) is_s4 (by simp) (by simp) (by decide) holds_s5
  refine ⟨N, fun W td h1 h2 h3 h4 h5 => ?_⟩
  obtain ⟨tf, -, h⟩ := hN Unit W (chars! "x") () 4096 td (N + 3) (by omega) h3 h1 h2 h4 h5
  exact ⟨_, h⟩

/-- `C76_nested_field_fails` at work: `x.a.a` is an error for a variable `x` of type `S4`. -/
example : ∃ N, ∀ (W : World Unit) (td : TypeDef), W.frame () = some 4096 →
    resolveType nestedTypedef (dbOf nested) N 40 = .ok td → W.variableAt () 4096 (chars! "x") = .ok (some (some (100, td))) →
    ∀ r, (evaluate W (.field (.field (.var (chars! "x")) (chars! "a")) (chars! "a")) (St.new ())).1 ≠ .ok r := by
  obtain ⟨N, hN⟩ := C76_nested_field_fails (a := 100) (f := chars! "a") (o := 0) (t := 50) nested_wellFormed.1 nested_wellFormed.2
    is_s4 (by simp) (by simp) trivial
  exact ⟨N, fun W td h2 h4 h5 => hN Unit W (chars! "x") (chars! "a") () 4096 td N (Nat.le_refl _) h2 h4 h5⟩

end Rudy.Shown
