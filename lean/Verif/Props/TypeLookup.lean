import Verif.Props.TypeNames
/-
C61: looking a type up by name, and the names of debug-info entries.
-/
namespace Rudy.TypeNames
open Rudy Rudy.Layout Rudy.Expr Rudy.Dwarf Rudy.Parse Rudy.Modules

/-! ### Vocabulary -/

/-- The entries directly inside the namespaces with this path, in document order. -/
def listed (us : List UnitOf) (db : Db) (path : List Str) : List Nat :=
  ((fileNamespaces us).filter fun e => decide (e.2 = path)).flatMap fun e =>
    match db.children e.1.off with
    | .ok cs => cs
    | _ => []

/-- The entry is a type (structure, enumeration, array, pointer or base type) whose name, read in the
module `path`, stands for a type matching `l`. -/
def IsType (lib : Lib) (db : Db) (path : List Str) (l : Layout) (c : Nat) : Prop :=
  ∃ d n t, db.entry c = some d ∧
    d.tag ∈ [Tag.structureType, .enumerationType, .arrayType, .pointerType, .baseType] ∧
    d.attr .name = some (.str n) ∧ parseType lib (qualify path n) = .ok t ∧
    (t.layout lib.render).matching l = true

/-- `c` is the first element of the list with the property. -/
def First {α : Type} (P : α → Prop) (xs : List α) (c : α) : Prop :=
  ∃ pre post, xs = pre ++ c :: post ∧ P c ∧ ∀ x ∈ pre, ¬ P x

/-! ### Proofs -/

theorem fullText_qualify (path : List Str) (name : Str) : fullText path name = qualify path name := by
  have key : ∀ (x : Str) (xs : List Str), joinWith (chars! "::") (x :: xs) ++ chars! "::" ++ name =
      joinWith (chars! "::") (x :: xs ++ [name]) := by
    intro x xs
    induction xs generalizing x with
    | nil => simp [joinWith]
    | cons y ys ih =>
      have := ih y
      simp only [List.cons_append] at this ⊢
      rw [joinWith, joinWith, ← this]
      simp
  cases path with
  | nil => simp [fullText, qualify, joinWith]
  | cons x xs => simp only [fullText, List.isEmpty_cons, Bool.false_eq_true, if_false, qualify]; exact key x xs

theorem splitColons_ne (s : Str) : splitColons s ≠ [] := by
  fun_induction splitColons s <;> simp_all

theorem splitColons_join (s : Str) : joinWith (chars! "::") (splitColons s) = s := by
  fun_induction splitColons s with
  | case1 => rfl
  | case2 cs ih =>
    cases h : splitColons cs with
    | nil => exact absurd h (splitColons_ne cs)
    | cons a as => rw [h] at ih; rw [joinWith, ih]; rfl
  | case3 c cs _ h ih => exact absurd h (splitColons_ne cs)
  | case4 c cs _ s ss h ih =>
    rw [h] at ih
    cases ss with
    | nil => simp only [joinWith] at ih ⊢; rw [ih]
    | cons a as => simp only [joinWith] at ih ⊢; rw [← ih]; simp

theorem joinWith_dropLast (xs : List Str) (last after : Str) (h : xs ≠ []) (hl : xs.getLast? = some last) :
    qualify xs.dropLast (last ++ after) = joinWith (chars! "::") xs ++ after := by
  induction xs with
  | nil => exact absurd rfl h
  | cons x xs ih =>
    cases xs with
    | nil =>
      simp at hl; subst hl
      simp [qualify, joinWith]
    | cons y ys =>
      have := ih (by simp) (by simpa using hl)
      simp only [qualify, List.dropLast_cons₂, List.cons_append] at this ⊢
      cases hd : ((y :: ys).dropLast ++ [last ++ after]) with
      | nil => simp at hd
      | cons a as => rw [joinWith, joinWith, ← hd, this]; simp

/-- The module path and the name of a text together are the text. -/
theorem split_text (s : Str) : qualify (splitName s).1 (splitName s).2 = s := by
  simp only [splitName]
  cases h : (splitColons (s.takeWhile (· != '<'))).getLast? with
  | none => exact absurd (List.getLast?_eq_none_iff.1 h) (splitColons_ne _)
  | some last =>
    simp only [Option.getD_some]
    rw [joinWith_dropLast _ last _ (splitColons_ne _) h, splitColons_join]
    exact List.takeWhile_append_dropWhile

theorem isTypeTag_iff (db : Db) (c : Nat) : isTypeTag (tag db c) = true ↔
    ∃ d, db.entry c = some d ∧ d.tag ∈ [Tag.structureType, .enumerationType, .arrayType, .pointerType, .baseType] := by
  simp only [tag]
  cases db.entry c with
  | none => simp [isTypeTag]
  | some d => cases h : d.tag <;> simp [isTypeTag, h]

theorem dieName_ok (db : Db) (c : Nat) (n : Str) :
    dieName db c = .ok n ↔ ∃ d, db.entry c = some d ∧ d.attr .name = some (.str n) := by
  simp only [dieName, stringAttr]
  cases db.entry c with
  | none => simp
  | some d =>
    simp only [Die.stringAttr, Option.some.injEq, exists_eq_left']
    split
    · rename_i s hs; simp [hs]
    · rename_i hs
      constructor
      · intro h; cases h
      · intro h; exact absurd h (hs n)

theorem findInChildren_spec (lib : Lib) (db : Db) (t : TypeName) (cs : List Nat) :
    (∀ c, findInChildren lib db t cs = .ok (some c) → First (IsType lib db t.modulePath t.typedef) cs c) ∧
    (findInChildren lib db t cs = .ok none → ∀ x ∈ cs, ¬ IsType lib db t.modulePath t.typedef x) ∧
    findInChildren lib db t cs ≠ .err := by
  induction cs with
  | nil =>
    refine ⟨fun c h => ?_, fun _ x hx => ?_, ?_⟩
    · cases h
    · cases hx
    · intro h; cases h
  | cons x xs ih =>
    have skip : ¬ IsType lib db t.modulePath t.typedef x →
        (∀ c, findInChildren lib db t xs = .ok (some c) → First (IsType lib db t.modulePath t.typedef) (x :: xs) c) ∧
        (findInChildren lib db t xs = .ok none → ∀ y ∈ x :: xs, ¬ IsType lib db t.modulePath t.typedef y) ∧
        findInChildren lib db t xs ≠ .err := by
      intro hx
      refine ⟨fun c h => ?_, fun h y hy => ?_, ih.2.2⟩
      · obtain ⟨pre, post, rfl, h1, h2⟩ := ih.1 c h
        refine ⟨x :: pre, post, rfl, h1, ?_⟩
        intro y hy
        rcases List.mem_cons.1 hy with rfl | hy
        · exact hx
        · exact h2 y hy
      · rcases List.mem_cons.1 hy with rfl | hy
        · exact hx
        · exact ih.2.1 h y hy
    simp only [findInChildren]
    split
    · rename_i htag
      cases hn : dieName db x with
      | panic => exact ⟨(fun c h => by cases h), (fun h => by cases h), by intro h; cases h⟩
      | err =>
        apply skip
        rintro ⟨d, n, t', h1, _, h2, _⟩
        rw [(dieName_ok db x n).2 ⟨d, h1, h2⟩] at hn
        cases hn
      | ok n =>
        obtain ⟨d, hd, hdn⟩ := (dieName_ok db x n).1 hn
        simp only [TypeName.parse, fullText_qualify]
        cases hp : parseType lib (qualify t.modulePath n) with
        | panic => exact ⟨(fun c h => by cases h), (fun h => by cases h), by intro h; cases h⟩
        | err =>
          apply skip
          rintro ⟨d', n', t', h1, _, h2, h3, _⟩
          rw [hd] at h1; cases h1
          rw [hdn] at h2; cases h2
          rw [hp] at h3; cases h3
        | ok t' =>
          simp only [Res.bind]
          split
          · rename_i hm
            refine ⟨fun c h => ?_, (fun h => by cases h), by intro h; cases h⟩
            cases h
            obtain ⟨d', hd', htg⟩ := (isTypeTag_iff db x).1 htag
            rw [hd] at hd'; cases hd'
            exact ⟨[], xs, rfl, ⟨d, n, t', hd, htg, hdn, hp, hm⟩, by simp⟩
          · rename_i hm
            apply skip
            rintro ⟨d', n', t'', h1, _, h2, h3, h4⟩
            rw [hd] at h1; cases h1
            rw [hdn] at h2; cases h2
            rw [hp] at h3; cases h3
            exact hm h4
    · rename_i htag
      apply skip
      rintro ⟨d, n, t', h1, h2, _⟩
      exact htag ((isTypeTag_iff db x).2 ⟨d, h1, h2⟩)

theorem First.append_left {α : Type} {P : α → Prop} {xs ys : List α} {c : α} (h : First P xs c) : First P (xs ++ ys) c := by
  obtain ⟨pre, post, rfl, h1, h2⟩ := h
  exact ⟨pre, post ++ ys, by simp, h1, h2⟩

theorem First.append_right {α : Type} {P : α → Prop} {xs ys : List α} {c : α} (hx : ∀ x ∈ xs, ¬ P x) (h : First P ys c) :
    First P (xs ++ ys) c := by
  obtain ⟨pre, post, rfl, h1, h2⟩ := h
  refine ⟨xs ++ pre, post, by simp, h1, ?_⟩
  intro x hx'
  rcases List.mem_append.1 hx' with h | h
  · exact hx x h
  · exact h2 x h

/-- The children of some entries. -/
def childrenOf (db : Db) (ms : List Die) : List Nat :=
  ms.flatMap fun m => match db.children m.off with | .ok cs => cs | _ => []

theorem findInEntries_spec (lib : Lib) (db : Db) (t : TypeName) (ms : List Die) :
    (∀ c, findInEntries lib db t ms = .ok (some c) → First (IsType lib db t.modulePath t.typedef) (childrenOf db ms) c) ∧
    (findInEntries lib db t ms = .ok none → ∀ x ∈ childrenOf db ms, ¬ IsType lib db t.modulePath t.typedef x) ∧
    findInEntries lib db t ms ≠ .err := by
  induction ms with
  | nil =>
    refine ⟨fun c h => ?_, fun _ x hx => ?_, ?_⟩
    · cases h
    · cases hx
    · intro h; cases h
  | cons m ms ih =>
    have step : ∀ cs, (∀ c, ((findInChildren lib db t cs).bind fun
          | some c => .ok (some c)
          | none => findInEntries lib db t ms) = .ok (some c) →
            First (IsType lib db t.modulePath t.typedef) (cs ++ childrenOf db ms) c) ∧
        (((findInChildren lib db t cs).bind fun
          | some c => .ok (some c)
          | none => findInEntries lib db t ms) = .ok none →
            ∀ x ∈ cs ++ childrenOf db ms, ¬ IsType lib db t.modulePath t.typedef x) ∧
        ((findInChildren lib db t cs).bind fun
          | some c => .ok (some c)
          | none => findInEntries lib db t ms) ≠ .err := by
      intro cs
      obtain ⟨h1, h2, h3⟩ := findInChildren_spec lib db t cs
      cases hc : findInChildren lib db t cs with
      | panic => exact ⟨(fun c h => by cases h), (fun h => by cases h), by intro h; cases h⟩
      | err => exact absurd hc h3
      | ok r =>
        cases r with
        | some c' =>
          refine ⟨fun c h => ?_, (fun h => by cases h), by intro h; cases h⟩
          cases h
          exact (h1 _ hc).append_left
        | none =>
          refine ⟨fun c h => (ih.1 c h).append_right (h2 hc), fun h x hx => ?_, ih.2.2⟩
          rcases List.mem_append.1 hx with hx | hx
          · exact h2 hc x hx
          · exact ih.2.1 h x hx
    simp only [findInEntries, childrenOf, List.flatMap_cons]
    cases hch : db.children m.off with
    | panic => exact ⟨(fun c h => by cases h), (fun h => by cases h), by intro h; cases h⟩
    | err => exact step []
    | ok cs => exact step cs

/-- The entries of a module found by path. -/
theorem findByPath_listed (us : List UnitOf) (h : FileOk us) (ix : ModuleIndex) (hix : moduleIndex (us.map encUnit) = .ok ix)
    (db : Db) (path : List Str) :
    childrenOf db (((ix.findByPath path).map Module.entries).getD []) = listed us db path := by
  have hl : listed us db path = childrenOf db (((fileNamespaces us).filter fun e => decide (e.2 = path)).map (·.1)) := by
    simp only [listed, childrenOf, List.flatMap_map]
  rw [hl]
  by_cases hp : path = []
  · subst hp
    obtain ⟨R, m, h1, -, -, -, h5⟩ := moduleIndex_ok us h
    rw [hix] at h1; cases h1
    have hat := (pushes_at (fileNamespaces us) [] .empty).1
    rw [← h5] at hat
    have he : Module.empty.at [] = [] := rfl
    rw [he, List.nil_append] at hat
    rw [← hat]
    rfl
  · obtain ⟨ix', h1, h2⟩ := C39_find_by_path us h
    rw [hix] at h1; cases h1
    rw [h2 path hp]
    simp only
    split
    · rename_i hn; rw [hn]; rfl
    · rfl

theorem findTypeByName_spec (lib : Lib) (us : List UnitOf) (h : FileOk us) (ix : ModuleIndex)
    (hix : moduleIndex (us.map encUnit) = .ok ix) (db : Db) (t : TypeName) :
    (∀ c, findTypeByName lib ix db t = .ok (some c) →
      First (IsType lib db t.modulePath t.typedef) (listed us db t.modulePath) c) ∧
    (findTypeByName lib ix db t = .ok none → ∀ x ∈ listed us db t.modulePath, ¬ IsType lib db t.modulePath t.typedef x) ∧
    findTypeByName lib ix db t ≠ .err := by
  rw [← findByPath_listed us h ix hix db t.modulePath]
  simp only [findTypeByName]
  cases ix.findByPath t.modulePath with
  | none =>
    refine ⟨(fun c h => by cases h), fun _ x hx => ?_, by intro h; cases h⟩
    simp [childrenOf] at hx
  | some m => exact findInEntries_spec lib db t m.entries

/-- The debug files are well formed and their module indexes are those of their units. -/
structure WorldOk (w : TypeWorld) (us : Nat → List UnitOf) : Prop where
  units : ∀ f ∈ w.indexed, FileOk (us f)
  modules : ∀ f ∈ w.indexed, moduleIndex ((us f).map encUnit) = .ok (w.modules f)

theorem findInFiles_spec (lib : Lib) (w : TypeWorld) (us : Nat → List UnitOf) (t : TypeName) (fs : List Nat)
    (hu : ∀ f ∈ fs, FileOk (us f)) (hm : ∀ f ∈ fs, moduleIndex ((us f).map encUnit) = .ok (w.modules f)) :
    (∀ td, findInFiles lib w t fs = .ok (some td) → ∃ f c,
      First (fun f => ∃ x ∈ listed (us f) (w.file f) t.modulePath, IsType lib (w.file f) t.modulePath t.typedef x) fs f ∧
      First (IsType lib (w.file f) t.modulePath t.typedef) (listed (us f) (w.file f) t.modulePath) c ∧ w.resolve f c = .ok td) ∧
    (findInFiles lib w t fs = .ok none → ∀ f ∈ fs, ∀ x ∈ listed (us f) (w.file f) t.modulePath,
      ¬ IsType lib (w.file f) t.modulePath t.typedef x) ∧
    (findInFiles lib w t fs = .err → ∃ f c,
      First (fun f => ∃ x ∈ listed (us f) (w.file f) t.modulePath, IsType lib (w.file f) t.modulePath t.typedef x) fs f ∧
      First (IsType lib (w.file f) t.modulePath t.typedef) (listed (us f) (w.file f) t.modulePath) c ∧ w.resolve f c = .err) := by
  induction fs with
  | nil =>
    refine ⟨fun c h => ?_, fun _ x hx => ?_, ?_⟩
    · cases h
    · cases hx
    · intro h; cases h
  | cons f fs ih =>
    obtain ⟨i1, i2, i3⟩ := ih (fun g hg => hu g (by simp [hg])) (fun g hg => hm g (by simp [hg]))
    obtain ⟨h1, h2, h3⟩ := findTypeByName_spec lib (us f) (hu f (by simp)) (w.modules f) (hm f (by simp)) (w.file f) t
    simp only [findInFiles]
    cases hf : findTypeByName lib (w.modules f) (w.file f) t with
    | panic => exact ⟨(fun c h => by cases h), (fun h => by cases h), (fun h => by cases h)⟩
    | err => exact absurd hf h3
    | ok r =>
      cases r with
      | none =>
        have hno := h2 hf
        have hno' : ∀ x ∈ [f], ¬ ∃ y ∈ listed (us x) (w.file x) t.modulePath, IsType lib (w.file x) t.modulePath t.typedef y := by
          intro x hx
          simp at hx; subst hx
          rintro ⟨y, hy, hy'⟩
          exact hno y hy hy'
        refine ⟨fun td h => ?_, fun h g hg => ?_, fun h => ?_⟩
        · obtain ⟨g, c, a, b, d⟩ := i1 td h
          exact ⟨g, c, First.append_right (xs := [f]) hno' a, b, d⟩
        · rcases List.mem_cons.1 hg with rfl | hg
          · exact hno
          · exact i2 h g hg
        · obtain ⟨g, c, a, b, d⟩ := i3 h
          exact ⟨g, c, First.append_right (xs := [f]) hno' a, b, d⟩
      | some c =>
        have hc := h1 c hf
        have hfirst : First (fun f => ∃ x ∈ listed (us f) (w.file f) t.modulePath,
            IsType lib (w.file f) t.modulePath t.typedef x) (f :: fs) f := by
          obtain ⟨pre, post, e, p, _⟩ := hc
          exact ⟨[], fs, rfl, ⟨c, by rw [e]; simp, p⟩, by simp⟩
        simp only [Res.bind]
        cases hr : w.resolve f c with
        | panic => exact ⟨(fun c h => by cases h), (fun h => by cases h), (fun h => by cases h)⟩
        | err => exact ⟨(fun c h => by cases h), (fun h => by cases h), (fun _ => ⟨f, c, hfirst, hc, hr⟩)⟩
        | ok td =>
          refine ⟨fun td' h => ?_, (fun h => by cases h), (fun h => by cases h)⟩
          cases h
          exact ⟨f, c, hfirst, hc, hr⟩

/-- Reading a segment in front of a separated text. -/
theorem splitColons_seg (x : Str) (hx : ':' ∉ x) : splitColons x = [x] := by
  induction x with
  | nil => rfl
  | cons c cs ih =>
    have hc : c ≠ ':' := by intro h; exact hx (by simp [h])
    have := ih (fun h => hx (List.mem_cons_of_mem _ h))
    unfold splitColons
    split
    · rename_i heq; cases heq
    · rename_i heq; cases heq; exact absurd rfl hc
    · rename_i heq; cases heq; rw [this]

theorem splitColons_cons (x rest : Str) (hx : ':' ∉ x) : splitColons (x ++ chars! "::" ++ rest) = x :: splitColons rest := by
  induction x with
  | nil => rfl
  | cons c cs ih =>
    have hc : c ≠ ':' := by intro h; exact hx (by simp [h])
    have := ih (fun h => hx (List.mem_cons_of_mem _ h))
    simp only [List.cons_append] at this ⊢
    rw [splitColons]
    · rw [this]
    · intro cs' h _; exact hc h

theorem splitColons_joined (xs : List Str) (y : Str) (hx : ∀ x ∈ xs, ':' ∉ x) (hy : ':' ∉ y) :
    splitColons (qualify xs y) = xs ++ [y] := by
  induction xs with
  | nil => simp [qualify, joinWith, splitColons_seg y hy]
  | cons x xs ih =>
    have := ih (fun z hz => hx z (by simp [hz]))
    simp only [qualify, List.cons_append] at this ⊢
    cases h : xs ++ [y] with
    | nil => simp at h
    | cons a as =>
      rw [joinWith, ← h, splitColons_cons x _ (hx x (by simp)), this]

theorem qualify_append (xs : List Str) (y z : Str) : qualify xs (y ++ z) = qualify xs y ++ z := by
  induction xs with
  | nil => simp [qualify, joinWith]
  | cons x xs ih =>
    simp only [qualify, List.cons_append] at ih ⊢
    cases h : xs ++ [y ++ z] with
    | nil => simp at h
    | cons a as =>
      cases h' : xs ++ [y] with
      | nil => simp at h'
      | cons b bs => rw [joinWith, joinWith, ← h, ← h', ih]; simp

theorem qualify_mem (xs : List Str) (y : Str) (c : Char) (h : c ∈ qualify xs y) : c = ':' ∨ c ∈ y ∨ ∃ x ∈ xs, c ∈ x := by
  induction xs with
  | nil => simp [qualify, joinWith] at h; exact Or.inr (Or.inl h)
  | cons x xs ih =>
    simp only [qualify, List.cons_append] at h ih
    cases h' : xs ++ [y] with
    | nil => simp at h'
    | cons b bs =>
      rw [h'] at h ih
      simp only [joinWith, List.mem_append] at h
      rcases h with (h | h) | h
      · exact Or.inr (Or.inr ⟨x, by simp, h⟩)
      · simp at h; exact Or.inl h
      · rcases ih h with h | h | ⟨z, hz, h⟩
        · exact Or.inl h
        · exact Or.inr (Or.inl h)
        · exact Or.inr (Or.inr ⟨z, by simp [hz], h⟩)

/-! ### Properties -/

/-- C61: the text is split at its last `::` outside the generic arguments, and nothing is lost. -/
theorem C61_split (s : Str) : qualify (splitName s).1 (splitName s).2 = s := split_text s

/-- C61: a name in a module splits into the path of the module and the name with its generic arguments,
whatever is in the arguments (which contain paths themselves). -/
theorem C61_split_where (path : List Str) (id : Str) (args : List Str)
    (hp : ∀ x ∈ path, ':' ∉ x ∧ '<' ∉ x) (hi : ':' ∉ id ∧ '<' ∉ id) :
    splitName (qualify path (withArgs id args)) = (path, withArgs id args) := by
  have key : ∀ after : Str, (after = [] ∨ ∃ r, after = '<' :: r) →
      splitName (qualify path (id ++ after)) = (path, id ++ after) := by
    intro after ha
    have hno : ∀ c ∈ qualify path id, (c != '<') = true := by
      intro c hc
      rcases qualify_mem _ _ _ hc with rfl | h | ⟨x, hx, h⟩
      · rfl
      · simp only [bne_iff_ne, ne_eq]; rintro rfl; exact hi.2 h
      · simp only [bne_iff_ne, ne_eq]; rintro rfl; exact (hp x hx).2 h
    have ht : (qualify path (id ++ after)).takeWhile (· != '<') = qualify path id := by
      rw [qualify_append, List.takeWhile_append_of_pos hno]
      rcases ha with rfl | ⟨r, rfl⟩ <;> simp
    have hd : (qualify path (id ++ after)).dropWhile (· != '<') = after := by
      rw [qualify_append, List.dropWhile_append_of_pos hno]
      rcases ha with rfl | ⟨r, rfl⟩ <;> simp
    simp only [splitName, ht, hd, splitColons_joined path id (fun x hx => (hp x hx).1) hi.1]
    simp
  cases args with
  | nil => simpa [withArgs] using key [] (Or.inl rfl)
  | cons a as =>
    have := key (chars! "<" ++ joinWith (chars! ", ") (a :: as) ++ chars! ">") (Or.inr ⟨_, rfl⟩)
    simpa [withArgs] using this

/-- The hypotheses of `C61_split_where` are met by a name with a path in its arguments. -/
example : splitName (chars! "alloc::vec::Vec<core::option::Option<u8>, alloc::alloc::Global>") =
    ([chars! "alloc", chars! "vec"], chars! "Vec<core::option::Option<u8>, alloc::alloc::Global>") :=
  C61_split_where [chars! "alloc", chars! "vec"] (chars! "Vec") [chars! "core::option::Option<u8>", chars! "alloc::alloc::Global"]
    (by decide) (by decide)

/-- C61: a type that is found is that of the first matching entry of the first file that has one: the
entry is directly inside a namespace with the path of the looked-up name, and its own name read in that
module stands for a matching type. -/
theorem C61_found (lib : Lib) (w : TypeWorld) (us : Nat → List UnitOf) (h : WorldOk w us) (s : Str) (td : TypeDef)
    (hf : lookupTypeByName lib w s = .ok (some td)) :
    ∃ t f c, parseType lib s = .ok t ∧
      First (fun f => ∃ x ∈ listed (us f) (w.file f) (splitName s).1,
        IsType lib (w.file f) (splitName s).1 (t.layout lib.render) x) w.indexed f ∧
      First (IsType lib (w.file f) (splitName s).1 (t.layout lib.render)) (listed (us f) (w.file f) (splitName s).1) c ∧
      w.resolve f c = .ok td := by
  simp only [lookupTypeByName, TypeName.parse, fullText_qualify, split_text] at hf
  cases hp : parseType lib s with
  | err => rw [hp] at hf; cases hf
  | panic => rw [hp] at hf; cases hf
  | ok t =>
    rw [hp] at hf
    simp only [Res.bind] at hf
    obtain ⟨f, c, h1, h2, h3⟩ := (findInFiles_spec lib w us _ w.indexed h.units h.modules).1 td hf
    exact ⟨t, f, c, rfl, h1, h2, h3⟩

/-- C61: a type is not found only if no file has a matching entry. -/
theorem C61_not_found (lib : Lib) (w : TypeWorld) (us : Nat → List UnitOf) (h : WorldOk w us) (s : Str)
    (hf : lookupTypeByName lib w s = .ok none) :
    ∃ t, parseType lib s = .ok t ∧ ∀ f ∈ w.indexed, ∀ x ∈ listed (us f) (w.file f) (splitName s).1,
      ¬ IsType lib (w.file f) (splitName s).1 (t.layout lib.render) x := by
  simp only [lookupTypeByName, TypeName.parse, fullText_qualify, split_text] at hf
  cases hp : parseType lib s with
  | err => rw [hp] at hf; cases hf
  | panic => rw [hp] at hf; cases hf
  | ok t =>
    rw [hp] at hf
    simp only [Res.bind] at hf
    exact ⟨t, rfl, (findInFiles_spec lib w us _ w.indexed h.units h.modules).2.1 hf⟩

/-- C61: looking up is an error only if the text is no type name or the type of the found entry cannot be
resolved. -/
theorem C61_error (lib : Lib) (w : TypeWorld) (us : Nat → List UnitOf) (h : WorldOk w us) (s : Str)
    (hf : lookupTypeByName lib w s = .err) :
    parseType lib s = .err ∨ ∃ t f c, parseType lib s = .ok t ∧
      First (IsType lib (w.file f) (splitName s).1 (t.layout lib.render)) (listed (us f) (w.file f) (splitName s).1) c ∧
      w.resolve f c = .err := by
  simp only [lookupTypeByName, TypeName.parse, fullText_qualify, split_text] at hf
  cases hp : parseType lib s with
  | err => exact Or.inl rfl
  | panic => rw [hp] at hf; cases hf
  | ok t =>
    rw [hp] at hf
    simp only [Res.bind] at hf
    obtain ⟨f, c, _, h2, h3⟩ := (findInFiles_spec lib w us _ w.indexed h.units h.modules).2.2 hf
    exact Or.inr ⟨t, f, c, rfl, h2, h3⟩

/-- C61: a type entry whose name is the looked-up name, in the module it is looked up in, is always found
(or another one that matches before it). -/
theorem C61_own_name (lib : Lib) (w : TypeWorld) (us : Nat → List UnitOf) (h : WorldOk w us) (s : Str) (f c : Nat) (d : Die)
    (hf : f ∈ w.indexed) (hc : c ∈ listed (us f) (w.file f) (splitName s).1) (hd : (w.file f).entry c = some d)
    (ht : d.tag ∈ [Tag.structureType, .enumerationType, .arrayType, .pointerType, .baseType])
    (hn : d.attr .name = some (.str (splitName s).2)) : lookupTypeByName lib w s ≠ .ok none := by
  intro hl
  obtain ⟨t, h1, h2⟩ := C61_not_found lib w us h s hl
  refine h2 f hf c hc ⟨d, _, t, hd, ht, hn, ?_, ?_⟩
  · rw [split_text, h1]
  · have := C21_reflexive (.mk none (t.layout lib.render))
    simpa [TypeDef.matching, locMatches] using this

theorem namespaces_paths : ∀ (n : Nat) (t : Walker.Tree Die), sizeOf t ≤ n → ∀ pre, ∀ e ∈ namespacesOf pre t, e.2 ≠ [] := by
  intro n
  induction n with
  | zero => intro t ht; cases t; simp at ht
  | succ n ih =>
    intro t ht pre e he
    cases t with
    | node d a b ks =>
      have hlist : ∀ (ks : List (Walker.Tree Die)), sizeOf ks ≤ n → ∀ pre, ∀ e ∈ namespacesOfList pre ks, e.2 ≠ [] := by
        intro ks
        induction ks with
        | nil => intro _ pre e he; simp [namespacesOfList] at he
        | cons k ks ihk =>
          intro hs pre e he
          simp only [List.cons.sizeOf_spec] at hs
          simp only [namespacesOfList, List.mem_append] at he
          rcases he with he | he
          · exact ih k (by omega) pre e he
          · exact ihk (by omega) pre e he
      simp only [namespacesOf] at he
      split at he
      · rcases List.mem_cons.1 he with rfl | he
        · simp
        · exact hlist ks (by simp only [Walker.Tree.node.sizeOf_spec] at ht; omega) _ e he
      · cases he

theorem fileNamespaces_paths (us : List UnitOf) : ∀ e ∈ fileNamespaces us, e.2 ≠ [] := by
  intro e he
  simp only [fileNamespaces, List.mem_flatMap] at he
  obtain ⟨u, _, he⟩ := he
  split at he
  · generalize u.1.kids = ks at he
    induction ks with
    | nil => simp [namespacesOfList] at he
    | cons k ks ih =>
      simp only [namespacesOfList, List.mem_append] at he
      rcases he with he | he
      · exact namespaces_paths _ k (Nat.le_refl _) [] e he
      · exact ih he
  · cases he

/-- C61 fails for types outside of any namespace: names without a module path, such as those of the
primitive types, are never found, whatever the debug files contain. -/
theorem C61_no_module_fails (lib : Lib) (w : TypeWorld) (us : Nat → List UnitOf) (h : WorldOk w us) (s : Str)
    (hs : (splitName s).1 = []) (td : TypeDef) : lookupTypeByName lib w s ≠ .ok (some td) := by
  intro hf
  obtain ⟨t, f, c, _, _, h2, _⟩ := C61_found lib w us h s td hf
  rw [hs] at h2
  have : listed (us f) (w.file f) [] = [] := by
    simp only [listed]
    have : (fileNamespaces (us f)).filter (fun e => decide (e.2 = [])) = [] := by
      rw [List.filter_eq_nil_iff]
      intro e he
      simpa using fileNamespaces_paths (us f) e he
    rw [this]; rfl
  rw [this] at h2
  obtain ⟨pre, post, e, _⟩ := h2
  simp at e

/-! ### Names of entries -/

/-- C45: an entry inside the standard library's modules whose name is that of a standard library type is
taken for that type when it is resolved: the layout that `get_die_typename` hands to type resolution is the
one the name stands for. -/
theorem C45_entry_name (lib : Lib) (hl : lib.LexesPlain) (us : List UnitOf) (h : FileOk us) (ix : ModuleIndex)
    (hix : moduleIndex (us.map encUnit) = .ok ix) (db : Db) (e : Nat) (d : Die) (u : UnitOf) (hu : u ∈ us)
    (hr : u.1.die.isRustCu = true) (path : List Str) (hm : (d, path) ∈ unitModules u.1) (ho : d.off = e)
    (hd : db.entry e = some d) (n shown : Str) (l : Layout) (hn : d.attr .name = some (.str n))
    (hs : Names lib.render (qualify path n) shown l) : dieTypedef lib ix db e = .ok (some l) := by
  obtain ⟨ix', h1, h2⟩ := C39_entry_in_its_module us h
  rw [hix] at h1; cases h1
  have h3 := h2 u hu hr _ hm
  simp only [ModuleIndex.containing, ho, Option.map_eq_some_iff] at h3
  obtain ⟨r, h4, h5⟩ := h3
  obtain ⟨t, h6, -, h7⟩ := C45_names lib hl _ _ _ hs
  simp only [dieTypedef, h4, (dieName_ok db e n).2 ⟨d, hd, hn⟩, TypeName.parse, fullText_qualify, h5, h6, Res.bind, h7]

/-! ### Example -/

/-- Entry 40 of the example file of C39, inside its namespace `a`, as a structure `Foo<u8>`, and a function
before it. -/
def demoDb : Db where
  entry := fun e =>
    if e = 40 then some { off := 40, tag := .structureType, attrs := [(.name, .str (chars! "Foo<u8>"))] }
    else if e = 35 then some { off := 35, tag := .subprogram, attrs := [(.name, .str (chars! "Foo<u8>"))] } else none
  children := fun e => if e = 20 then .ok [35, 40] else .err

/-- A single debug file. -/
def demoWorld (ix : ModuleIndex) : TypeWorld where
  indexed := [0]
  file := fun _ => demoDb
  modules := fun _ => ix
  resolve := fun _ e => .ok (.mk (some e) (.struct (chars! "Foo<u8>") 1 1 .nil))

/-- The structure is found by its qualified name. -/
example : ∃ ix, WorldOk (demoWorld ix) (fun _ => demoFile) ∧
    lookupTypeByName (plainLib true) (demoWorld ix) (chars! "a::Foo<u8>") =
      .ok (some (.mk (some 40) (.struct (chars! "Foo<u8>") 1 1 .nil))) := by
  obtain ⟨ix, h1, h2⟩ := C39_find_by_path demoFile demoFile_ok
  have hw : WorldOk (demoWorld ix) (fun _ => demoFile) := ⟨fun _ _ => demoFile_ok, fun _ _ => h1⟩
  refine ⟨ix, hw, ?_⟩
  have hp : parseType (plainLib true) (chars! "a::Foo<u8>") =
      .ok (.path (.cons (.named (chars! "a") .none false) (.cons (.named (chars! "Foo")
        (.args (.cons (.path (.cons (.named (chars! "u8") .none false) .nil)) .nil)) false) .nil))) := rfl
  have hm : ((ix.findByPath [chars! "a"]).map Module.entries).map (·.map Die.off) = some [20, 110] := by
    rw [h2 [chars! "a"] (by simp)]
    decide
  cases hf : ix.findByPath [chars! "a"] with
  | none => rw [hf] at hm; cases hm
  | some m =>
    rw [hf] at hm
    have he : m.entries.map Die.off = [20, 110] := by simpa using hm
    obtain ⟨d1, d2, he', ho⟩ : ∃ d1 d2, m.entries = [d1, d2] ∧ d1.off = 20 := by
      revert he
      cases m.entries with
      | nil => intro he; simp at he
      | cons d1 ds =>
        cases ds with
        | nil => intro he; simp at he
        | cons d2 ds =>
          cases ds with
          | nil => intro he; exact ⟨d1, d2, rfl, by simp at he; exact he.1⟩
          | cons _ _ => intro he; simp at he
    have h5 : splitName (chars! "a::Foo<u8>") = ([chars! "a"], chars! "Foo<u8>") := rfl
    have hq : qualify [chars! "a"] (chars! "Foo<u8>") = chars! "a::Foo<u8>" := rfl
    simp only [lookupTypeByName, TypeName.parse, fullText_qualify, h5, hq, hp, Res.bind, demoWorld, findInFiles,
      findTypeByName, hf, he', findInEntries, ho, demoDb, if_true]
    have t35 : isTypeTag (tag demoDb 35) = false := rfl
    have t40 : isTypeTag (tag demoDb 40) = true := rfl
    have n40 : dieName demoDb 40 = .ok (chars! "Foo<u8>") := rfl
    simp only [demoDb] at t35 t40 n40
    have hr : ∀ l : Layout, l.matching l = true := by
      intro l
      have := C21_reflexive (.mk none l)
      simpa [TypeDef.matching, locMatches] using this
    simp only [findInChildren, t35, t40, n40, TypeName.parse, fullText_qualify, hq, hp, Res.bind, hr, Bool.false_eq_true,
      if_false, if_true]

end Rudy.TypeNames
