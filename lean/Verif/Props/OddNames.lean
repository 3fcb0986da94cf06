import Verif.Proof.TypeTotal
import Verif.Props.TypeNames
/-
C92: names of types the grammar has no rule for (closures, associated types and others among the generic
arguments).
-/
namespace Rudy.TypeNames
open Rudy Rudy.Layout Rudy.Expr

/-! ### Vocabulary -/

/-- The tokens of the modules of a path, each with the `::` after it. -/
inductive ModuleToks : List Str → List Tok → Prop
  | nil : ModuleToks [] []
  | cons (x : Str) (xs : List Str) (ts : List Tok) (j : Bool) : ModuleToks xs ts →
      ModuleToks (x :: xs) (.ident x :: .punct ':' true :: .punct ':' j :: ts)

/-- The standard library types by name, with any inner types. -/
inductive StdKind : Str → Layout → Prop
  | string (t) : StdKind (chars! "String") (.string 0 0 0 t)
  | vec (t) : StdKind (chars! "Vec") (.vec 0 0 0 t)
  | option (d t) : StdKind (chars! "Option") (.option (chars! "Option") d 0 t 0)
  | result (d t u) : StdKind (chars! "Result") (.result (chars! "Result") d t 0 u 0 0)
  | hashMap (t u) : StdKind (chars! "HashMap") (.map (.hashMap 0 0 0 0 0 0) t u)
  | btreeMap (n t u) : StdKind (chars! "BTreeMap") (.map (.btreeMap 0 0 0 0 n) t u)
  | smart (id v t) : (id, v) ∈ smartTable → StdKind id (.smartPtr v t 0 0)

/-! ### Proofs -/

theorem stdOf_kind {id : Str} (h : id ∈ stdNames) (as : List Layout) : ∃ l, stdOf id as = some l ∧ StdKind id l := by
  simp only [stdNames, List.mem_cons, List.not_mem_nil, or_false] at h
  rcases h with rfl | rfl | rfl | rfl | rfl | rfl | rfl | rfl | rfl | rfl | rfl | rfl | rfl | rfl
  · exact ⟨_, rfl, .string _⟩
  · exact ⟨_, rfl, .vec _⟩
  · exact ⟨_, rfl, .option _ _⟩
  · exact ⟨_, rfl, .result _ _ _⟩
  · exact ⟨_, rfl, .hashMap _ _⟩
  · exact ⟨_, rfl, .btreeMap _ _ _⟩
  all_goals exact ⟨_, rfl, .smart _ _ _ (by simp [smartTable])⟩

theorem stdNames_upper {id : Str} (h : id ∈ stdNames) (x : Str) : primitiveOf (id ++ x) = none := by
  simp only [stdNames, List.mem_cons, List.not_mem_nil, or_false] at h
  rcases h with rfl | rfl | rfl | rfl | rfl | rfl | rfl | rfl | rfl | rfl | rfl | rfl | rfl | rfl <;>
    simp [primitiveOf]

theorem stdRoots_or {path : List Str} {id : Str} (hp : StdPath path) (h : id ∈ stdNames) :
    ∃ x, (path ++ [id]).head? = some x ∧ x ∉ reserved := by
  rcases hp with rfl | ⟨r, rest, rfl, hr⟩
  · refine ⟨id, rfl, ?_⟩
    revert id
    decide
  · refine ⟨r, rfl, ?_⟩
    revert r
    decide

/-- A path whose last segment has generic arguments that are closed where the text ends. -/
theorem segments_balanced (lib : Lib) {ty : P Ty} {m : Nat} (ht : FineTo m ty) (id : Str) (g : List Tok) (j j' : Bool) (hg : Balanced g)
    (hm : toksSize g + 1 ≤ m) {path : List Str} {ps : List Tok} (hp : ModuleToks path ps) :
    ∃ G, ∀ k, path.length < k →
      delimited (segment lib ty) pathSep k (ps ++ .ident id :: .punct '<' j :: (g ++ [.punct '>' j'])) =
        .ok ((pathSegs path (.named id G false)).toList, []) := by
  obtain ⟨G, hG⟩ := generics_balanced lib ht g j j' hg hm
  refine ⟨G, ?_⟩
  induction hp with
  | nil =>
    intro k hk
    obtain ⟨k, rfl⟩ : ∃ i, k = i + 1 := ⟨k - 1, by simp at hk; omega⟩
    simp [delimited, segment, hG, Res.bind, vtableShim, pathSep, pathSegs, Segs.toList]
  | cons x xs ts jj h ih =>
    intro k hk
    obtain ⟨k, rfl⟩ : ∃ i, k = i + 1 := ⟨k - 1, by simp at hk; omega⟩
    simp only [List.cons_append]
    simp [delimited, segment, generics, Res.bind, vtableShim, pathSep, pathSegs, Segs.toList, ih k (by simpa using hk)]

theorem pathLayout_kind {path : List Str} {id text : Str} {as : List Layout} (hp : StdPath path) (hid : id ∈ stdNames)
    (hprim : path = [] → primitiveOf text = none) : StdKind id (pathLayout (path ++ [text]) (some (id, as))) := by
  obtain ⟨l, h1, h2⟩ := stdOf_kind hid as
  rcases hp with rfl | ⟨r, rest, rfl, hr⟩
  · simpa [pathLayout, hprim rfl, h1] using h2
  · have := (isStdRoot_iff r).2 hr
    simpa [pathLayout, this, h1, getLast_path] using h2

/-! ### C92 -/

/-- C92: reading the name of a type never crashes, whatever the text, if tokenizing the text does not: the name is read or refused. -/
theorem C92_no_crash_any (lib : Lib) (s : Str) (h : lib.lex s ≠ .panic) : (∃ t, parseType lib s = .ok t) ∨ parseType lib s = .err := by
  cases hx : parseType lib s with
  | ok t => exact .inl ⟨t, rfl⟩
  | err => exact .inr rfl
  | panic => exact absurd hx (parseType_ne lib s h)

/-- C92: in particular for plain text. -/
theorem C92_no_crash (lib : Lib) (hl : lib.LexesPlain) (s : Str) (ts : List Tok) (hs : lexPlain s = some ts) :
    (∃ t, parseType lib s = .ok t) ∨ parseType lib s = .err := C92_no_crash_any lib s (by rw [hl s ts hs]; simp)

/-- C92: a standard library type is recognised by its path and name whatever its generic arguments are,
also those the grammar cannot read, if their angle brackets match. -/
theorem C92_recognised (lib : Lib) (hl : lib.LexesPlain) (s : Str) (path : List Str) (id : Str) (ps g : List Tok) (j j' : Bool)
    (hp : StdPath path) (hid : id ∈ stdNames) (hps : ModuleToks path ps) (hg : Balanced g)
    (hs : lexPlain s = some (ps ++ .ident id :: .punct '<' j :: (g ++ [.punct '>' j']))) :
    ∃ t, parseType lib s = .ok t ∧ StdKind id (t.layout lib.render) := by
  have hsz := lexPlain_size hs
  rw [toksSize_append] at hsz
  simp only [toksSize, Tok.size, toksSize_append] at hsz
  obtain ⟨N, hN, hm⟩ : ∃ N, s.length + toksSize (ps ++ .ident id :: .punct '<' j :: (g ++ [.punct '>' j'])) + 2 = N + 2 ∧ toksSize g + 1 ≤ N :=
    ⟨_, rfl, by omega⟩
  obtain ⟨G, hG⟩ := segments_balanced lib (fine_typeP lib N) id g j j' hg hm hps
  refine ⟨.path (pathSegs path (.named id G false)), ?_, ?_⟩
  · rw [parseType, hl s _ hs]
    simp only [Res.bind]
    rw [hN]
    obtain ⟨x, hx, hr⟩ := stdRoots_or hp hid
    have hlen : path.length < (ps ++ Tok.ident id :: .punct '<' j :: (g ++ [.punct '>' j'])).length + 1 := by
      have : path.length ≤ ps.length := by
        clear hsz hs hG hx hp hN hm
        induction hps with
        | nil => simp
        | cons x xs ts jj h ih => simp only [List.length_cons]; omega
      rw [List.length_append]; omega
    have hd := hG _ hlen
    obtain ⟨rest, hrest⟩ : ∃ rest, ps ++ Tok.ident id :: .punct '<' j :: (g ++ [.punct '>' j']) = .ident x :: rest ∧
        ∀ d gg r, rest ≠ .group d gg :: r := by
      cases hps with
      | nil => simp at hx; subst hx; exact ⟨_, rfl, by simp⟩
      | cons y xs ts jj h => simp at hx; subst hx; exact ⟨_, rfl, by simp⟩
    rw [hrest.1] at hd ⊢
    simp only [reserved, List.mem_cons, List.not_mem_nil, or_false, not_or] at hr
    obtain ⟨r1, r2, r3, r4⟩ := hr
    have hfn : fnTy lib (typeP lib (N + 1)) (.ident x :: rest) = .err := by
      simp only [fnTy, optUnsafe, if_neg r3]
      split
      · rename_i heq
        simp only [List.cons.injEq, Tok.ident.injEq] at heq
        exact absurd heq.2 (hrest.2 _ _ _)
      · rfl
    have hne : (pathSegs path (.named id G false)).toList.isEmpty = false := by
      cases path <;> rfl
    have htp : typeP lib (N + 2) = alternatives lib (typeP lib (N + 1)) := rfl
    rw [htp]
    revert hfn hd
    generalize typeP lib (N + 1) = ty
    intro hd hfn
    simp only [alternatives, sliceTy, strTy, refTy, neverTy, arrayTy, hfn, dynTy, if_neg r1,
      tupleTy, ptrTy, orTry, pathTy, delimitedVec, hd, hne, segs_ofList, Res.bind,
      Bool.false_and, Bool.false_eq_true, if_false, whole]
  · simp only [Ty.layout, pathSegs_prints, pathSegs_last, Seg.lastOf, Seg.print]
    exact pathLayout_kind hp hid fun _ => stdNames_upper hid _

/-! ### Where the property fails, and examples -/

/-- `HashMap<u64, m::{closure_env#0}<i32>>`: a map although the name of the closure cannot be read. -/
example (lib : Lib) (hl : lib.LexesPlain) :
    ∃ t, parseType lib (chars! "HashMap<u64, m::{closure_env#0}<i32>>") = .ok t ∧ StdKind (chars! "HashMap") (t.layout lib.render) :=
  C92_recognised lib hl _ [] (chars! "HashMap") []
    [.ident (chars! "u64"), .punct ',' false, .ident (chars! "m"), .punct ':' true, .punct ':' false,
      .group .brace [.ident (chars! "closure_env"), .punct '#' false, .lit (chars! "0")], .punct '<' false, .ident (chars! "i32"),
      .punct '>' true] false false
    (Or.inl rfl) (by decide) .nil
    ⟨by decide, by
      intro a b h
      have : a = List.take a.length [.ident (chars! "u64"), .punct ',' false, .ident (chars! "m"), .punct ':' true, .punct ':' false,
        .group .brace [.ident (chars! "closure_env"), .punct '#' false, .lit (chars! "0")], .punct '<' false, .ident (chars! "i32"),
        .punct '>' true] := by rw [h]; simp
      have hlen : a.length ≤ 9 := by
        have := congrArg List.length h
        simp at this
        omega
      rw [this]
      generalize a.length = n at hlen
      have : n = 0 ∨ n = 1 ∨ n = 2 ∨ n = 3 ∨ n = 4 ∨ n = 5 ∨ n = 6 ∨ n = 7 ∨ n = 8 ∨ n = 9 := by omega
      rcases this with rfl | rfl | rfl | rfl | rfl | rfl | rfl | rfl | rfl | rfl <;> decide⟩ rfl

/-- C92 fails for function types beside a closure: the `>` of the arrow is taken for the bracket that closes
the arguments, and the name of the map is refused. -/
theorem C92_arrow_fails (lib : Lib) (hl : lib.LexesPlain) :
    parseType lib (chars! "HashMap<{closure_env#0}, fn(i32) -> i32>") = .err := by
  rw [parseType, hl _ [.ident (chars! "HashMap"), .punct '<' false,
    .group .brace [.ident (chars! "closure_env"), .punct '#' false, .lit (chars! "0")], .punct ',' false, .ident (chars! "fn"),
    .group .paren [.ident (chars! "i32")], .punct '-' true, .punct '>' false, .ident (chars! "i32"), .punct '>' false] rfl]
  obtain ⟨lx, e, r⟩ := lib
  cases e <;> rfl

/-- What is left of a path that ends in braces: the braces. -/
theorem delimited_braces (lib : Lib) (ty : P Ty) (b : List Tok) (hb : segment lib ty [.group .brace b] = .err) {path : List Str} {ps : List Tok}
    (hp : ModuleToks path ps) : ∀ k, path.length < k →
      ∃ as, delimited (segment lib ty) pathSep k (ps ++ [.group .brace b]) = .ok (as, [.group .brace b]) := by
  induction hp with
  | nil =>
    intro k hk
    obtain ⟨k, rfl⟩ : ∃ i, k = i + 1 := ⟨k - 1, by simp at hk; omega⟩
    exact ⟨[], by simp only [List.nil_append, delimited, hb]⟩
  | cons x xs ts jj h ih =>
    intro k hk
    obtain ⟨k, rfl⟩ : ∃ i, k = i + 1 := ⟨k - 1, by simp at hk; omega⟩
    obtain ⟨as, has⟩ := ih k (by simpa using hk)
    simp only [List.cons_append]
    exact ⟨.named x .none false :: as, by simp [delimited, segment, generics, Res.bind, vtableShim, pathSep, has]⟩

/-- C92: the names of closures, coroutines and other items the compiler names with a word and a number in
braces are refused, in any module; only `{impl#n}` is read. (The type of such a variable is found in the
debug information without its name.) -/
theorem C92_braces_refused (lib : Lib) (hl : lib.LexesPlain) (s : Str) (path : List Str) (ps : List Tok) (w : Str) (j : Bool) (n : List Tok)
    (hps : ModuleToks path ps) (hr : ∀ x, path.head? = some x → x ∉ [chars! "dyn", chars! "fn", chars! "unsafe", chars! "mut"])
    (hw : w ≠ chars! "impl") (hs : lexPlain s = some (ps ++ [.group .brace (.ident w :: .punct '#' j :: n)])) :
    parseType lib s = .err := by
  rw [parseType, hl s _ hs]
  simp only [Res.bind]
  generalize s.length + toksSize (ps ++ [.group .brace (.ident w :: .punct '#' j :: n)]) = N
  have htp : typeP lib (N + 2) = alternatives lib (typeP lib (N + 1)) := rfl
  rw [htp]
  generalize typeP lib (N + 1) = ty
  have hseg : segment lib ty [.group .brace (.ident w :: .punct '#' j :: n)] = .err := by simp [segment, hw]
  have hlen : path.length < (ps ++ [Tok.group .brace (.ident w :: .punct '#' j :: n)]).length + 1 := by
    have : path.length ≤ ps.length := by
      clear hs hr
      induction hps with
      | nil => simp
      | cons x xs ts jj h ih => simp only [List.length_cons]; omega
    rw [List.length_append]; omega
  obtain ⟨as, hd⟩ := delimited_braces lib ty _ hseg hps _ hlen
  have hpath : ∀ ts, ts = ps ++ [Tok.group .brace (.ident w :: .punct '#' j :: n)] → whole (pathTy lib ty ts) = .err := by
    rintro ts rfl
    simp only [pathTy, delimitedVec, hd, Res.bind]
    by_cases hc : (as.isEmpty && !lib.emptyDelimited) = true
    · rw [if_pos hc]; rfl
    · rw [if_neg hc]; rfl
  cases hps with
  | nil =>
    have := hpath _ rfl
    simpa [alternatives, sliceTy, strTy, refTy, neverTy, arrayTy, fnTy, optUnsafe, dynTy, tupleTy, ptrTy, orTry] using this
  | cons x xs ts jj h =>
    have := hpath _ rfl
    have hx := hr x rfl
    simp only [List.mem_cons, List.not_mem_nil, or_false, not_or] at hx
    obtain ⟨r1, r2, r3, r4⟩ := hx
    simpa [alternatives, sliceTy, strTy, refTy, neverTy, arrayTy, fnTy, optUnsafe, dynTy, tupleTy, ptrTy, orTry, r1, r2, r3] using this

example (lib : Lib) (hl : lib.LexesPlain) : parseType lib (chars! "m::{closure_env#0}") = .err :=
  C92_braces_refused lib hl _ [chars! "m"] [.ident (chars! "m"), .punct ':' true, .punct ':' false] (chars! "closure_env") false [.lit (chars! "0")]
    (.cons _ _ _ _ .nil) (by rintro _ ⟨⟩; decide) (by decide) rfl

/-- `{impl#n}` is read. -/
theorem C92_impl (lib : Lib) (hl : lib.LexesPlain) :
    ∃ t, parseType lib (chars! "m::{impl#3}::Foo") = .ok t ∧ t.layout lib.render = .alias (chars! "Foo") := by
  refine ⟨.path (.cons (.named (chars! "m") .none false) (.cons (.impl 3) (.cons (.named (chars! "Foo") .none false) .nil))), ?_, ?_⟩
  · rw [parseType, hl _ [.ident (chars! "m"), .punct ':' true, .punct ':' false,
      .group .brace [.ident (chars! "impl"), .punct '#' false, .lit (chars! "3")], .punct ':' true, .punct ':' false, .ident (chars! "Foo")] rfl]
    obtain ⟨lx, e, r⟩ := lib
    cases e <;> rfl
  · rfl

end Rudy.TypeNames
