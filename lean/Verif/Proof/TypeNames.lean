import Verif.Proof.TypeLex
/-
Parsing printed type names.
-/
namespace Rudy.TypeNames
open Rudy Rudy.Layout Rudy.Expr

/-! ### Plain types -/

/-- The first name of a path. -/
def Segs.firstId : Segs → Option Str
  | .cons (.named id _ _) _ => some id
  | _ => none

/-- `[T]` without a size. -/
def Ty.isUnsized : Ty → Bool
  | .array _ .none => true
  | _ => false

/-- A path starting with `str`. -/
def Ty.isStrPath : Ty → Bool
  | .path ss => ss.firstId == some (chars! "str")
  | _ => false

/-- A path. -/
def Ty.isPath : Ty → Bool
  | .path _ => true
  | _ => false

/-- The name that the compiler gives the implementation `n` of a module. -/
def implText (n : Nat) : Str := chars! "{impl#" ++ natStr n ++ chars! "}"

/-- The name that the compiler gives the type of a virtual table. -/
def vtableText : Str := chars! "{vtable_type}"

/-- Words that start something else than a path. -/
def reserved : List Str := [chars! "dyn", chars! "fn", chars! "unsafe", chars! "mut"]

mutual
/-- The types whose printed form reads back: paths of identifiers with parsed generic arguments,
references, slices, arrays, tuples, function types with arguments, trait objects, `!`, and raw pointers if
the library writes their tokens with a blank at the end. Excluded are unsafe functions, functions without
arguments, other segments kept as raw tokens, and a shared reference to an unsized `[T]` or to `str`, which is
written like a slice. -/
def Ty.Plain (render : List Tok → Str) : Ty → Prop
  | .slice t => t.Plain render
  | .str => True
  | .ref m t => t.Plain render ∧ (m = false → t.isUnsized = false ∧ t.isStrPath = false)
  | .never => True
  | .array t n => t.Plain render ∧ n.Plain render
  | .fn u args ret => u = false ∧ args ≠ .nil ∧ args.Plain render ∧ ret.Plain render
  | .dyn ts => ts ≠ .nil ∧ ts.Plain render ∧ ∀ t ∈ ts.toList, t.isPath = true
  | .tuple ts => ts.Plain render
  | .ptr m t => render (ptrTokens m) = (if m then chars! "*mut " else chars! "*const ") ∧ t.Plain render
  | .path ss => ss ≠ .nil ∧ ss.Plain render ∧ ∃ w, ss.firstId = some w ∧ w ∉ reserved
/-- Plain array sizes: numbers of machine size, or types. -/
def Size.Plain (render : List Tok → Str) : Size → Prop
  | .none => True
  | .fixed n => n < 2 ^ 64
  | .generic t => t.Plain render
/-- Plain return types. -/
def OptTy.Plain (render : List Tok → Str) : OptTy → Prop
  | .none => True
  | .some t => t.Plain render
/-- All types of the list are plain. -/
def Tys.Plain (render : List Tok → Str) : Tys → Prop
  | .nil => True
  | .cons t ts => t.Plain render ∧ ts.Plain render
/-- An identifier with plain generic arguments, or `{impl#n}` or `{vtable_type}`, if the library writes their tokens without blanks. -/
def Seg.Plain (render : List Tok → Str) : Seg → Prop
  | .named id g shim => IsIdent id ∧ g.Plain render ∧ shim = false
  | .impl n => n < 2 ^ 64 ∧ render (Seg.impl n).tokens = implText n
  | .vtable => render Seg.vtable.tokens = vtableText
  | .qualified _ => False
/-- No generic arguments, or a list of plain types. -/
def Gen.Plain (render : List Tok → Str) : Gen → Prop
  | .none => True
  | .args ts => ts ≠ .nil ∧ ts.Plain render
  | .raw _ => False
/-- All segments are plain. -/
def Segs.Plain (render : List Tok → Str) : Segs → Prop
  | .nil => True
  | .cons s ss => s.Plain render ∧ ss.Plain render
end

/-! ### Reading back -/

/-- What may come after a type: the end, or one of `,` `>` `;`. -/
def Ends (rest : List Tok) : Prop :=
  rest = [] ∨ ∃ c j r, rest = .punct c j :: r ∧ c ∈ [',', '>', ';']

/-- What may come after a path: also `+`. -/
def EndsPath (rest : List Tok) : Prop :=
  rest = [] ∨ ∃ c j r, rest = .punct c j :: r ∧ c ∈ [',', '>', ';', '+']

/-- What may come after a segment: also `:`. -/
def EndsSeg (rest : List Tok) : Prop :=
  rest = [] ∨ ∃ c j r, rest = .punct c j :: r ∧ c ∈ [',', '>', ';', '+', ':']

theorem Ends.path {rest : List Tok} (h : Ends rest) : EndsPath rest := by
  rcases h with h | ⟨c, j, r, h, hc⟩
  · exact Or.inl h
  · exact Or.inr ⟨c, j, r, h, by simp at hc ⊢; rcases hc with h | h | h <;> simp [h]⟩

theorem EndsPath.seg {rest : List Tok} (h : EndsPath rest) : EndsSeg rest := by
  rcases h with h | ⟨c, j, r, h, hc⟩
  · exact Or.inl h
  · exact Or.inr ⟨c, j, r, h, by simp at hc ⊢; rcases hc with h | h | h | h <;> simp [h]⟩

/-- What may come after this type. -/
def Ty.EndsFor (t : Ty) (rest : List Tok) : Prop := Ends rest ∨ (t.isPath = true ∧ EndsPath rest)

variable (lib : Lib)

/-- The tokens `ts` read as the type `t`, wherever one may end. -/
structure ReadsAs (t : Ty) (ts : List Tok) : Prop where
  parse : ∀ n rest, (t.print lib.render).length < n → t.EndsFor rest → typeP lib n (ts ++ rest) = .ok (t, rest)
  number : ∀ rest, number (ts ++ rest) = .err
  notMut : ∀ rest, optMut (ts ++ rest) = (false, ts ++ rest)
  notSlice : t.isUnsized = false → t.isStrPath = false → ∀ j n rest, (t.print lib.render).length < n → Ends rest →
    sliceTy (typeP lib n) (.punct '&' j :: (ts ++ rest)) = .err ∧ strTy (.punct '&' j :: (ts ++ rest)) = .err

/-- The printed type is tokenized and reads back. -/
def Good (t : Ty) : Prop :=
  ∀ k, WordEnd k → ∃ ts, ts ≠ [] ∧ Lexed (t.print lib.render) k ts ∧ ReadsAs lib t ts

/-- What may come after a list of types: the end or `>`. -/
def EndsList (rest : List Tok) : Prop := rest = [] ∨ ∃ j r, rest = .punct '>' j :: r

/-- A printed list of types, separated by commas, reads back. -/
def GoodTys (ts : Tys) : Prop :=
  ∀ k, WordEnd k → ∃ toks, toks ≠ [] ∧ Lexed (joinWith (chars! ", ") (ts.prints lib.render)) k toks ∧
    (∀ n m rest, (joinWith (chars! ", ") (ts.prints lib.render)).length < n → toks.length ≤ m → EndsList rest →
      delimited (typeP lib n) comma m (toks ++ rest) = .ok (ts.toList, rest)) ∧
    (∀ n m, (joinWith (chars! ", ") (ts.prints lib.render)).length < n → toks.length ≤ m →
      ∃ init last lastToks, manyTypes (typeP lib n) m toks = .ok (init, lastToks) ∧
        typeP lib n lastToks = .ok (last, []) ∧ ts.toList = init ++ [last]) ∧
    (∀ n, (joinWith (chars! ", ") (ts.prints lib.render)).length < n → (∀ t, ts ≠ .cons t .nil) →
      ∃ t g, typeP lib n toks = .ok (t, g) ∧ lastComma g = false)

/-- A printed list of paths, separated by `+`, reads back. -/
def GoodTraits (ts : Tys) : Prop :=
  ∀ k, WordEnd k → ∃ toks, toks ≠ [] ∧ Lexed (joinWith (chars! " + ") (ts.prints lib.render)) k toks ∧
    (∀ n m rest, (joinWith (chars! " + ") (ts.prints lib.render)).length < n → toks.length ≤ m → Ends rest →
      delimited (typeP lib n) plus m (toks ++ rest) = .ok (ts.toList, rest))

/-- A printed segment reads back. -/
def GoodSeg (s : Seg) : Prop :=
  ∀ k, WordEnd k → ∃ tok toks, (∀ id g shim, s = .named id g shim → tok = .ident id) ∧ Lexed (s.print lib.render) k (tok :: toks) ∧
    (∀ n rest, (s.print lib.render).length ≤ n → EndsSeg rest →
      segment lib (typeP lib n) (tok :: toks ++ rest) = .ok (s, rest))

/-- Printed segments read back. -/
def GoodSegs (ss : Segs) : Prop :=
  ∀ k, WordEnd k → ∃ tok toks, (∀ id, ss.firstId = some id → tok = .ident id) ∧
    Lexed (joinWith (chars! "::") (ss.prints lib.render)) k (tok :: toks) ∧
    (∀ n m rest, (joinWith (chars! "::") (ss.prints lib.render)).length ≤ n → toks.length + 1 ≤ m → EndsPath rest →
      delimited (segment lib (typeP lib n)) pathSep m (tok :: toks ++ rest) = .ok (ss.toList, rest))

theorem tys_ofList (ts : Tys) : Tys.ofList ts.toList = ts := by
  match ts with
  | .nil => rfl
  | .cons t ts => simp [Tys.toList, Tys.ofList, tys_ofList ts]

theorem segs_ofList (ss : Segs) : Segs.ofList ss.toList = ss := by
  match ss with
  | .nil => rfl
  | .cons s ss => simp [Segs.toList, Segs.ofList, segs_ofList ss]

theorem ends_comma (j : Bool) (r : List Tok) : Ends (.punct ',' j :: r) := Or.inr ⟨',', j, r, rfl, by simp⟩
theorem ends_semi (j : Bool) (r : List Tok) : Ends (.punct ';' j :: r) := Or.inr ⟨';', j, r, rfl, by simp⟩
theorem ends_nil : Ends [] := Or.inl rfl
theorem EndsList.ends {rest : List Tok} (h : EndsList rest) : Ends rest := by
  rcases h with h | ⟨j, r, h⟩
  · exact Or.inl h
  · exact Or.inr ⟨'>', j, r, h, by simp⟩

theorem EndsList.comma {rest : List Tok} (h : EndsList rest) : comma rest = none := by
  rcases h with rfl | ⟨j, r, rfl⟩ <;> rfl

theorem lexed_mark {c : Char} (h : c ∈ punctuation) (k : Str) : ∃ j, Lexed [c] k [.punct c j] :=
  ⟨_, lexed_punct h k⟩

/-- `", "`. -/
theorem lexed_comma (k : Str) : ∃ j, Lexed (chars! ", ") k [.punct ',' j] := by
  obtain ⟨j, h⟩ := lexed_mark (c := ',') (by decide) ([' '] ++ k)
  exact ⟨j, h.append (lexed_white (c := ' ') (by decide) k)⟩

/-- `" + "`. -/
theorem lexed_plus (k : Str) : ∃ j, Lexed (chars! " + ") k [.punct '+' j] := by
  obtain ⟨j, h⟩ := lexed_mark (c := '+') (by decide) ([' '] ++ k)
  exact ⟨j, (lexed_white (c := ' ') (by decide) ([ '+', ' '] ++ k)).append (h.append (lexed_white (c := ' ') (by decide) k))⟩

/-- `"::"`. -/
theorem lexed_colons (k : Str) : ∃ j, Lexed (chars! "::") k [.punct ':' true, .punct ':' j] := by
  obtain ⟨j, h⟩ := lexed_mark (c := ':') (by decide) k
  exact ⟨j, (lexed_punct (c := ':') (by decide) ([':'] ++ k)).append h⟩

theorem wordEnd_comma (k : Str) : WordEnd (chars! ", " ++ k) := wordEnd_cons _ (by decide)
theorem wordEnd_plus (k : Str) : WordEnd (chars! " + " ++ k) := wordEnd_cons _ (by decide)
theorem wordEnd_colons (k : Str) : WordEnd (chars! "::" ++ k) := wordEnd_cons _ (by decide)

/-! ### Lists -/

theorem goodTys_one {t : Ty} (h : Good lib t) : GoodTys lib (.cons t .nil) := by
  intro k hk
  obtain ⟨ts, hne, hl, hr⟩ := h k hk
  have hlen : 1 ≤ ts.length := by
    cases ts with
    | nil => exact absurd rfl hne
    | cons _ _ => simp
  refine ⟨ts, hne, hl, ?_, ?_, ?_⟩
  · intro n m rest hn hm he
    obtain ⟨m, rfl⟩ : ∃ k, m = k + 1 := ⟨m - 1, by omega⟩
    simp only [Tys.prints, joinWith] at hn
    rw [delimited, hr.parse n rest hn (Or.inl he.ends)]
    simp [he.comma, Tys.toList]
  · intro n m hn hm
    obtain ⟨m, rfl⟩ : ∃ k, m = k + 1 := ⟨m - 1, by omega⟩
    simp only [Tys.prints, joinWith] at hn
    have h1 := hr.parse n [] hn (Or.inl ends_nil)
    rw [List.append_nil] at h1
    refine ⟨[], t, ts, ?_, h1, rfl⟩
    rw [manyTypes, h1]
    rfl
  · intro n hn h'
    exact absurd rfl (h' t)

theorem goodTys_cons {t t' : Ty} {ts : Tys} (h : Good lib t) (h' : GoodTys lib (.cons t' ts)) :
    GoodTys lib (.cons t (.cons t' ts)) := by
  intro k hk
  obtain ⟨us, hune, hul, hd, hm, _⟩ := h' k hk
  obtain ⟨j, hj⟩ := lexed_comma (joinWith (chars! ", ") ((Tys.cons t' ts).prints lib.render) ++ k)
  obtain ⟨as, hne, hl, hr⟩ := h (chars! ", " ++ (joinWith (chars! ", ") ((Tys.cons t' ts).prints lib.render) ++ k))
    (wordEnd_comma _)
  have hul' : 1 ≤ us.length := by
    cases us with
    | nil => exact absurd rfl hune
    | cons _ _ => simp
  have htext : joinWith (chars! ", ") ((Tys.cons t (.cons t' ts)).prints lib.render) =
      t.print lib.render ++ (chars! ", " ++ joinWith (chars! ", ") ((Tys.cons t' ts).prints lib.render)) := by
    simp [Tys.prints, joinWith]
  refine ⟨as ++ ([.punct ',' j] ++ us), by simp, ?_, ?_, ?_, ?_⟩
  · rw [htext]
    exact Lexed.append (by simpa using hl) (Lexed.append hj hul)
  · intro n m rest hn hmm he
    rw [htext] at hn
    simp only [List.length_append, List.length_cons, List.length_nil] at hn hmm
    obtain ⟨m, rfl⟩ : ∃ k, m = k + 1 := ⟨m - 1, by omega⟩
    have h1 := hr.parse n (.punct ',' j :: (us ++ rest)) (by omega) (Or.inl (ends_comma _ _))
    rw [delimited]
    simp only [List.append_assoc, List.cons_append, List.nil_append, h1, comma]
    rw [hd n m rest (by omega) (by omega) he]
    rfl
  · intro n m hn hmm
    rw [htext] at hn
    simp only [List.length_append, List.length_cons, List.length_nil] at hn hmm
    obtain ⟨m, rfl⟩ : ∃ k, m = k + 1 := ⟨m - 1, by omega⟩
    have h1 := hr.parse n (.punct ',' j :: us) (by omega) (Or.inl (ends_comma _ _))
    obtain ⟨init, last, lt, h2, h3, h4⟩ := hm n m (by omega) (by omega)
    refine ⟨t :: init, last, lt, ?_, h3, ?_⟩
    · rw [manyTypes]
      simp only [List.cons_append, List.nil_append, h1, comma, h2]
      rfl
    · show t :: (Tys.cons t' ts).toList = _
      rw [h4]; rfl
  · intro n hn _
    rw [htext] at hn
    simp only [List.length_append] at hn
    have h1 := hr.parse n (.punct ',' j :: us) (by omega) (Or.inl (ends_comma _ _))
    refine ⟨t, .punct ',' j :: us, by simpa using h1, ?_⟩
    cases us with
    | nil => exact absurd rfl hune
    | cons u us => rfl

theorem goodTraits_one {t : Ty} (h : Good lib t) : GoodTraits lib (.cons t .nil) := by
  intro k hk
  obtain ⟨ts, hne, hl, hr⟩ := h k hk
  have hlen : 1 ≤ ts.length := by
    cases ts with
    | nil => exact absurd rfl hne
    | cons _ _ => simp
  refine ⟨ts, hne, hl, ?_⟩
  intro n m rest hn hm he
  obtain ⟨m, rfl⟩ : ∃ k, m = k + 1 := ⟨m - 1, by omega⟩
  simp only [Tys.prints, joinWith] at hn
  rw [delimited, hr.parse n rest hn (Or.inl he)]
  have : plus rest = none := by
    rcases he with rfl | ⟨c, j, r, rfl, hc⟩
    · rfl
    · simp only [List.mem_cons, List.not_mem_nil, or_false] at hc
      rcases hc with rfl | rfl | rfl <;> rfl
  simp [this, Tys.toList]

theorem goodTraits_cons {t t' : Ty} {ts : Tys} (h : Good lib t) (hp : t.isPath = true)
    (h' : GoodTraits lib (.cons t' ts)) : GoodTraits lib (.cons t (.cons t' ts)) := by
  intro k hk
  obtain ⟨us, hune, hul, hd⟩ := h' k hk
  obtain ⟨j, hj⟩ := lexed_plus (joinWith (chars! " + ") ((Tys.cons t' ts).prints lib.render) ++ k)
  obtain ⟨as, hne, hl, hr⟩ := h (chars! " + " ++ (joinWith (chars! " + ") ((Tys.cons t' ts).prints lib.render) ++ k))
    (wordEnd_plus _)
  have htext : joinWith (chars! " + ") ((Tys.cons t (.cons t' ts)).prints lib.render) =
      t.print lib.render ++ (chars! " + " ++ joinWith (chars! " + ") ((Tys.cons t' ts).prints lib.render)) := by
    simp [Tys.prints, joinWith]
  refine ⟨as ++ ([.punct '+' j] ++ us), by simp, ?_, ?_⟩
  · rw [htext]
    exact Lexed.append (by simpa using hl) (Lexed.append hj hul)
  · intro n m rest hn hmm he
    rw [htext] at hn
    simp only [List.length_append, List.length_cons, List.length_nil] at hn hmm
    obtain ⟨m, rfl⟩ : ∃ k, m = k + 1 := ⟨m - 1, by omega⟩
    have h1 := hr.parse n (.punct '+' j :: (us ++ rest)) (by omega)
      (Or.inr ⟨hp, Or.inr ⟨'+', j, _, rfl, by simp⟩⟩)
    rw [delimited]
    simp only [List.append_assoc, List.cons_append, List.nil_append, h1, plus]
    rw [hd n m rest (by omega) (by omega) he]
    rfl

/-! ### Segments and paths -/

theorem endsSeg_generics {rest : List Tok} (h : EndsSeg rest) (ty : P Ty) : generics lib ty rest = .ok (.none, rest) := by
  rcases h with rfl | ⟨c, j, r, rfl, hc⟩
  · rfl
  · simp only [List.mem_cons, List.not_mem_nil, or_false] at hc
    rcases hc with rfl | rfl | rfl | rfl | rfl <;> rfl

theorem endsSeg_shim {rest : List Tok} (h : EndsSeg rest) : vtableShim rest = (false, rest) := by
  rcases h with rfl | ⟨c, j, r, rfl, hc⟩
  · rfl
  · rfl

theorem goodSeg_none {id : Str} (hid : IsIdent id) : GoodSeg lib (.named id .none false) := by
  intro k hk
  refine ⟨.ident id, [], fun _ _ _ h => by cases h; rfl, ?_, ?_⟩
  · simp only [Seg.print, Gen.print, List.append_nil]
    exact lexed_word hid hk
  · intro n rest _ he
    simp [segment, endsSeg_generics lib he, endsSeg_shim he]

theorem goodSeg_args {id : Str} (hid : IsIdent id) {ts : Tys} (h : GoodTys lib ts) (hne : ts ≠ .nil) :
    GoodSeg lib (.named id (.args ts) false) := by
  intro k hk
  obtain ⟨us, hune, hul, hd, _, _⟩ := h (chars! ">" ++ k) (wordEnd_cons _ (by decide))
  have htext : (Seg.named id (.args ts) false).print lib.render =
      id ++ (chars! "<" ++ (joinWith (chars! ", ") (ts.prints lib.render) ++ chars! ">")) := by
    simp [Seg.print, Gen.print]
  obtain ⟨j2, hj2⟩ := lexed_mark (c := '>') (by decide) k
  obtain ⟨j1, hj1⟩ := lexed_mark (c := '<') (by decide) ((joinWith (chars! ", ") (ts.prints lib.render) ++ chars! ">") ++ k)
  refine ⟨.ident id, [.punct '<' j1] ++ (us ++ [.punct '>' j2]), fun _ _ _ h => by cases h; rfl, ?_, ?_⟩
  · rw [htext]
    refine Lexed.append (ts := [.ident id]) (lexed_word hid ?_) (hj1.append (hul.append hj2))
    exact wordEnd_cons _ (by decide)
  · intro n rest hn he
    rw [htext] at hn
    simp only [List.length_append, List.length_cons, List.length_nil] at hn
    have h1 := hd n (us.length + 1 + rest.length + 1) (.punct '>' j2 :: rest) (by omega) (by omega) (Or.inr ⟨_, _, rfl⟩)
    have hts : ts.toList.isEmpty = false := by
      cases ts with
      | nil => exact absurd rfl hne
      | cons _ _ => rfl
    simp only [segment, List.cons_append, List.nil_append, List.append_assoc, generics, delimitedVec,
      List.length_append, List.length_cons]
    have harith : us.length + (rest.length + 1) + 1 = us.length + 1 + rest.length + 1 := by omega
    rw [harith, h1]
    simp [hts, tys_ofList, endsSeg_shim he]

theorem endsPath_sep {rest : List Tok} (h : EndsPath rest) : pathSep rest = none := by
  rcases h with rfl | ⟨c, j, r, rfl, hc⟩
  · rfl
  · simp only [List.mem_cons, List.not_mem_nil, or_false] at hc
    rcases hc with rfl | rfl | rfl | rfl <;> rfl

theorem goodSegs_one {s : Seg} (h : GoodSeg lib s) : GoodSegs lib (.cons s .nil) := by
  intro k hk
  obtain ⟨tok, toks, ht, hl, hp⟩ := h k hk
  refine ⟨tok, toks, ?_, hl, ?_⟩
  · intro id hid
    cases s with
    | named id' g shim => cases hid; exact ht _ _ _ rfl
    | _ => cases hid
  intro n m rest hn hm he
  obtain ⟨m, rfl⟩ : ∃ k, m = k + 1 := ⟨m - 1, by omega⟩
  simp only [Segs.prints, joinWith] at hn
  rw [delimited, hp n rest hn he.seg]
  simp [endsPath_sep he, Segs.toList]

theorem goodSegs_cons {s s' : Seg} {ss : Segs} (h : GoodSeg lib s) (h' : GoodSegs lib (.cons s' ss)) :
    GoodSegs lib (.cons s (.cons s' ss)) := by
  intro k hk
  obtain ⟨tok', us, -, hul, hd⟩ := h' k hk
  obtain ⟨j, hj⟩ := lexed_colons (joinWith (chars! "::") ((Segs.cons s' ss).prints lib.render) ++ k)
  obtain ⟨tok, toks, ht, hl, hp⟩ := h (chars! "::" ++ (joinWith (chars! "::") ((Segs.cons s' ss).prints lib.render) ++ k))
    (wordEnd_colons _)
  have htext : joinWith (chars! "::") ((Segs.cons s (.cons s' ss)).prints lib.render) =
      s.print lib.render ++ (chars! "::" ++ joinWith (chars! "::") ((Segs.cons s' ss).prints lib.render)) := by
    simp [Segs.prints, joinWith]
  refine ⟨tok, toks ++ ([.punct ':' true, .punct ':' j] ++ (tok' :: us)), ?_, ?_, ?_⟩
  · intro id hid
    cases s with
    | named id' g shim => cases hid; exact ht _ _ _ rfl
    | _ => cases hid
  · rw [htext, ← List.cons_append]
    exact Lexed.append (by simpa using hl) (Lexed.append hj hul)
  · intro n m rest hn hmm he
    rw [htext] at hn
    simp only [List.length_append, List.length_cons, List.length_nil] at hn hmm
    obtain ⟨m, rfl⟩ : ∃ k, m = k + 1 := ⟨m - 1, by omega⟩
    have h1 := hp n (.punct ':' true :: .punct ':' j :: (tok' :: us ++ rest)) (by omega)
      (Or.inr ⟨':', true, _, rfl, by simp⟩)
    have h2 := hd n m rest (by omega) (by omega) he
    simp only [List.cons_append] at h1 h2
    rw [delimited]
    simp only [List.append_assoc, List.cons_append, List.nil_append, h1, pathSep, h2]
    rfl

theorem litVal_natStr (n : Nat) : litVal (natStr n) = n := by
  have key : ∀ (ds : Str) (a : Nat), ds.foldl (fun a c => a * 10 + (c.toNat - '0'.toNat)) a = Nat.ofDigitChars 10 ds a := by
    intro ds
    induction ds with
    | nil => intro a; rfl
    | cons c cs ih =>
      intro a
      have : Nat.ofDigitChars 10 (c :: cs) a = Nat.ofDigitChars 10 cs (10 * a + (c.toNat - '0'.toNat)) := rfl
      rw [this, List.foldl_cons, ih, Nat.mul_comm]
  rw [litVal, key, natStr, Nat.ofDigitChars_ten_toDigits]


theorem isIdent_impl : IsIdent (chars! "impl") := ⟨_, _, rfl, by decide, by decide⟩

theorem goodSeg_impl {n : Nat} (hn : n < 2 ^ 64) (hr : lib.render (Seg.impl n).tokens = implText n) : GoodSeg lib (.impl n) := by
  intro k _
  have h1 : Lexed (chars! "#") (natStr n ++ '}' :: k) [.punct '#' false] := by
    have h := lexed_punct (c := '#') (by decide) (natStr n ++ '}' :: k)
    have hj : (((natStr n ++ '}' :: k).head?.map isPunct).getD false) = false := by
      have hd := natStr_digits n
      have hne := natStr_ne n
      cases hs : natStr n with
      | nil => exact absurd hs hne
      | cons d ds =>
        have := hd d (by rw [hs]; simp)
        have hp : ∀ c, c ∈ ['~', '!', '@', '#', '$', '%', '^', '&', '*', '-', '=', '+', '|', ';', ':', ',', '<', '.', '>', '/', '?', '\''] → isDigit c = false := by decide
        simp only [List.cons_append, List.head?_cons, Option.map_some, Option.getD_some]
        cases hpd : isPunct d with
        | false => rfl
        | true =>
          have := hp d (by simpa [isPunct] using hpd)
          simp_all
    rw [hj] at h
    exact h
  have h2 : Lexed (chars! "impl" ++ (chars! "#" ++ natStr n)) ('}' :: k) ([.ident (chars! "impl")] ++ ([.punct '#' false] ++ [.lit (natStr n)])) :=
    Lexed.append (by simpa using lexed_hash isIdent_impl (by decide) (natStr n ++ '}' :: k)) (Lexed.append h1 (lexed_num (natStr_ne n) (natStr_digits n) (wordEnd_cons _ (by decide))))
  have h3 := lexed_group (o := '{') (c := '}') rfl rfl h2
  refine ⟨.group .brace [.ident (chars! "impl"), .punct '#' false, .lit (natStr n)], [], fun _ _ _ h => (by cases h), ?_, ?_⟩
  · simp only [Seg.print, hr]
    have : implText n = '{' :: (chars! "impl" ++ (chars! "#" ++ natStr n) ++ [ '}' ]) := by simp [implText]
    rw [this]
    exact h3
  · intro _ rest _ _
    simp [segment, number, litVal_natStr, hn, whole]

theorem goodSeg_vtable (hr : lib.render Seg.vtable.tokens = vtableText) : GoodSeg lib .vtable := by
  intro k _
  have h3 := lexed_group (o := '{') (c := '}') (k := k) rfl rfl
    (lexed_word (w := chars! "vtable_type") ⟨_, _, rfl, by decide, by decide⟩ (wordEnd_cons (c := '}') k (by decide)))
  refine ⟨.group .brace [.ident (chars! "vtable_type")], [], fun _ _ _ h => (by cases h), ?_, ?_⟩
  · simp only [Seg.print, hr]
    exact h3
  · intro _ rest _ _
    simp [segment]

theorem good_path {ss : Segs} (h : GoodSegs lib ss) (hne : ss ≠ .nil) (hres : ∃ w, ss.firstId = some w ∧ w ∉ reserved) :
    Good lib (.path ss) := by
  intro k hk
  obtain ⟨tok, us, htok, hul, hd⟩ := h k hk
  obtain ⟨id, hid, hr⟩ := hres
  obtain rfl := htok id hid
  simp only [reserved, List.mem_cons, List.not_mem_nil, or_false, not_or] at hr
  obtain ⟨r1, r2, r3, r4⟩ := hr
  refine ⟨.ident id :: us, by simp, hul, ?_, ?_, ?_, ?_⟩
  · intro n rest hn he
    obtain ⟨n, rfl⟩ : ∃ k, n = k + 1 := ⟨n - 1, by omega⟩
    have he : EndsPath rest := by
      rcases he with he | ⟨_, he⟩
      · exact he.path
      · exact he
    have h1 := hd n ((us ++ rest).length + 1 + 1) rest (by simp only [Ty.print] at hn; omega) (by simp; omega) he
    have hss : ss.toList.isEmpty = false := by
      cases ss with
      | nil => exact absurd rfl hne
      | cons _ _ => rfl
    simp only [List.cons_append] at h1
    have hfn : fnTy lib (typeP lib n) (.ident id :: (us ++ rest)) = .err := by
      simp only [fnTy, optUnsafe, if_neg r3]
      split
      · rename_i heq
        simp only [List.cons.injEq, Tok.ident.injEq] at heq
        rw [if_neg]
        rw [← heq.1]; exact r2
      · rfl
    simp only [typeP, alternatives, List.cons_append, sliceTy, strTy, refTy, neverTy, arrayTy, hfn, dynTy, if_neg r1,
      tupleTy, ptrTy, orTry, pathTy, delimitedVec, List.length_cons, h1, hss, Res.bind, segs_ofList,
      Bool.false_and, Bool.false_eq_true, if_false]
  · intro rest; rfl
  · intro rest
    simp [optMut, r4]
  · intro _ hs j n rest hn he
    refine ⟨rfl, ?_⟩
    have : id ≠ chars! "str" := by
      rintro rfl
      simp [Ty.isStrPath, hid] at hs
    simp [strTy, this]

/-! ### The other types -/

theorem good_never : Good lib .never := by
  intro k hk
  obtain ⟨j, hj⟩ := lexed_mark (c := '!') (by decide) k
  refine ⟨_, by simp, hj, ?_, ?_, ?_, ?_⟩
  · intro n rest hn _
    obtain ⟨n, rfl⟩ : ∃ k, n = k + 1 := ⟨n - 1, by omega⟩
    rfl
  · intro rest; rfl
  · intro rest; rfl
  · intro _ _ j n rest _ _; exact ⟨rfl, rfl⟩

theorem isIdent_str : IsIdent (chars! "str") := ⟨'s', ['t', 'r'], rfl, by decide, by decide⟩
theorem isIdent_mut : IsIdent (chars! "mut") := ⟨'m', ['u', 't'], rfl, by decide, by decide⟩
theorem isIdent_fn : IsIdent (chars! "fn") := ⟨'f', ['n'], rfl, by decide, by decide⟩
theorem isIdent_dyn : IsIdent (chars! "dyn") := ⟨'d', ['y', 'n'], rfl, by decide, by decide⟩

theorem good_str : Good lib .str := by
  intro k hk
  obtain ⟨j, hj⟩ := lexed_mark (c := '&') (by decide) (chars! "str" ++ k)
  refine ⟨_, by simp, hj.append (lexed_word isIdent_str hk), ?_, ?_, ?_, ?_⟩
  · intro n rest hn _
    obtain ⟨n, rfl⟩ : ∃ k, n = k + 1 := ⟨n - 1, by omega⟩
    rfl
  · intro rest; rfl
  · intro rest; rfl
  · intro _ _ j n rest _ _; exact ⟨rfl, rfl⟩

theorem endsFor_of_not_path {t : Ty} (h : t.isPath = false) {rest : List Tok} (he : t.EndsFor rest) : Ends rest := by
  rcases he with he | ⟨h', _⟩
  · exact he
  · rw [h] at h'; cases h'

theorem good_slice {t : Ty} (h : Good lib t) : Good lib (.slice t) := by
  intro k hk
  obtain ⟨ts, hne, hl, hr⟩ := h (']' :: k) (wordEnd_cons _ (by decide))
  obtain ⟨j, hj⟩ := lexed_mark (c := '&') (by decide) ('[' :: (t.print lib.render ++ [']']) ++ k)
  refine ⟨[.punct '&' j] ++ [.group .bracket ts], by simp, ?_, ?_, ?_, ?_, ?_⟩
  · have : (Ty.slice t).print lib.render = chars! "&" ++ ('[' :: (t.print lib.render ++ [']'])) := by simp [Ty.print]
    rw [this]
    exact hj.append (lexed_group rfl rfl hl)
  · intro n rest hn _
    obtain ⟨n, rfl⟩ : ∃ k, n = k + 1 := ⟨n - 1, by omega⟩
    have h1 := hr.parse n [] (by simp [Ty.print] at hn; omega) (Or.inl ends_nil)
    rw [List.append_nil] at h1
    simp [typeP, alternatives, sliceTy, h1, whole, orTry]
  · intro rest; rfl
  · intro rest; rfl
  · intro _ _ j n rest _ _; exact ⟨rfl, rfl⟩

theorem good_ref {t : Ty} (h : Good lib t) (hu : t.isUnsized = false) (hs : t.isStrPath = false) :
    Good lib (.ref false t) := by
  intro k hk
  obtain ⟨ts, hne, hl, hr⟩ := h k hk
  obtain ⟨j, hj⟩ := lexed_mark (c := '&') (by decide) (t.print lib.render ++ k)
  refine ⟨[.punct '&' j] ++ ts, by simp, ?_, ?_, ?_, ?_, ?_⟩
  · have : (Ty.ref false t).print lib.render = chars! "&" ++ t.print lib.render := by simp [Ty.print]
    rw [this]
    exact hj.append hl
  · intro n rest hn he
    have he := endsFor_of_not_path rfl he
    obtain ⟨n, rfl⟩ : ∃ k, n = k + 1 := ⟨n - 1, by omega⟩
    simp only [Ty.print, Bool.false_eq_true, if_false, List.append_nil, List.length_append, List.length_cons, List.length_nil] at hn
    obtain ⟨h1, h2⟩ := hr.notSlice hu hs j n rest (by omega) he
    simp only [typeP, alternatives, List.nil_append, List.cons_append, h1, h2, orTry, refTy, hr.notMut rest,
      hr.parse n rest (by omega) (Or.inl he), Res.bind]
  · intro rest; rfl
  · intro rest; rfl
  · intro _ _ j n rest _ _; exact ⟨rfl, rfl⟩

theorem good_refMut {t : Ty} (h : Good lib t) : Good lib (.ref true t) := by
  intro k hk
  obtain ⟨ts, hne, hl, hr⟩ := h k hk
  obtain ⟨j, hj⟩ := lexed_mark (c := '&') (by decide) (chars! "mut" ++ ([' '] ++ t.print lib.render) ++ k)
  refine ⟨[.punct '&' j] ++ ([.ident (chars! "mut")] ++ ([] ++ ts)), by simp, ?_, ?_, ?_, ?_, ?_⟩
  · have : (Ty.ref true t).print lib.render = chars! "&" ++ (chars! "mut" ++ ([' '] ++ t.print lib.render)) := by simp [Ty.print]
    rw [this]
    exact hj.append ((lexed_word isIdent_mut (wordEnd_cons _ (by decide))).append
      ((lexed_white (c := ' ') (by decide) _).append hl))
  · intro n rest hn he
    have he := endsFor_of_not_path rfl he
    obtain ⟨n, rfl⟩ : ∃ k, n = k + 1 := ⟨n - 1, by omega⟩
    simp only [Ty.print, if_true, List.length_append, List.length_cons, List.length_nil] at hn
    simp [typeP, alternatives, orTry, sliceTy, strTy, refTy, optMut, hr.parse n rest (by omega) (Or.inl he)]
  · intro rest; rfl
  · intro rest; rfl
  · intro _ _ j n rest _ _; exact ⟨rfl, rfl⟩

/-- The size of an array reads back, after the element type. -/
def GoodSize (z : Size) : Prop :=
  ∀ k, WordEnd k → ∃ ts, Lexed (z.print lib.render) k ts ∧ Ends ts ∧ (z = .none → ts = []) ∧
    (z ≠ .none → ∃ j r, ts = .punct ';' j :: r) ∧
    (∀ n, (z.print lib.render).length ≤ n → optSize (typeP lib n) ts = .ok (z, []))

theorem goodSize_none : GoodSize lib .none := by
  intro k hk
  exact ⟨[], Lexed.nil k, ends_nil, fun _ => rfl, fun h => absurd rfl h, fun n _ => rfl⟩

theorem goodSize_fixed {m : Nat} (hm : m < 2 ^ 64) : GoodSize lib (.fixed m) := by
  intro k hk
  obtain ⟨j, hj⟩ := lexed_mark (c := ';') (by decide) ([' '] ++ natStr m ++ k)
  refine ⟨[.punct ';' j] ++ ([] ++ [.lit (natStr m)]), ?_, ends_semi j [.lit (natStr m)], (fun h => by cases h),
    (fun _ => ⟨j, [.lit (natStr m)], rfl⟩), ?_⟩
  · exact hj.append ((lexed_white (c := ' ') (by decide) _).append (lexed_num (natStr_ne m) (natStr_digits m) hk))
  · intro n _
    simp [optSize, arraySize, number, litVal_natStr, hm, orTry]

theorem goodSize_generic {t : Ty} (h : Good lib t) : GoodSize lib (.generic t) := by
  intro k hk
  obtain ⟨ts, hne, hl, hr⟩ := h k hk
  obtain ⟨j, hj⟩ := lexed_mark (c := ';') (by decide) ([' '] ++ t.print lib.render ++ k)
  refine ⟨[.punct ';' j] ++ ([] ++ ts), ?_, ends_semi j ts, (fun h => by cases h), (fun _ => ⟨j, ts, rfl⟩), ?_⟩
  · exact hj.append ((lexed_white (c := ' ') (by decide) _).append hl)
  · intro n hn
    have h1 := hr.parse n [] (by simp [Size.print] at hn; omega) (Or.inl ends_nil)
    have h2 := hr.number []
    rw [List.append_nil] at h1 h2
    simp [optSize, arraySize, h2, h1, orTry]

theorem good_array {t : Ty} {z : Size} (h : Good lib t) (hz : GoodSize lib z) : Good lib (.array t z) := by
  intro k hk
  obtain ⟨us, hul, hue, hu0, hu1, hup⟩ := hz (']' :: k) (wordEnd_cons _ (by decide))
  have hw : WordEnd (z.print lib.render ++ ']' :: k) := by
    cases z with
    | none => exact wordEnd_cons _ (by decide)
    | fixed m => exact wordEnd_cons _ (by decide)
    | generic t => exact wordEnd_cons _ (by decide)
  obtain ⟨ts, hne, hl, hr⟩ := h (z.print lib.render ++ ']' :: k) hw
  refine ⟨[.group .bracket (ts ++ us)], by simp, ?_, ?_, ?_, ?_, ?_⟩
  · have : (Ty.array t z).print lib.render = '[' :: ((t.print lib.render ++ z.print lib.render) ++ [']']) := by simp [Ty.print]
    rw [this]
    exact lexed_group rfl rfl (hl.append hul)
  · intro n rest hn _
    obtain ⟨n, rfl⟩ : ∃ k, n = k + 1 := ⟨n - 1, by omega⟩
    simp only [Ty.print, List.length_append, List.length_cons, List.length_nil] at hn
    have h1 := hr.parse n us (by omega) (Or.inl hue)
    have h2 := hup n (by omega)
    simp [typeP, alternatives, sliceTy, strTy, refTy, neverTy, arrayTy, h1, h2, whole, orTry]
  · intro rest; rfl
  · intro rest; rfl
  · intro hz _ j n rest hn _
    refine ⟨?_, rfl⟩
    simp only [Ty.print, List.length_append, List.length_cons, List.length_nil] at hn
    have h1 := hr.parse n us (by omega) (Or.inl hue)
    have hz' : z ≠ .none := by rintro rfl; simp [Ty.isUnsized] at hz
    obtain ⟨j', r, rfl⟩ := hu1 hz'
    simp [sliceTy, h1, whole]

theorem good_unit : Good lib (.tuple .nil) := by
  intro k hk
  refine ⟨[.group .paren []], by simp, ?_, ?_, ?_, ?_, ?_⟩
  · exact lexed_group (p := []) (o := '(') (c := ')') rfl rfl (Lexed.nil _)
  · intro n rest hn _
    obtain ⟨n, rfl⟩ : ∃ k, n = k + 1 := ⟨n - 1, by omega⟩
    simp [typeP, alternatives, sliceTy, strTy, refTy, neverTy, arrayTy, fnTy, optUnsafe, dynTy, tupleTy, orTry]
  · intro rest; rfl
  · intro rest; rfl
  · intro _ _ j n rest _ _; exact ⟨rfl, rfl⟩

theorem good_single {t : Ty} (h : Good lib t) : Good lib (.tuple (.cons t .nil)) := by
  intro k hk
  obtain ⟨ts, hne, hl, hr⟩ := h ([','] ++ ')' :: k) (wordEnd_cons _ (by decide))
  obtain ⟨j, hj⟩ := lexed_mark (c := ',') (by decide) (')' :: k)
  refine ⟨[.group .paren (ts ++ [.punct ',' j])], by simp, ?_, ?_, ?_, ?_, ?_⟩
  · have : (Ty.tuple (.cons t .nil)).print lib.render = '(' :: ((t.print lib.render ++ [',']) ++ [')']) := by simp [Ty.print]
    rw [this]
    exact lexed_group rfl rfl (hl.append hj)
  · intro n rest hn _
    obtain ⟨n, rfl⟩ : ∃ k, n = k + 1 := ⟨n - 1, by omega⟩
    simp only [Ty.print, List.length_append, List.length_cons, List.length_nil] at hn
    have h1 := hr.parse n [.punct ',' j] (by omega) (Or.inl (ends_comma _ _))
    simp [typeP, alternatives, sliceTy, strTy, refTy, neverTy, arrayTy, fnTy, optUnsafe, dynTy, tupleTy, orTry, h1,
      lastComma, Tys.ofList]
  · intro rest; rfl
  · intro rest; rfl
  · intro _ _ j n rest _ _; exact ⟨rfl, rfl⟩

theorem good_tuple {t t' : Ty} {ts : Tys} (h : GoodTys lib (.cons t (.cons t' ts))) :
    Good lib (.tuple (.cons t (.cons t' ts))) := by
  intro k hk
  obtain ⟨us, hune, hul, _, hm, ha⟩ := h (')' :: k) (wordEnd_cons _ (by decide))
  refine ⟨[.group .paren us], by simp, ?_, ?_, ?_, ?_, ?_⟩
  · have : (Ty.tuple (.cons t (.cons t' ts))).print lib.render =
        '(' :: (joinWith (chars! ", ") ((Tys.cons t (.cons t' ts)).prints lib.render) ++ [')']) := by simp [Ty.print]
    rw [this]
    exact lexed_group rfl rfl hul
  · intro n rest hn _
    obtain ⟨n, rfl⟩ : ∃ k, n = k + 1 := ⟨n - 1, by omega⟩
    simp only [Ty.print, List.length_append, List.length_cons, List.length_nil] at hn
    obtain ⟨t0, g, h1, h2⟩ := ha n (by omega) (by intro t h; cases h)
    obtain ⟨init, last, lt, h3, h4, h5⟩ := hm n (us.length + 1) (by omega) (by omega)
    have hi : init.isEmpty = false := by
      cases init with
      | nil => simp [Tys.toList] at h5
      | cons _ _ => rfl
    have hus : us.isEmpty = false := by
      cases us with
      | nil => exact absurd rfl hune
      | cons _ _ => rfl
    have hnil : lastComma [] = true := rfl
    simp only [typeP, alternatives, sliceTy, strTy, refTy, neverTy, arrayTy, fnTy, optUnsafe, dynTy, tupleTy, orTry, h1,
      h2, h3, h4, hi, hus, hnil, List.cons_append, List.nil_append, Res.bind,
      Bool.false_eq_true, if_false, if_true, ← h5, tys_ofList]
  · intro rest; rfl
  · intro rest; rfl
  · intro _ _ j n rest _ _; exact ⟨rfl, rfl⟩

/-- A return type reads back. -/
def GoodRet (r : OptTy) : Prop :=
  ∀ k, WordEnd k → ∃ ts, Lexed (r.print lib.render) k ts ∧
    (∀ n rest, (r.print lib.render).length ≤ n → Ends rest → fnRet (typeP lib n) (ts ++ rest) = .ok (r, rest))

theorem goodRet_none : GoodRet lib .none := by
  intro k hk
  refine ⟨[], Lexed.nil k, ?_⟩
  intro n rest _ he
  rcases he with rfl | ⟨c, j, r, rfl, hc⟩
  · rfl
  · simp only [List.mem_cons, List.not_mem_nil, or_false] at hc
    rcases hc with rfl | rfl | rfl <;> rfl

theorem goodRet_some {t : Ty} (h : Good lib t) : GoodRet lib (.some t) := by
  intro k hk
  obtain ⟨ts, hne, hl, hr⟩ := h k hk
  obtain ⟨j, hj⟩ := lexed_mark (c := '>') (by decide) ([' '] ++ t.print lib.render ++ k)
  refine ⟨[] ++ ([.punct '-' true] ++ ([.punct '>' j] ++ ([] ++ ts))), ?_, ?_⟩
  · exact (lexed_white (c := ' ') (by decide) (chars! "-> " ++ t.print lib.render ++ k)).append
      ((lexed_punct (c := '-') (by decide) (chars! "> " ++ t.print lib.render ++ k)).append
        (hj.append ((lexed_white (c := ' ') (by decide) _).append hl)))
  · intro n rest hn he
    simp only [OptTy.print, List.length_append, List.length_cons, List.length_nil] at hn
    have h1 := hr.parse n rest (by omega) (Or.inl he)
    simp [fnRet, h1, orTry]

theorem good_fn {args : Tys} {ret : OptTy} (h : GoodTys lib args) (hne : args ≠ .nil) (hr : GoodRet lib ret) :
    Good lib (.fn false args ret) := by
  intro k hk
  obtain ⟨rs, hrl, hrp⟩ := hr k hk
  obtain ⟨us, hune, hul, hd, _, _⟩ := h (')' :: (ret.print lib.render ++ k)) (wordEnd_cons _ (by decide))
  refine ⟨[.ident (chars! "fn")] ++ ([.group .paren us] ++ rs), by simp, ?_, ?_, ?_, ?_, ?_⟩
  · have : (Ty.fn false args ret).print lib.render =
        chars! "fn" ++ ('(' :: (joinWith (chars! ", ") (args.prints lib.render) ++ [')']) ++ ret.print lib.render) := by
      simp [Ty.print]
    rw [this]
    exact (lexed_word isIdent_fn (wordEnd_cons _ (by decide))).append ((lexed_group rfl rfl hul).append hrl)
  · intro n rest hn he
    have he := endsFor_of_not_path rfl he
    obtain ⟨n, rfl⟩ : ∃ k, n = k + 1 := ⟨n - 1, by omega⟩
    simp only [Ty.print, List.length_append, List.length_cons, List.length_nil] at hn
    have h1 := hd n (us.length + 1) [] (by omega) (by omega) (Or.inl rfl)
    have h2 := hrp n rest (by omega) he
    rw [List.append_nil] at h1
    have hts : args.toList.isEmpty = false := by
      cases args with
      | nil => exact absurd rfl hne
      | cons _ _ => rfl
    have hu : (chars! "fn" : Str) ≠ chars! "unsafe" := by decide
    simp only [typeP, alternatives, sliceTy, strTy, refTy, neverTy, arrayTy, fnTy, optUnsafe, orTry, delimitedVec, h1, hts,
      whole, h2, tys_ofList, List.cons_append, List.nil_append, if_neg hu, if_true, Res.bind, Bool.false_and,
      Bool.false_eq_true, if_false]
  · intro rest; rfl
  · intro rest; rfl
  · intro _ _ j n rest _ _; exact ⟨rfl, rfl⟩

theorem good_dyn {ts : Tys} (h : GoodTraits lib ts) (hne : ts ≠ .nil) : Good lib (.dyn ts) := by
  intro k hk
  obtain ⟨us, hune, hul, hd⟩ := h k hk
  refine ⟨[.ident (chars! "dyn")] ++ ([] ++ us), by simp, ?_, ?_, ?_, ?_, ?_⟩
  · have : (Ty.dyn ts).print lib.render =
        chars! "dyn" ++ ([' '] ++ joinWith (chars! " + ") (ts.prints lib.render)) := by simp [Ty.print]
    rw [this]
    exact (lexed_word isIdent_dyn (wordEnd_cons _ (by decide))).append
      ((lexed_white (c := ' ') (by decide) (joinWith (chars! " + ") (ts.prints lib.render) ++ k)).append hul)
  · intro n rest hn he
    have he := endsFor_of_not_path rfl he
    obtain ⟨n, rfl⟩ : ∃ k, n = k + 1 := ⟨n - 1, by omega⟩
    simp only [Ty.print, List.length_append, List.length_cons, List.length_nil] at hn
    have h1 := hd n ((us ++ rest).length + 1) rest (by omega) (by simp; omega) he
    have hts : ts.toList.isEmpty = false := by
      cases ts with
      | nil => exact absurd rfl hne
      | cons _ _ => rfl
    have hfn : fnTy lib (typeP lib n) (.ident (chars! "dyn") :: (us ++ rest)) = .err := by
      simp only [fnTy, optUnsafe]
      split
      · rename_i heq
        simp at heq
        rw [if_neg]
        rw [← heq.1]; decide
      · rfl
    simp only [List.singleton_append, List.nil_append, List.cons_append, typeP, alternatives, sliceTy, strTy, refTy, neverTy,
      arrayTy, hfn, dynTy, orTry, delimitedVec, h1, hts, tys_ofList, if_true, Res.bind, Bool.false_and,
      Bool.false_eq_true, if_false]
  · intro rest; rfl
  · intro rest; rfl
  · intro _ _ j n rest _ _; exact ⟨rfl, rfl⟩

theorem good_ptr {m : Bool} {t : Ty} (h : Good lib t)
    (hp : lib.render (ptrTokens m) = (if m then chars! "*mut " else chars! "*const ")) : Good lib (.ptr m t) := by
  intro k hk
  obtain ⟨ts, hne, hl, hr⟩ := h k hk
  have hw : IsIdent (if m then chars! "mut" else chars! "const") := by
    cases m
    · exact ⟨'c', ['o', 'n', 's', 't'], rfl, by decide, by decide⟩
    · exact isIdent_mut
  have ht : (Ty.ptr m t).print lib.render =
      chars! "*" ++ ((if m then chars! "mut" else chars! "const") ++ ([' '] ++ t.print lib.render)) := by
    simp only [Ty.print, hp]
    cases m <;> rfl
  obtain ⟨j, hj⟩ := lexed_mark (c := '*') (by decide)
    ((if m then chars! "mut" else chars! "const") ++ ([' '] ++ t.print lib.render) ++ k)
  refine ⟨[.punct '*' j] ++ ([.ident (if m then chars! "mut" else chars! "const")] ++ ([] ++ ts)), by simp,
    ?_, ?_, ?_, ?_, ?_⟩
  · rw [ht]
    exact hj.append ((lexed_word hw (wordEnd_cons _ (by decide))).append
      ((lexed_white (c := ' ') (by decide) _).append hl))
  · intro n rest hn he
    have he := endsFor_of_not_path rfl he
    obtain ⟨n, rfl⟩ : ∃ k, n = k + 1 := ⟨n - 1, by omega⟩
    rw [ht] at hn
    simp only [List.length_append, List.length_cons, List.length_nil] at hn
    have h1 := hr.parse n rest (by omega) (Or.inl he)
    cases m <;> simp [typeP, alternatives, orTry, sliceTy, strTy, refTy, neverTy, arrayTy, fnTy, optUnsafe, dynTy, tupleTy,
      ptrTy, h1]
  · intro rest; rfl
  · intro rest; rfl
  · intro _ _ j n rest _ _; exact ⟨rfl, rfl⟩

/-! ### All plain types -/

mutual
theorem good_of_plain : (t : Ty) → t.Plain lib.render → Good lib t
  | .slice t, h => good_slice lib (good_of_plain t h)
  | .str, _ => good_str lib
  | .ref true t, h => good_refMut lib (good_of_plain t h.1)
  | .ref false t, h => good_ref lib (good_of_plain t h.1) (h.2 rfl).1 (h.2 rfl).2
  | .never, _ => good_never lib
  | .array t z, h => good_array lib (good_of_plain t h.1) (goodSize_of_plain z h.2)
  | .fn u args ret, h => by
    obtain ⟨rfl, h1, h2, h3⟩ := h
    exact good_fn lib (goodTys_of_plain args h1 h2) h1 (goodRet_of_plain ret h3)
  | .dyn ts, h => good_dyn lib (goodTraits_of_plain ts h.1 h.2.1 h.2.2) h.1
  | .tuple .nil, _ => good_unit lib
  | .tuple (.cons t .nil), h => good_single lib (good_of_plain t h.1)
  | .tuple (.cons t (.cons t' ts)), h =>
    good_tuple lib (goodTys_cons lib (good_of_plain t h.1) (goodTys_of_plain (.cons t' ts) (by intro h; cases h) h.2))
  | .ptr m t, h => good_ptr lib (good_of_plain t h.2) h.1
  | .path ss, h => good_path lib (goodSegs_of_plain ss h.1 h.2.1) h.1 h.2.2
theorem goodSize_of_plain : (z : Size) → z.Plain lib.render → GoodSize lib z
  | .none, _ => goodSize_none lib
  | .fixed _, h => goodSize_fixed lib h
  | .generic t, h => goodSize_generic lib (good_of_plain t h)
theorem goodRet_of_plain : (r : OptTy) → r.Plain lib.render → GoodRet lib r
  | .none, _ => goodRet_none lib
  | .some t, h => goodRet_some lib (good_of_plain t h)
theorem goodTys_of_plain : (ts : Tys) → ts ≠ .nil → ts.Plain lib.render → GoodTys lib ts
  | .nil, h, _ => absurd rfl h
  | .cons t .nil, _, h => goodTys_one lib (good_of_plain t h.1)
  | .cons t (.cons t' ts), _, h =>
    goodTys_cons lib (good_of_plain t h.1) (goodTys_of_plain (.cons t' ts) (by intro h; cases h) h.2)
theorem goodTraits_of_plain : (ts : Tys) → ts ≠ .nil → ts.Plain lib.render → (∀ t ∈ ts.toList, t.isPath = true) → GoodTraits lib ts
  | .nil, h, _, _ => absurd rfl h
  | .cons t .nil, _, h, _ => goodTraits_one lib (good_of_plain t h.1)
  | .cons t (.cons t' ts), _, h, hp =>
    goodTraits_cons lib (good_of_plain t h.1) (hp t (by simp [Tys.toList]))
      (goodTraits_of_plain (.cons t' ts) (by intro h; cases h) h.2 (fun x hx => hp x (by simp [Tys.toList] at hx ⊢; exact Or.inr hx)))
theorem goodSegs_of_plain : (ss : Segs) → ss ≠ .nil → ss.Plain lib.render → GoodSegs lib ss
  | .nil, h, _ => absurd rfl h
  | .cons s .nil, _, h => goodSegs_one lib (goodSeg_of_plain s h.1)
  | .cons s (.cons s' ss), _, h =>
    goodSegs_cons lib (goodSeg_of_plain s h.1) (goodSegs_of_plain (.cons s' ss) (by intro h; cases h) h.2)
theorem goodSeg_of_plain : (s : Seg) → s.Plain lib.render → GoodSeg lib s
  | .named id g shim, h => by
    obtain ⟨h1, h2, rfl⟩ := h
    exact goodSeg_of_gen id g h1 h2
  | .qualified _, h => absurd h id
  | .vtable, h => goodSeg_vtable lib h
  | .impl _, h => goodSeg_impl lib h.1 h.2
theorem goodSeg_of_gen (id : Str) : (g : Gen) → IsIdent id → g.Plain lib.render → GoodSeg lib (.named id g false)
  | .none, hid, _ => goodSeg_none lib hid
  | .args ts, hid, h => goodSeg_args lib hid (goodTys_of_plain ts h.1 h.2) h.1
  | .raw _, _, h => False.elim h
end

/-- A printed plain type parses to itself. -/
theorem parse_print (hl : lib.LexesPlain) (t : Ty) (h : t.Plain lib.render) :
    parseType lib (t.print lib.render) = .ok t := by
  obtain ⟨ts, _, hlex, hr⟩ := good_of_plain lib t h [] wordEnd_nil
  have h1 := hl _ _ (lexPlain_of_lexed hlex)
  have h2 := hr.parse ((t.print lib.render).length + toksSize ts + 2) [] (by omega) (Or.inl ends_nil)
  rw [List.append_nil] at h2
  simp [parseType, h1, h2, whole]

end Rudy.TypeNames
