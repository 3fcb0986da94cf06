import Verif.Proof.TypeSpec
import Verif.Props.Modules
import Verif.Props.Layout
/-
C45: the names of types and the layouts they stand for. C61: looking a type up by name.
-/
namespace Rudy.TypeNames
open Rudy Rudy.Layout Rudy.Expr Rudy.Dwarf Rudy.Parse Rudy.Modules

/-! ### Names -/

/-- C45 (partial: unsafe functions, functions without arguments and names kept as raw tokens, such as
`<T as Trait>`, are excluded, and raw pointers, `{impl#n}` and `{vtable_type}` need a library that writes
their tokens as the compiler does, see `Ty.Plain` and the refutations below): printing a type and parsing the result
gives the same type, for every nesting. -/
theorem C45_print_parse_partial (lib : Lib) (hl : lib.LexesPlain) (t : Ty) (h : t.Plain lib.render) :
    parseType lib (t.print lib.render) = .ok t := parse_print lib hl t h

/-- C45: every name the compiler writes for a type (see `Names`: primitive types, paths with generic
arguments, references, slices, arrays, tuples, functions, trait objects and raw pointers, nested without
bound) is read as that type: it is printed back as `shown` and stands for the layout `l`. -/
theorem C45_names (lib : Lib) (hl : lib.LexesPlain) (s shown : Str) (l : Layout) (h : Names lib.render s shown l) :
    ∃ t, parseType lib s = .ok t ∧ t.print lib.render = shown ∧ t.layout lib.render = l := parse_names lib hl h

/-- C45: a name stands for one layout only. -/
theorem C45_names_unique (lib : Lib) (hl : lib.LexesPlain) (s p p' : Str) (l l' : Layout) (h : Names lib.render s p l)
    (h' : Names lib.render s p' l') : l = l' ∧ p = p' := by
  obtain ⟨t, h1, h2, h3⟩ := parse_names lib hl h
  obtain ⟨t', h1', h2', h3'⟩ := parse_names lib hl h'
  rw [h1] at h1'
  cases h1'
  exact ⟨h3.symm.trans h3', h2.symm.trans h2'⟩

/-- C45: a standard library type written with its path and in its prelude form stands for the same
layout, whatever its generic arguments. -/
theorem C45_std_path_or_prelude (lib : Lib) (hl : lib.LexesPlain) (root : Str) (rest : List Str) (id : Str)
    (args shown : List Str) (ls : List Layout) (l : Layout) (hr : root ∈ stdRoots) (hrest : ∀ x ∈ rest, IsIdent x)
    (hs : StdNamed id ls l) (ha : Many lib.render args shown ls) :
    ∃ t t', parseType lib (qualify (root :: rest) (withArgs id args)) = .ok t ∧
      parseType lib (withArgs id args) = .ok t' ∧ t.layout lib.render = l ∧ t'.layout lib.render = l := by
  have hroot : IsIdent root ∧ some root ∉ [some (chars! "dyn"), some (chars! "fn"), some (chars! "unsafe"), some (chars! "mut")] := by
    simp only [stdRoots, List.mem_cons, List.not_mem_nil, or_false] at hr
    rcases hr with rfl | rfl | rfl | rfl <;> exact ⟨⟨_, _, rfl, by decide, by decide⟩, by decide⟩
  have hid : IsIdent id ∧ some id ∉ [some (chars! "dyn"), some (chars! "fn"), some (chars! "unsafe"), some (chars! "mut")] := by
    have := stdNamed_name hs
    simp only [stdNames, List.mem_cons, List.not_mem_nil, or_false] at this
    rcases this with rfl | rfl | rfl | rfl | rfl | rfl | rfl | rfl | rfl | rfl | rfl | rfl | rfl | rfl <;>
      exact ⟨⟨_, _, rfl, by decide, by decide⟩, by decide⟩
  have h1 : PathName lib.render _ _ l := .std (root :: rest) id args shown ls l (Or.inr ⟨root, rest, rfl, hr⟩)
    ⟨fun x hx => by
      rcases List.mem_cons.1 hx with rfl | hx
      · exact hroot.1
      · exact hrest x hx, hid.1, hroot.2⟩ hs ha
  have h2 : PathName lib.render _ _ l := .std [] id args shown ls l (Or.inl rfl) ⟨by simp, hid.1, hid.2⟩ hs ha
  obtain ⟨t, a, _, b⟩ := parse_names lib hl (.path _ _ _ h1)
  obtain ⟨t', a', _, b'⟩ := parse_names lib hl (.path _ _ _ h2)
  exact ⟨t, t', a, by simpa [qualify, joinWith] using a', b, b'⟩

/-- C45: a type in a module outside the standard library stands for a type known by its own name, whatever
that name is, so it is never given the layout of a standard library type. -/
theorem C45_user_type_is_not_std (lib : Lib) (hl : lib.LexesPlain) (root : Str) (rest : List Str) (id : Str)
    (args shown : List Str) (ls : List Layout) (hr : root ∉ stdRoots) (hstr : root ≠ chars! "str")
    (hp : PathOk (root :: rest) id) (ha : Many lib.render args shown ls) :
    ∃ t, parseType lib (qualify (root :: rest) (withArgs id args)) = .ok t ∧
      t.layout lib.render = .alias (withArgs id shown) := by
  have h1 : PathName lib.render _ _ _ := .other (root :: rest) id args shown ls hp (by simpa using hstr)
    (by intro h; cases h)
    (by
      rintro (h | ⟨r, rs, h, hr'⟩)
      · cases h
      · cases h; exact absurd hr' hr) ha
  obtain ⟨t, a, _, b⟩ := parse_names lib hl (.path _ _ _ h1)
  exact ⟨t, a, b⟩

/-- C45: a type declared in an implementation block is a type known by its own name, even in the standard
library or in the user's program under the name of a standard library type. -/
theorem C45_type_in_impl (lib : Lib) (hl : lib.LexesPlain) (root id : Str) (n : Nat) (hn : n < 2 ^ 64) (hok : PathOk [root] id)
    (hstr : root ≠ chars! "str") (hstd : root ∈ stdRoots → id ∉ stdNames) :
    ∃ t, parseType lib (root ++ chars! "::{impl#" ++ natStr n ++ chars! "}::" ++ id) = .ok t ∧
      t.layout lib.render = .alias id := by
  have h1 : PathName lib.render _ _ _ := .within root _ _ id [] [] [] hok hstr hstd (.impl n [] [] hn .nil) .nil
  obtain ⟨t, a, _, b⟩ := parse_names lib hl (.path _ _ _ h1)
  exact ⟨t, by simpa [qualify, joinWith, withArgs] using a, b⟩

/-! ### A concrete library and examples -/

/-- A library that tokenizes plain text and prints tokens without blanks. -/
def plainLib (e : Bool) : Lib where
  lex := fun s => match lexPlain s with | some ts => .ok ts | none => .err
  emptyDelimited := e
  render := fun ts =>
    match ts with
    | [.punct '*' _, .ident s] => chars! "*" ++ s
    | _ => []

theorem plainLib_lexes (e : Bool) : (plainLib e).LexesPlain := by
  intro s ts h
  simp [plainLib, h]

/-- `u8`, read as a plain type. -/
theorem names_u8 (r : List Tok → Str) : Names r (chars! "u8") (chars! "u8") (.uint 1) :=
  .path _ _ _ (.prim _ _ (by simp [primTable]))

/-- `core::option::Option<alloc::vec::Vec<*const u8, alloc::alloc::Global>>` is an optional vector of
pointers. -/
example (lib : Lib) (hl : lib.LexesPlain) :
    ∃ t, parseType lib (chars! "core::option::Option<alloc::vec::Vec<*const u8, alloc::alloc::Global>>") = .ok t ∧
      t.layout lib.render = .option (chars! "Option") { ty := .implicit, offset := 0 } 0
        (.mk none (.vec 0 0 0 (.mk none (.pointer false (.mk none (.uint 1)))))) 0 := by
  have hg : Names lib.render (chars! "alloc::alloc::Global") (chars! "alloc::alloc::Global") (.alias (chars! "Global")) :=
    .path _ _ _ (.other [chars! "alloc", chars! "alloc"] (chars! "Global") [] [] []
      ⟨by
        intro x hx
        simp only [List.mem_cons, List.not_mem_nil, or_false, or_self] at hx
        subst hx
        exact ⟨_, _, rfl, by decide, by decide⟩, ⟨_, _, rfl, by decide, by decide⟩, by decide⟩ (by decide)
      (by intro h; cases h) (fun _ => by decide) .nil)
  have hv : Names lib.render (chars! "alloc::vec::Vec<*const u8, alloc::alloc::Global>") _
      (.vec 0 0 0 (.mk none (.pointer false (.mk none (.uint 1))))) :=
    .path _ _ _ (.std [chars! "alloc", chars! "vec"] (chars! "Vec") [chars! "*const u8", chars! "alloc::alloc::Global"] _ _ _
      (Or.inr ⟨_, _, rfl, by decide⟩) ⟨by
        intro x hx
        simp only [List.mem_cons, List.not_mem_nil, or_false] at hx
        rcases hx with rfl | rfl <;> exact ⟨_, _, rfl, by decide, by decide⟩, ⟨_, _, rfl, by decide, by decide⟩, by decide⟩
      (.vec _ _) (.cons _ _ _ _ _ _ (.const _ _ _ (names_u8 _)) (.cons _ _ _ _ _ _ hg .nil)))
  obtain ⟨t, h1, _, h3⟩ := C45_names lib hl _ _ _ (.path _ _ _ (.std [chars! "core", chars! "option"] (chars! "Option") [_] _ _ _
      (Or.inr ⟨_, _, rfl, by decide⟩) ⟨by
        intro x hx
        simp only [List.mem_cons, List.not_mem_nil, or_false] at hx
        rcases hx with rfl | rfl <;> exact ⟨_, _, rfl, by decide, by decide⟩, ⟨_, _, rfl, by decide, by decide⟩, by decide⟩
      (.option _ _) (.cons _ _ _ _ _ _ hv .nil)))
  exact ⟨t, h1, h3⟩

/-- `app::{impl#12}::Vec` is a type of the program, not a vector. -/
example (lib : Lib) (hl : lib.LexesPlain) : ∃ t, parseType lib (chars! "app::{impl#12}::Vec") = .ok t ∧
    t.layout lib.render = .alias (chars! "Vec") := by
  have := C45_type_in_impl lib hl (chars! "app") (chars! "Vec") 12 (by decide)
    ⟨by
      intro x hx
      simp only [List.mem_cons, List.not_mem_nil, or_false] at hx
      subst hx
      exact ⟨_, _, rfl, by decide, by decide⟩, ⟨_, _, rfl, by decide, by decide⟩, by decide⟩ (by decide) (fun h => absurd h (by decide))
  exact this

/-! ### Where the property fails -/

/-- C45 fails for raw pointers: if the library prints the tokens `*` and `const` without a blank at the
end (with or without one between them), a pointer type is printed as text that is not a type. -/
theorem C45_pointer_print_fails (lib : Lib) (hl : lib.LexesPlain)
    (hr : lib.render (ptrTokens false) = chars! "*const" ∨ lib.render (ptrTokens false) = chars! "* const") :
    ∃ t, parseType lib (chars! "*const u8") = .ok t ∧ parseType lib (t.print lib.render) = .err := by
  obtain ⟨t, h1, h2, -⟩ := C45_names lib hl _ _ _ (.const _ _ _ (names_u8 _))
  refine ⟨t, h1, ?_⟩
  rw [h2]
  have key : ∀ s ts, lexPlain s = some ts → (∃ j, ts = [.punct '*' j, .ident (chars! "constu8")]) → s.length = 8 ∨ s.length = 9 →
      parseType lib s = .err := by
    rintro s ts hs ⟨j, rfl⟩ hlen
    rw [parseType, hl s _ hs]
    obtain ⟨lx, e, r⟩ := lib
    rcases hlen with h | h <;> rw [h] <;> cases e <;> rfl
  rcases hr with hr | hr <;> rw [hr]
  · exact key _ [.punct '*' false, .ident (chars! "constu8")] rfl ⟨_, rfl⟩ (Or.inl rfl)
  · exact key _ [.punct '*' false, .ident (chars! "constu8")] rfl ⟨_, rfl⟩ (Or.inr rfl)

/-- C45 fails for unsafe functions: they are printed as safe ones. -/
theorem C45_unsafe_print_fails (lib : Lib) (hl : lib.LexesPlain) :
    ∃ t t', parseType lib (chars! "unsafe fn(u8)") = .ok t ∧ parseType lib (t.print lib.render) = .ok t' ∧ t ≠ t' := by
  obtain ⟨t', h1, h2, -⟩ := C45_names lib hl _ _ _ (.fn _ _ _ _ _ _ (names_u8 _) .nil)
  refine ⟨.fn true (.cons (.path (.cons (.named (chars! "u8") .none false) .nil)) .nil) .none,
    .fn false (.cons (.path (.cons (.named (chars! "u8") .none false) .nil)) .nil) .none, ?_, ?_, by intro h; cases h⟩
  · rw [parseType, hl _ [.ident (chars! "unsafe"), .ident (chars! "fn"), .group .paren [.ident (chars! "u8")]] rfl]
    obtain ⟨lx, e, r⟩ := lib
    cases e <;> rfl
  · exact parse_print lib hl (.fn false (.cons (.path (.cons (.named (chars! "u8") .none false) .nil)) .nil) .none) ⟨rfl, by simp, ⟨⟨by simp, ⟨⟨⟨_, _, rfl, by decide, by decide⟩, trivial, rfl⟩, trivial⟩, _, rfl, by decide⟩, trivial⟩, trivial⟩

set_option maxRecDepth 8000 in
/-- C45 fails for virtual table shims: `F{{vtable.shim}}` is another name than `F`, but is printed as `F`
and stands for the same layout, so printing and parsing does not give it back. -/
theorem C45_shim_print_fails (lib : Lib) (hl : lib.LexesPlain) :
    ∃ t t', parseType lib (chars! "F{{vtable.shim}}") = .ok t ∧ parseType lib (chars! "F") = .ok t' ∧ t ≠ t' ∧
      t.print lib.render = chars! "F" ∧ parseType lib (t.print lib.render) = .ok t' ∧
      t.layout lib.render = .alias (chars! "F") ∧ t'.layout lib.render = .alias (chars! "F") := by
  obtain ⟨lx, e, r⟩ := lib
  have h1 : parseType ⟨lx, e, r⟩ (chars! "F{{vtable.shim}}") = .ok (.path (.cons (.named (chars! "F") .none true) .nil)) := by
    rw [parseType, hl _ [.ident (chars! "F"), .group .brace [.group .brace [.ident (chars! "vtable"), .punct '.' false, .ident (chars! "shim")]]] rfl]
    cases e <;> rfl
  have h2 : parseType ⟨lx, e, r⟩ (chars! "F") = .ok (.path (.cons (.named (chars! "F") .none false) .nil)) := by
    rw [parseType, hl _ [.ident (chars! "F")] rfl]
    cases e <;> rfl
  exact ⟨_, _, h1, h2, by simp, rfl, h2, rfl, rfl⟩
/-- C45 fails for user types of the same name: types of different modules stand for the same layout. -/
theorem C45_same_name_fails (lib : Lib) (hl : lib.LexesPlain) :
    ∃ t t', parseType lib (chars! "a::Foo") = .ok t ∧ parseType lib (chars! "b::Foo") = .ok t' ∧ t ≠ t' ∧
      t.layout lib.render = t'.layout lib.render := by
  refine ⟨.path (.cons (.named (chars! "a") .none false) (.cons (.named (chars! "Foo") .none false) .nil)),
    .path (.cons (.named (chars! "b") .none false) (.cons (.named (chars! "Foo") .none false) .nil)), ?_, ?_, ?_, rfl⟩
  · exact parse_print lib hl (.path (.cons (.named (chars! "a") .none false) (.cons (.named (chars! "Foo") .none false) .nil)))
      ⟨by simp, ⟨⟨⟨_, _, rfl, by decide, by decide⟩, trivial, rfl⟩,
      ⟨⟨_, _, rfl, by decide, by decide⟩, trivial, rfl⟩, trivial⟩, _, rfl, by decide⟩
  · exact parse_print lib hl (.path (.cons (.named (chars! "b") .none false) (.cons (.named (chars! "Foo") .none false) .nil)))
      ⟨by simp, ⟨⟨⟨_, _, rfl, by decide, by decide⟩, trivial, rfl⟩,
      ⟨⟨_, _, rfl, by decide, by decide⟩, trivial, rfl⟩, trivial⟩, _, rfl, by decide⟩
  · intro h
    injection h with h
    injection h with h
    injection h with h
    revert h; decide

/-- C45 fails when types are compared: a user type `mine::Vec<u8>` matches the standard library type of
the same name. -/
theorem C45_user_type_matches_std_fails (lib : Lib) (hl : lib.LexesPlain) :
    ∃ t t', parseType lib (chars! "mine::Vec<u8>") = .ok t ∧ parseType lib (chars! "alloc::vec::Vec<u8>") = .ok t' ∧
      (t.layout lib.render).matching (t'.layout lib.render) = true := by
  obtain ⟨t, h1, h2⟩ := C45_user_type_is_not_std lib hl (chars! "mine") [] (chars! "Vec") [chars! "u8"] [chars! "u8"] [.uint 1]
    (by decide) (by decide) ⟨by
      intro x hx
      simp only [List.mem_cons, List.not_mem_nil, or_false] at hx
      subst hx
      exact ⟨_, _, rfl, by decide, by decide⟩, ⟨_, _, rfl, by decide, by decide⟩, by decide⟩
    (.cons _ _ _ _ _ _ (names_u8 _) .nil)
  obtain ⟨t', t'', h3, -, h4, -⟩ := C45_std_path_or_prelude lib hl (chars! "alloc") [chars! "vec"] (chars! "Vec") [chars! "u8"] [chars! "u8"]
    [.uint 1] _ (by decide) (by
      intro x hx
      simp only [List.mem_cons, List.not_mem_nil, or_false] at hx
      subst hx
      exact ⟨_, _, rfl, by decide, by decide⟩) (.vec _ _) (.cons _ _ _ _ _ _ (names_u8 _) .nil)
  refine ⟨t, t', h1, h3, ?_⟩
  rw [h2, h4, C21_alias_matches_by_name]
  decide

/-- C45 fails for mutable slices: `&mut [u8]` is read as a thin reference to an array of length 0, while
`&[u8]` is a slice. -/
theorem C45_mut_slice_fails (lib : Lib) (hl : lib.LexesPlain) :
    ∃ t t', parseType lib (chars! "&mut [u8]") = .ok t ∧ parseType lib (chars! "&[u8]") = .ok t' ∧
      t.layout lib.render = .reference true (.mk none (.array (.mk none (.uint 1)) 0)) ∧
      t'.layout lib.render = .slice (.mk none (.uint 1)) 0 0 := by
  obtain ⟨t, h1, -, h2⟩ := C45_names lib hl _ _ _ (.refMut _ _ _ (.unsized _ _ _ (names_u8 _)))
  obtain ⟨t', h3, -, h4⟩ := C45_names lib hl _ _ _ (.slice _ _ _ (names_u8 _))
  exact ⟨t, t', h1, h3, h2, h4⟩

end Rudy.TypeNames
