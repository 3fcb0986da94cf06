import Verif.Props.ImageAgrees
/-
A program with an `Option<&Option<u8>>`, as a compiler describes it: the theorems about options at work (C107).
-/
set_option linter.unusedSimpArgs false
namespace Rudy.Image
open Rudy Rudy.Dwarf Rudy.Walker Rudy.Layout Rudy.Data Rudy.Resolve Rudy.Declared Rudy.Entries Rudy.Modules Rudy.TypeNames Rudy.FnIndex Rudy.Shown Rudy.Whole Rudy.Listing
open Rudy.TypeRes (shallow resolveType Ordinary)
open Rudy.Expr (Expr)

/-- The variables of `run`: `oo: Option<&Option<u8>>`, `some: Option<u8>`, `none: Option<u8>`. -/
def maybeVars : List Die :=
  [{ off := 41, tag := .variable, attrs := [(.name, .str (chars! "oo")), (.type, .ref 52)] },
   { off := 42, tag := .variable, attrs := [(.name, .str (chars! "some")), (.type, .ref 62)] },
   { off := 43, tag := .variable, attrs := [(.name, .str (chars! "none")), (.type, .ref 62)] }]

set_option maxRecDepth 8000 in
/-- The file, with the function `shop::run` and the entries of these types. -/
def maybeFile : List UnitOf :=
  [(.node { off := 10, tag := .compileUnit, attrs := [(.language, .lang true)], unitLength := 200 } true false
      [.node { off := 20, tag := .namespace, attrs := [(.name, .str (chars! "shop"))] } true true
        [.node shopRunDie true true (maybeVars.map fun d => .node d false false [])],
       .node { off := 50, tag := .namespace, attrs := [(.name, .str (chars! "core"))] } true true
        [.node { off := 51, tag := .namespace, attrs := [(.name, .str (chars! "option"))] } true true
          [.node { off := 52, tag := .structureType, attrs := [(.name, .str (chars! "Option<&core::option::Option<u8>>")), (.byteSize, .data 8)] } true false
            [.node { off := 53, tag := .variantPart, attrs := [(.discr, .ref 54)] } true false
              [.node { off := 54, tag := .member, attrs := [(.dataMemberLocation, .data 0), (.type, .ref 86)] } false false [],
               .node { off := 55, tag := .variant, attrs := [(.discrValue, .data 0)] } true false
                [.node { off := 56, tag := .member, attrs := [(.name, .str (chars! "None")), (.dataMemberLocation, .data 0), (.type, .ref 59)] } false false []],
               .node { off := 57, tag := .variant, attrs := [] } true false
                [.node { off := 58, tag := .member, attrs := [(.name, .str (chars! "Some")), (.dataMemberLocation, .data 0), (.type, .ref 60)] } false false []]],
             .node { off := 59, tag := .structureType, attrs := [(.name, .str (chars! "None")), (.byteSize, .data 8)] } false false [],
             .node { off := 60, tag := .structureType, attrs := [(.name, .str (chars! "Some")), (.byteSize, .data 8)] } true false
              [.node { off := 61, tag := .member, attrs := [(.name, .str (chars! "__0")), (.dataMemberLocation, .data 0), (.type, .ref 85)] } false false []]],
           .node { off := 62, tag := .structureType, attrs := [(.name, .str (chars! "Option<u8>")), (.byteSize, .data 2)] } true false
            [.node { off := 63, tag := .variantPart, attrs := [(.discr, .ref 64)] } true false
              [.node { off := 64, tag := .member, attrs := [(.dataMemberLocation, .data 0), (.type, .ref 84)] } false false [],
               .node { off := 65, tag := .variant, attrs := [(.discrValue, .data 0)] } true false
                [.node { off := 66, tag := .member, attrs := [(.name, .str (chars! "None")), (.dataMemberLocation, .data 0), (.type, .ref 69)] } false false []],
               .node { off := 67, tag := .variant, attrs := [(.discrValue, .data 1)] } true false
                [.node { off := 68, tag := .member, attrs := [(.name, .str (chars! "Some")), (.dataMemberLocation, .data 0), (.type, .ref 70)] } false false []]],
             .node { off := 69, tag := .structureType, attrs := [(.name, .str (chars! "None")), (.byteSize, .data 2)] } false false [],
             .node { off := 70, tag := .structureType, attrs := [(.name, .str (chars! "Some")), (.byteSize, .data 2)] } true false
              [.node { off := 71, tag := .member, attrs := [(.name, .str (chars! "__0")), (.dataMemberLocation, .data 1), (.type, .ref 84)] } false false []]]]],
       .node { off := 84, tag := .baseType, attrs := [(.name, .str (chars! "u8")), (.byteSize, .data 1)] } false false [],
       .node { off := 85, tag := .pointerType, attrs := [(.name, .str (chars! "&core::option::Option<u8>")), (.type, .ref 62)] } false false [],
       .node { off := 86, tag := .baseType, attrs := [(.name, .str (chars! "u64")), (.byteSize, .data 8)] } false false []], 2)]

/-- The libraries, with texts of one byte for each character. -/
def maybeLibs : Libs := { shopLibs with lossy := fun bs => bs.map fun b => Char.ofNat b.toNat }

/-- An executable with this file: the variables are at 200, 264 and 280, if the first register holds 1. -/
def maybeImage : Executable where
  symbols := [⟨chars! "_ZN4shop3runE", 4088, true, 32⟩]
  units := maybeFile.map encUnit
  files := [shopLines]
  loc := fun d => (([(41, 199), (42, 263), (43, 279)] : List (Nat × Nat)).find? (·.1 == d.off)).map fun p => Vars.fbreg p.2
  frameBase := fun _ => some (Vars.inReg 0)

/-- The function `run`. -/
def maybeRun : Tree Die := .node shopRunDie true true (maybeVars.map fun d => .node d false false [])

/-- The unit. -/
def maybeUnit : UnitOf := maybeFile.head (by simp [maybeFile])

theorem maybeFile_ok : FileOk maybeFile := by
  refine ⟨by decide, ?_, by decide⟩
  intro u hu _
  simp only [maybeFile, List.mem_cons, List.not_mem_nil, or_false] at hu
  subst hu
  refine ⟨rfl, by decide, by decide, ?_⟩
  intro d hd ht
  have : Modules.nameOf d ≠ [] := (by decide : ∀ d ∈ maybeUnit.1.entries, d.tag = .namespace → Modules.nameOf d ≠ []) d hd ht
  simp only [Modules.nameOf] at this
  split at this
  · exact ⟨_, by assumption⟩
  · exact absurd rfl this

theorem maybeFile_offsets : Offsets maybeFile := by unfold Offsets; decide

set_option maxRecDepth 8000 in
theorem maybeFile_apart : NamesApart maybeFile := by
  refine ⟨by decide, ?_⟩
  have h : ∀ p ∈ nodes maybeFile, p.die.tag = .variantPart → p.kids.Pairwise fun b v => (b.kids.all fun x => v.kids.all fun y => decide (nameIs x.die ≠ nameIs y.die)) = true := by decide
  intro p hp ht
  refine (h p hp ht).imp fun hbv _ _ x hx y hy _ => ?_
  rw [List.all_eq_true] at hbv
  have := hbv x hx
  rw [List.all_eq_true] at this
  exact of_decide_eq_true (this y hy)

theorem maybe_function {d : Die} {l : Str} (h : Function maybeFile d l) : d = shopRunDie := by
  obtain ⟨h1, h2, -⟩ := h
  exact (by decide : ∀ d ∈ candidates maybeFile, d.tag = .subprogram → d = shopRunDie) d h1 h2

theorem maybe_compiled : Compiled maybeLibs maybeImage maybeFile where
  units := rfl
  file := maybeFile_ok
  offsets := maybeFile_offsets
  apart := maybeFile_apart
  functions := by
    refine ⟨by decide, ?_, ?_, ?_⟩
    · intro u hu
      simp only [maybeFile, List.mem_cons, List.not_mem_nil, or_false] at hu
      subst hu
      exact ⟨true, rfl⟩
    · intro d hd ht
      cases (by decide : ∀ d ∈ candidates maybeFile, d.tag = .subprogram → d = shopRunDie) d hd ht
      exact .inr ⟨_, rfl⟩
    · intro d hd s hs lo hi hr
      obtain ⟨l, hf, e, he, n, -, -, rfl⟩ := linked_iff _ _ _ _ _ hd hs
      cases maybe_function hf
      cases hr
      cases List.mem_singleton.1 he
      exact ⟨by simp, by simp [u64Max1]⟩
  tokenizes := plainLib_tokenizes false
  sorts := Address.built_new

theorem maybe_stopped : StoppedIn maybeLibs maybeImage maybeFile maybeRun 4096 24 where
  found := ⟨_, _, 4088, 16, 48, ⟨by decide, rfl, rfl⟩, ⟨shop_symbol.1, shop_symbol.2, shop_symbol.3⟩, rfl, by omega, rfl, by omega, fun _ _ h _ => maybe_function h⟩
  alone := fun _ _ _ _ _ h _ _ _ _ _ _ => maybe_function h

/-- The types of the file. -/
theorem maybe_named (d : Die) (path : List Str) (hd : InModule maybeFile d path) (n shown : Str) (l : Layout) (hn : d.attr .name = some (.str n))
    (hs : Names maybeLibs.lib.render (qualify path n) shown l) : typedef maybeLibs.lib maybeImage d.off = some l := by
  have h := C96_types maybe_compiled d.off
  exact Res.ok.inj (h.symm.trans (C95_named (TypeNames.plainLib false) (TypeNames.plainLib_lexes false) _ maybeFile_ok maybeFile_offsets d path hd n shown l hn hs))

set_option maxRecDepth 8000 in
theorem maybe_types : (∃ n d o i s, typedef maybeLibs.lib maybeImage 52 = some (.option n d o i s)) ∧ (∃ n d o i s, typedef maybeLibs.lib maybeImage 62 = some (.option n d o i s)) ∧
    typedef maybeLibs.lib maybeImage 84 = some (.uint 1) ∧ typedef maybeLibs.lib maybeImage 86 = some (.uint 8) ∧ ∃ i, typedef maybeLibs.lib maybeImage 85 = some (.reference false i) := by
  have hu : Names maybeLibs.lib.render (chars! "u8") (chars! "u8") (.uint 1) := names_u8 _
  have hw : Names maybeLibs.lib.render (chars! "u64") (chars! "u64") (.uint 8) := names_prim _ _ _ (by simp [primTable])
  have hO : Names maybeLibs.lib.render (chars! "core::option::Option<u8>") (chars! "core::option::Option<u8>") (.option (chars! "Option") { ty := .implicit, offset := 0 } 0 (.mk none (.uint 1)) 0) :=
    .path _ _ _ (.std [chars! "core", chars! "option"] (chars! "Option") [chars! "u8"] _ _ _ (.inr ⟨_, _, rfl, by decide⟩) ⟨by simp [IsIdent]; decide, by simp [IsIdent]; decide, by decide⟩
        (.option _ _) (.cons _ _ _ _ _ _ hu .nil))
  have hR : Names maybeLibs.lib.render (chars! "&core::option::Option<u8>") (chars! "&core::option::Option<u8>") (.reference false (.mk none (.option (chars! "Option") { ty := .implicit, offset := 0 } 0 (.mk none (.uint 1)) 0))) :=
    .ref _ _ _ hO (by intro h; cases h) (by intro e h; cases h)
  refine ⟨?_, ?_, ?_, ?_, ?_⟩
  · exact ⟨_, _, _, _, _, maybe_named { off := 52, tag := .structureType, attrs := [(.name, .str (chars! "Option<&core::option::Option<u8>>")), (.byteSize, .data 8)] } [chars! "core", chars! "option"]
      ⟨_, List.mem_cons_self .., rfl, by decide⟩ _ _ _ rfl
      (.path _ _ _ (.std _ (chars! "Option") [chars! "&core::option::Option<u8>"] _ _ _ (.inr ⟨_, _, rfl, by decide⟩) ⟨by simp [IsIdent]; decide, by simp [IsIdent]; decide, by decide⟩
        (.option _ _) (.cons _ _ _ _ _ _ hR .nil)))⟩
  · exact ⟨_, _, _, _, _, maybe_named { off := 62, tag := .structureType, attrs := [(.name, .str (chars! "Option<u8>")), (.byteSize, .data 2)] } [chars! "core", chars! "option"]
      ⟨_, List.mem_cons_self .., rfl, by decide⟩ _ _ _ rfl
      (.path _ _ _ (.std _ (chars! "Option") [chars! "u8"] _ _ _ (.inr ⟨_, _, rfl, by decide⟩) ⟨by simp [IsIdent]; decide, by simp [IsIdent]; decide, by decide⟩
        (.option _ _) (.cons _ _ _ _ _ _ hu .nil)))⟩
  · exact maybe_named { off := 84, tag := .baseType, attrs := [(.name, .str (chars! "u8")), (.byteSize, .data 1)] } [] ⟨_, List.mem_cons_self .., rfl, by decide⟩ _ _ _ rfl hu
  · exact maybe_named { off := 86, tag := .baseType, attrs := [(.name, .str (chars! "u64")), (.byteSize, .data 8)] } [] ⟨_, List.mem_cons_self .., rfl, by decide⟩ _ _ _ rfl hw
  · exact ⟨_, maybe_named { off := 85, tag := .pointerType, attrs := [(.name, .str (chars! "&core::option::Option<u8>")), (.type, .ref 62)] } [] ⟨_, List.mem_cons_self .., rfl, by decide⟩ _ _ _ rfl hR⟩

theorem maybe_u8 : Shown.Is (typedef maybeLibs.lib maybeImage) (fileDb maybeImage.units) 84 (.plain (.uint 1)) := ⟨⟨maybe_types.2.2.1, by simp [Shown.Plain]⟩, by simp [Shown.Desc.parts]⟩

theorem maybe_u64 : Shown.Is (typedef maybeLibs.lib maybeImage) (fileDb maybeImage.units) 86 (.plain (.uint 8)) := ⟨⟨maybe_types.2.2.2.1, by simp [Shown.Plain]⟩, by simp [Shown.Desc.parts]⟩

theorem maybe_option : Shown.Is (typedef maybeLibs.lib maybeImage) (fileDb maybeImage.units) 62 (.option (chars! "Option<u8>") { ty := .uint 1, offset := 0 } 1 84 2) := by
  obtain ⟨n, d, o, i, s, h⟩ := maybe_types.2.1
  refine ⟨⟨⟨_, _, _, _, _, h⟩, 63, ⟨⟨_, rfl, rfl⟩, ⟨_, rfl, rfl⟩, [], [69, 70], rfl, ⟨_, rfl, rfl⟩, by simp⟩, .inl ⟨64, 84, _, ⟨_, rfl, rfl⟩, ⟨_, rfl, rfl⟩, maybe_types.2.2.1, .inr ⟨1, rfl, rfl⟩, .inr ⟨?_, rfl⟩⟩,
    ⟨67, 68, 70, ⟨[64, 65], [], rfl⟩, ⟨⟨_, rfl, rfl⟩, rich_child [] [] rfl ⟨_, rfl, rfl⟩ (by simp)⟩, ⟨_, rfl, rfl⟩, ⟨_, rfl, rfl⟩, 71, rich_child [] [] rfl ⟨_, rfl, rfl⟩ (by simp), ⟨_, rfl, rfl⟩, ⟨_, rfl, rfl⟩⟩⟩,
    by simpa [Shown.Desc.parts] using .built (by simp [Ordinary, maybe_types.2.2.1]) maybe_u8.1 maybe_u8.2⟩
  rintro o ⟨d, h1, h2⟩
  cases h1
  cases h2

theorem maybe_ref : Shown.Is (typedef maybeLibs.lib maybeImage) (fileDb maybeImage.units) 85 (.reference false 62) := by
  obtain ⟨n, d, o, i, s, h⟩ := maybe_types.2.1
  exact ⟨⟨maybe_types.2.2.2.2, ⟨_, rfl, rfl⟩⟩, by simpa [Shown.Desc.parts] using .built (by simp [Ordinary, h]) maybe_option.1 maybe_option.2⟩

theorem maybe_oo : Shown.Is (typedef maybeLibs.lib maybeImage) (fileDb maybeImage.units) 52 (.option (chars! "Option<&core::option::Option<u8>>") { ty := .uint 8, offset := 0 } 0 85 8) := by
  obtain ⟨n, d, o, i, s, h⟩ := maybe_types.1
  obtain ⟨_, hr⟩ := maybe_types.2.2.2.2
  refine ⟨⟨⟨_, _, _, _, _, h⟩, 53, ⟨⟨_, rfl, rfl⟩, ⟨_, rfl, rfl⟩, [], [59, 60], rfl, ⟨_, rfl, rfl⟩, by simp⟩, .inl ⟨54, 86, _, ⟨_, rfl, rfl⟩, ⟨_, rfl, rfl⟩, maybe_types.2.2.2.1, .inr ⟨8, rfl, rfl⟩, .inr ⟨?_, rfl⟩⟩,
    ⟨57, 58, 60, ⟨[54, 55], [], rfl⟩, ⟨⟨_, rfl, rfl⟩, rich_child [] [] rfl ⟨_, rfl, rfl⟩ (by simp)⟩, ⟨_, rfl, rfl⟩, ⟨_, rfl, rfl⟩, 61, rich_child [] [] rfl ⟨_, rfl, rfl⟩ (by simp), ⟨_, rfl, rfl⟩, ⟨_, rfl, rfl⟩⟩⟩,
    by simpa [Shown.Desc.parts] using .built (by simp [Ordinary, hr]) maybe_ref.1 maybe_ref.2⟩
  rintro o ⟨d, h1, h2⟩
  cases h1
  cases h2

theorem maybe_known : Known (typedef maybeLibs.lib maybeImage) (fileDb maybeImage.units) 52 ∧ Known (typedef maybeLibs.lib maybeImage) (fileDb maybeImage.units) 62 ∧
    ¬ Ordinary (typedef maybeLibs.lib maybeImage) 52 ∧ ¬ Ordinary (typedef maybeLibs.lib maybeImage) 62 := by
  obtain ⟨n, d, o, i, s, h⟩ := maybe_types.1
  obtain ⟨n', d', o', i', s', h'⟩ := maybe_types.2.1
  exact ⟨.built (by simp [Ordinary, h]) maybe_oo.1 maybe_oo.2, .built (by simp [Ordinary, h']) maybe_option.1 maybe_option.2, by simp [Ordinary, h], by simp [Ordinary, h']⟩

theorem maybe_var {d : Die} (h : VariableEntry maybeRun d) : d ∈ maybeVars := by
  obtain ⟨h1, h2⟩ := h
  have he : reach Vars.opened maybeRun = shopRunDie :: maybeVars := by decide
  rw [he] at h1
  rcases List.mem_cons.1 h1 with rfl | h1
  · rcases h2 with h2 | h2 <;> cases h2
  · exact h1

theorem maybe_stops : Stops maybeLibs maybeImage maybeFile maybeUnit shopLines maybeRun where
  compiled := maybe_compiled
  unit := List.mem_cons_self ..
  fn := List.mem_of_getElem? (i := 2) rfl
  types := by
    intro d ty hd hty
    have hd := maybe_var hd
    simp only [maybeVars, List.mem_cons, List.not_mem_nil, or_false] at hd
    rcases hd with rfl | rfl | rfl <;> cases hty
    · exact maybe_known.1
    · exact maybe_known.2.1
    · exact maybe_known.2.1

/-- The memory: `oo` is `Some(&None)`, `some` is `Some(7)`, and `none` is `None`. -/
def maybeMem : Mem := pieces [(200, [24, 1, 0, 0, 0, 0, 0, 0]), (264, [1, 7]), (280, [0, 0])]

/-- Where the variables are. -/
theorem maybe_local {v : Str} {a e : Nat} {fr : Remote.Frame} (hreg : Calls.readRegisterByIndex fr.registers 0 = some 1)
    (hv : ∃ d ∈ maybeVars, d.attr .name = some (.str v) ∧ d.attr .type = some (.ref e) ∧ maybeImage.loc d = some (Vars.fbreg (a - 1)) ∧ 1 ≤ a ∧ a < 300 ∧
      ∀ d' ∈ maybeVars, d'.attr .name = some (.str v) → d' = d) : Local maybeImage shopLines maybeRun fr v a e := by
  obtain ⟨d, hd, h1, h2, h3, h4, h5, h6⟩ := hv
  refine ⟨d, 0, a - 1, 1, ⟨?_, ?_⟩, h1, fun d' hd' => h6 d' (maybe_var hd'), h2, ⟨none, ?_⟩, rfl, hreg, h3, ?_⟩
  · have he : reach Vars.opened maybeRun = shopRunDie :: maybeVars := by decide
    rw [he]; exact List.mem_cons_of_mem _ hd
  · exact (by decide : ∀ d ∈ maybeVars, d.tag = .formalParameter ∨ d.tag = .variable) d hd
  · refine (C94_position _ _ _ _).1 ?_
    exact (by decide : ∀ d ∈ maybeVars, position shopLines (fileDb maybeImage.units) d.off = Res.ok none) d hd
  · simp only [u64Max1]; omega

theorem maybe_answer {v : Str} {a0 e0 : Nat} {ex : Expr} {r : Listing.Printed} (h : Answers maybeLibs maybeImage maybeFile shopLines maybeRun maybeMem v a0 e0 ex r)
    (hv : ∃ d ∈ maybeVars, d.attr .name = some (.str v) ∧ d.attr .type = some (.ref e0) ∧ maybeImage.loc d = some (Vars.fbreg (a0 - 1)) ∧ 1 ≤ a0 ∧ a0 < 300 ∧
      ∀ d' ∈ maybeVars, d'.attr .name = some (.str v) → d' = d)
    (text : Str) (htx : Whole.Typed text ex) (other : Wire.Json → Str) :
    ∃ N b, binary maybeLibs N N maybeImage = .ok b ∧ rd Remote.toy other b.program.backend ⟨maybeMem, 0⟩ text = some (r, ⟨maybeMem, 0⟩) := by
  obtain ⟨hlive, hL, -⟩ := Remote.toy_ok
  obtain ⟨f, hf, hpc, hreg⟩ := Whole.toy_selected ⟨maybeMem, 0⟩
  obtain ⟨N, hN⟩ := h
  obtain ⟨b, hb, h⟩ := hN N N (Nat.le_refl _) (Nat.le_refl _)
  exact ⟨N, b, hb, h _ Remote.toy Remote.Toy.mem other ⟨maybeMem, 0⟩ f text hL (hlive _) hf rfl htx 24 5 (by rw [hpc]; exact maybe_stopped) shop_line (maybe_local hreg hv)⟩

theorem maybe_stored : DiscStored (fileDb maybeImage.units) 62 { ty := .uint 1, offset := 0 } ∧ DiscStored (fileDb maybeImage.units) 52 { ty := .uint 8, offset := 0 } :=
  ⟨⟨63, 64, ⟨[], [69, 70], rfl, ⟨_, rfl, rfl⟩, by simp⟩, ⟨_, rfl, rfl⟩, ⟨_, rfl, rfl⟩⟩, 53, 54, ⟨[], [59, 60], rfl, ⟨_, rfl, rfl⟩, by simp⟩, ⟨_, rfl, rfl⟩, ⟨_, rfl, rfl⟩⟩

theorem maybe_entry : TypeText.Entry (typedef maybeLibs.lib maybeImage) (fileDb maybeImage.units) 62 (.std (chars! "Option") (.cons (.prim (chars! "u8")) .nil)) :=
  .option maybe_option.1 (.plain maybe_u8.1 (.prim (by simp [TypeText.fixedTable])))

theorem maybe_called : Called (typedef maybeLibs.lib maybeImage) (fileDb maybeImage.units) maybeLibs.lib.render 62 (chars! "Option<u8>") :=
  .known maybe_entry ⟨trivial, trivial⟩ maybe_known.2.2.2

theorem maybe_called_oo : Called (typedef maybeLibs.lib maybeImage) (fileDb maybeImage.units) maybeLibs.lib.render 52 (chars! "Option<&Option<u8>>") :=
  .known (.option maybe_oo.1 (.reference maybe_ref.1 maybe_entry)) ⟨⟨⟨trivial, trivial⟩, by simp⟩, trivial⟩ maybe_known.2.2.1

/-- `C107_agrees_partial` at work: the user types `rd p some`, and then `rd p some.is_some()`. -/
example (other : Wire.Json → Str) : (∃ N b, binary maybeLibs N N maybeImage = .ok b ∧
    rd Remote.toy other b.program.backend ⟨maybeMem, 0⟩ (chars! "p some") = some (.text (chars! "type: Option<u8>\nvalue: 7\n"), ⟨maybeMem, 0⟩)) ∧
    ∃ N b, binary maybeLibs N N maybeImage = .ok b ∧
    rd Remote.toy other b.program.backend ⟨maybeMem, 0⟩ (chars! "p some.is_some()") = some (.text (chars! "type: bool\nvalue: true\n"), ⟨maybeMem, 0⟩) := by
  have hold : Holds (typedef maybeLibs.lib maybeImage) (fileDb maybeImage.units) maybeMem maybeLibs.lossy maybeLibs.floatStr 0 264 62 (.leaf (natStr 7)) :=
    .some (v := .leaf (natStr 7)) (d := 1) maybe_option maybe_stored.1 (by decide) (by unfold Mem.HoldsNat; decide) (by decide) (by decide) (.plain maybe_u8 ⟨7, by unfold Mem.HoldsNat; decide, by rw [natStr_toString]⟩) (by decide)
  have h := C107_agrees_partial (v := chars! "some") (a0 := 264) maybe_stops (by omega) maybe_option .var maybe_option (fun _ => rfl) hold (rich_leaf _ (by decide)) maybe_called
    (.isSome (by intro h; injection h with h; exact absurd h (by decide)))
  exact ⟨maybe_answer h.1 ⟨maybeVars[1], List.mem_of_getElem? (i := 1) rfl, rfl, rfl, rfl, by omega, by omega, by decide⟩ _ ⟨chars! "p", chars! "some", [], rfl, .inl rfl, by with_unfolding_all rfl⟩ other,
    maybe_answer h.2 ⟨maybeVars[1], List.mem_of_getElem? (i := 1) rfl, rfl, rfl, rfl, by omega, by omega, by decide⟩ _ ⟨chars! "p", chars! "some.is_some()", [], rfl, .inl rfl, by with_unfolding_all rfl⟩ other⟩

/-- `C107_none_fails` at work: the user types `rd p oo`, and then `rd p oo.is_none()`. -/
example (other : Wire.Json → Str) : (∃ N b, binary maybeLibs N N maybeImage = .ok b ∧
    rd Remote.toy other b.program.backend ⟨maybeMem, 0⟩ (chars! "p oo") = some (.text (chars! "type: Option<&Option<u8>>\nvalue: None\n"), ⟨maybeMem, 0⟩)) ∧
    ∃ N b, binary maybeLibs N N maybeImage = .ok b ∧
    rd Remote.toy other b.program.backend ⟨maybeMem, 0⟩ (chars! "p oo.is_none()") = some (.text (chars! "type: bool\nvalue: false\n"), ⟨maybeMem, 0⟩) := by
  have none : Holds (typedef maybeLibs.lib maybeImage) (fileDb maybeImage.units) maybeMem maybeLibs.lossy maybeLibs.floatStr 0 280 62 (.leaf (chars! "None")) :=
    .none maybe_option maybe_stored.1 (by decide) (by unfold Mem.HoldsNat; decide) (by decide)
  have hold : Holds (typedef maybeLibs.lib maybeImage) (fileDb maybeImage.units) maybeMem maybeLibs.lossy maybeLibs.floatStr 0 200 85 (.leaf (chars! "None")) :=
    .reference (v := .leaf (chars! "None")) maybe_ref (by unfold Mem.HoldsNat; decide) none
  have h := C107_none_fails (v := chars! "oo") (a0 := 200) (d := 280) maybe_stops (by omega) maybe_oo .var maybe_oo maybe_known.2.2.1 maybe_stored.2 (by decide) (by unfold Mem.HoldsNat; decide) (by decide) (by decide) hold (by decide) (by decide) maybe_called_oo
  exact ⟨maybe_answer h.1 ⟨maybeVars[0], List.mem_of_getElem? (i := 0) rfl, rfl, rfl, rfl, by omega, by omega, by decide⟩ _ ⟨chars! "p", chars! "oo", [], rfl, .inl rfl, by with_unfolding_all rfl⟩ other,
    maybe_answer h.2 ⟨maybeVars[0], List.mem_of_getElem? (i := 0) rfl, rfl, rfl, rfl, by omega, by omega, by decide⟩ _ ⟨chars! "p", chars! "oo.is_none()", [], rfl, .inl rfl, by with_unfolding_all rfl⟩ other⟩

/-- `C107_agrees_partial` at work: the user types `rd p sl`, and then `rd p sl.len()`. -/
example (other : Wire.Json → Str) : (∃ N b, binary shopLibs N N partImage = .ok b ∧
    rd Remote.toy other b.program.backend ⟨partMem, 0⟩ (chars! "p sl") = some (.text (chars! "type: &[u8]\nvalue: [\n  1,\n  2\n]\n"), ⟨partMem, 0⟩)) ∧
    ∃ N b, binary shopLibs N N partImage = .ok b ∧
    rd Remote.toy other b.program.backend ⟨partMem, 0⟩ (chars! "p sl.len()") = some (.text (chars! "type: usize\nvalue: 2\n"), ⟨partMem, 0⟩) := by
  have hold : Holds (typedef shopLibs.lib partImage) (fileDb partImage.units) partMem shopLibs.lossy shopLibs.floatStr 1 120 70 (.seq [.leaf (natStr 1), .leaf (natStr 2)]) := by
    refine .slice (p := 112) part_sl (.one part_u8 rfl) (by unfold Mem.HoldsNat; decide) (by unfold Mem.HoldsNat; decide) ?_ (by decide) (by decide) (by decide) (by decide)
    intro i v hv
    match i, hv with
    | 0, hv => cases hv; exact part_byte 112 1 (by unfold Mem.HoldsNat; decide)
    | 1, hv => cases hv; exact part_byte 113 2 (by unfold Mem.HoldsNat; decide)
  have hne : ¬ (RVal.seq [.leaf (natStr 1), .leaf (natStr 2)]).Has (emptyText shopLibs.lossy) := by
    intro h
    cases h with
    | seq hv h =>
      simp only [List.mem_cons, List.not_mem_nil, or_false] at hv
      rcases hv with rfl | rfl <;> cases h
  have hcl : Called (typedef shopLibs.lib partImage) (fileDb partImage.units) shopLibs.lib.render 70 (chars! "&[u8]") := by
    obtain ⟨i, hi⟩ := part_types.2.2.2.2.2.2.2
    exact .known (t := .slice (.prim (chars! "u8"))) (.slice part_sl.1 (.plain part_u8.1 (.prim (by simp [TypeText.fixedTable])))) trivial (by simp [Ordinary, hi])
  have h := C107_agrees_partial (v := chars! "sl") (a0 := 120) part_stops (by omega) part_sl .var part_sl (fun _ => rfl) hold hne hcl .sliceLen
  exact ⟨part_answer h.1 ⟨partVars[5], List.mem_of_getElem? (i := 5) rfl, rfl, rfl, rfl, by omega, by omega, by decide⟩ _ ⟨chars! "p", chars! "sl", [], rfl, .inl rfl, by with_unfolding_all rfl⟩ other,
    part_answer h.2 ⟨partVars[5], List.mem_of_getElem? (i := 5) rfl, rfl, rfl, rfl, by omega, by omega, by decide⟩ _ ⟨chars! "p", chars! "sl.len()", [], rfl, .inl rfl, by with_unfolding_all rfl⟩ other⟩

/-- `C107_text` at work: the user types `rd p key.len()`. -/
example (other : Wire.Json → Str) : ∃ (p : Nat) (bs : List UInt8), richMem.HoldsBytes p bs ∧ ∃ N b, binary richLibs N N richImage = .ok b ∧
    rd Remote.toy other b.program.backend ⟨richMem, 0⟩ (chars! "p key.len()") = some (.text (page [chars! "type: usize", chars! "value: " ++ numText bs.length]), ⟨richMem, 0⟩) := by
  have hold : Holds (typedef richLibs.lib richImage) (fileDb richImage.units) richMem richLibs.lossy richLibs.floatStr 0 248 88 (.leaf (quoted (chars! "ab"))) :=
    .str (p := 520) (bs := [97, 98]) rich_key (by unfold Mem.HoldsNat; decide) (by unfold Mem.HoldsNat; decide) (by unfold Mem.HoldsBytes; decide) (by decide) (by decide)
  obtain ⟨p, bs, h1, -, h2⟩ := C107_text (v := chars! "key") (a0 := 248) rich_stops (by omega) rich_key .var rich_key (fun _ => rfl) hold (rich_leaf _ (by decide))
    (.known (.str rich_key.1) ⟨trivial, by simp⟩ (by simp [Ordinary, rich_types.2.1])) (.inr ⟨0, rfl⟩)
  exact ⟨p, bs, h1, rich_answer h2 ⟨richVars[1], List.mem_of_getElem? (i := 1) rfl, rfl, rfl, rfl, by omega, by omega, by decide⟩ _ ⟨chars! "p", chars! "key.len()", [], rfl, .inl rfl, by with_unfolding_all rfl⟩ other⟩

end Rudy.Image
