import Verif.Props.ImageBuiltins
import Verif.Props.ImageIndexed
/-
A program with a `HashMap<&str, u8>`, a `&str` and a `Result<u32, u32>`, as a compiler describes them: the theorems about entries of maps and about results at work (C98, C101, C102).
-/
set_option linter.unusedSimpArgs false
namespace Rudy.Image
open Rudy Rudy.Dwarf Rudy.Walker Rudy.Layout Rudy.Data Rudy.Resolve Rudy.Declared Rudy.Entries Rudy.Modules Rudy.TypeNames Rudy.FnIndex Rudy.Shown Rudy.Whole Rudy.Listing
open Rudy.TypeRes (shallow resolveType Ordinary)
open Rudy.Expr (Expr)

/-- The variables of `run`: `names: HashMap<&str, u8>`, `key: &str`, `res: Result<u32, u32>`. -/
def richVars : List Die :=
  [{ off := 41, tag := .variable, attrs := [(.name, .str (chars! "names")), (.type, .ref 67)] },
   { off := 42, tag := .variable, attrs := [(.name, .str (chars! "key")), (.type, .ref 88)] },
   { off := 43, tag := .variable, attrs := [(.name, .str (chars! "res")), (.type, .ref 52)] }]

set_option maxRecDepth 8000 in
/-- The file, with the function `shop::run` and the entries of these types. -/
def richFile : List UnitOf :=
  [(.node { off := 10, tag := .compileUnit, attrs := [(.language, .lang true)], unitLength := 200 } true false
      [.node { off := 20, tag := .namespace, attrs := [(.name, .str (chars! "shop"))] } true true
        [.node shopRunDie true true (richVars.map fun d => .node d false false [])],
       .node { off := 50, tag := .namespace, attrs := [(.name, .str (chars! "core"))] } true true
        [.node { off := 51, tag := .namespace, attrs := [(.name, .str (chars! "result"))] } true true
          [.node { off := 52, tag := .structureType, attrs := [(.name, .str (chars! "Result<u32, u32>")), (.byteSize, .data 8)] } true false
            [.node { off := 53, tag := .variantPart, attrs := [(.discr, .ref 54)] } true false
              [.node { off := 54, tag := .member, attrs := [(.dataMemberLocation, .data 0), (.type, .ref 85)] } false false [],
               .node { off := 55, tag := .variant, attrs := [(.discrValue, .data 0)] } true false
                [.node { off := 56, tag := .member, attrs := [(.name, .str (chars! "Ok")), (.dataMemberLocation, .data 0), (.type, .ref 59)] } false false []],
               .node { off := 57, tag := .variant, attrs := [(.discrValue, .data 1)] } true false
                [.node { off := 58, tag := .member, attrs := [(.name, .str (chars! "Err")), (.dataMemberLocation, .data 0), (.type, .ref 61)] } false false []]],
             .node { off := 59, tag := .structureType, attrs := [(.name, .str (chars! "Ok")), (.byteSize, .data 8)] } true false
              [.node { off := 60, tag := .member, attrs := [(.name, .str (chars! "__0")), (.dataMemberLocation, .data 4), (.type, .ref 85)] } false false []],
             .node { off := 61, tag := .structureType, attrs := [(.name, .str (chars! "Err")), (.byteSize, .data 8)] } true false
              [.node { off := 62, tag := .member, attrs := [(.name, .str (chars! "__0")), (.dataMemberLocation, .data 4), (.type, .ref 85)] } false false []]]]],
       .node { off := 63, tag := .namespace, attrs := [(.name, .str (chars! "std"))] } true true
        [.node { off := 64, tag := .namespace, attrs := [(.name, .str (chars! "collections"))] } true true
          [.node { off := 65, tag := .namespace, attrs := [(.name, .str (chars! "hash"))] } true true
            [.node { off := 66, tag := .namespace, attrs := [(.name, .str (chars! "map"))] } true true
              [.node { off := 67, tag := .structureType, attrs := [(.name, .str (chars! "HashMap<&str, u8, std::hash::random::RandomState>")), (.byteSize, .data 48)] } true false
                [.node { off := 68, tag := .member, attrs := [(.name, .str (chars! "base")), (.dataMemberLocation, .data 0), (.type, .ref 73)] } false false [],
                 .node { off := 69, tag := .templateTypeParameter, attrs := [(.name, .str (chars! "K")), (.type, .ref 88)] } false false [],
                 .node { off := 70, tag := .templateTypeParameter, attrs := [(.name, .str (chars! "V")), (.type, .ref 84)] } false false []]]]]],
       .node { off := 71, tag := .namespace, attrs := [(.name, .str (chars! "hashbrown"))] } true true
        [.node { off := 72, tag := .namespace, attrs := [(.name, .str (chars! "map"))] } true true
          [.node { off := 73, tag := .structureType, attrs := [(.name, .str (chars! "HashMap<&str, u8, std::hash::random::RandomState, alloc::alloc::Global>")), (.byteSize, .data 48)] } true false
            [.node { off := 74, tag := .member, attrs := [(.name, .str (chars! "hash_builder")), (.dataMemberLocation, .data 32), (.type, .ref 87)] } false false [],
             .node { off := 75, tag := .member, attrs := [(.name, .str (chars! "table")), (.dataMemberLocation, .data 0), (.type, .ref 77)] } false false []]],
         .node { off := 76, tag := .namespace, attrs := [(.name, .str (chars! "raw"))] } true true
          [.node { off := 77, tag := .structureType, attrs := [(.name, .str (chars! "RawTable<(&str, u8), alloc::alloc::Global>")), (.byteSize, .data 32)] } true false
            [.node { off := 78, tag := .member, attrs := [(.name, .str (chars! "table")), (.dataMemberLocation, .data 0), (.type, .ref 80)] } false false [],
             .node { off := 79, tag := .templateTypeParameter, attrs := [(.name, .str (chars! "T")), (.type, .ref 91)] } false false []],
           .node { off := 80, tag := .structureType, attrs := [(.name, .str (chars! "RawTableInner")), (.byteSize, .data 32)] } true false
            [.node { off := 81, tag := .member, attrs := [(.name, .str (chars! "bucket_mask")), (.dataMemberLocation, .data 8), (.type, .ref 86)] } false false [],
             .node { off := 82, tag := .member, attrs := [(.name, .str (chars! "ctrl")), (.dataMemberLocation, .data 0), (.type, .ref 87)] } false false [],
             .node { off := 83, tag := .member, attrs := [(.name, .str (chars! "items")), (.dataMemberLocation, .data 24), (.type, .ref 86)] } false false []]]],
       .node { off := 84, tag := .baseType, attrs := [(.name, .str (chars! "u8")), (.byteSize, .data 1)] } false false [],
       .node { off := 85, tag := .baseType, attrs := [(.name, .str (chars! "u32")), (.byteSize, .data 4)] } false false [],
       .node { off := 86, tag := .baseType, attrs := [(.name, .str (chars! "usize")), (.byteSize, .data 8)] } false false [],
       .node { off := 87, tag := .pointerType, attrs := [(.type, .ref 84)] } false false [],
       .node { off := 88, tag := .structureType, attrs := [(.name, .str (chars! "&str")), (.byteSize, .data 16)] } true false
        [.node { off := 89, tag := .member, attrs := [(.name, .str (chars! "data_ptr")), (.dataMemberLocation, .data 0), (.type, .ref 87)] } false false [],
         .node { off := 90, tag := .member, attrs := [(.name, .str (chars! "length")), (.dataMemberLocation, .data 8), (.type, .ref 86)] } false false []],
       .node { off := 91, tag := .structureType, attrs := [(.name, .str (chars! "(&str, u8)")), (.byteSize, .data 24)] } true false
        [.node { off := 92, tag := .member, attrs := [(.name, .str (chars! "__0")), (.dataMemberLocation, .data 0), (.type, .ref 88)] } false false [],
         .node { off := 93, tag := .member, attrs := [(.name, .str (chars! "__1")), (.dataMemberLocation, .data 16), (.type, .ref 84)] } false false []]], 2)]

/-- The libraries, with texts of one byte for each character. -/
def richLibs : Libs := { shopLibs with lossy := fun bs => bs.map fun b => Char.ofNat b.toNat }

/-- An executable with this file: the variables are at 200, 248 and 264, if the first register holds 1. -/
def richImage : Executable where
  symbols := [⟨chars! "_ZN4shop3runE", 4088, true, 32⟩]
  units := richFile.map encUnit
  files := [shopLines]
  loc := fun d => (([(41, 199), (42, 247), (43, 263)] : List (Nat × Nat)).find? (·.1 == d.off)).map fun p => Vars.fbreg p.2
  frameBase := fun _ => some (Vars.inReg 0)

/-- The function `run`. -/
def richRun : Tree Die := .node shopRunDie true true (richVars.map fun d => .node d false false [])

/-- The unit. -/
def richUnit : UnitOf := richFile.head (by simp [richFile])

theorem richFile_ok : FileOk richFile := by
  refine ⟨by decide, ?_, by decide⟩
  intro u hu _
  simp only [richFile, List.mem_cons, List.not_mem_nil, or_false] at hu
  subst hu
  refine ⟨rfl, by decide, by decide, ?_⟩
  intro d hd ht
  have : Modules.nameOf d ≠ [] := (by decide : ∀ d ∈ richUnit.1.entries, d.tag = .namespace → Modules.nameOf d ≠ []) d hd ht
  simp only [Modules.nameOf] at this
  split at this
  · exact ⟨_, by assumption⟩
  · exact absurd rfl this

theorem richFile_offsets : Offsets richFile := by unfold Offsets; decide

set_option maxRecDepth 8000 in
theorem richFile_apart : NamesApart richFile := by
  refine ⟨by decide, ?_⟩
  have h : ∀ p ∈ nodes richFile, p.die.tag = .variantPart → p.kids.Pairwise fun b v => (b.kids.all fun x => v.kids.all fun y => decide (nameIs x.die ≠ nameIs y.die)) = true := by decide
  intro p hp ht
  refine (h p hp ht).imp fun hbv _ _ x hx y hy _ => ?_
  rw [List.all_eq_true] at hbv
  have := hbv x hx
  rw [List.all_eq_true] at this
  exact of_decide_eq_true (this y hy)

theorem rich_function {d : Die} {l : Str} (h : Function richFile d l) : d = shopRunDie := by
  obtain ⟨h1, h2, -⟩ := h
  exact (by decide : ∀ d ∈ candidates richFile, d.tag = .subprogram → d = shopRunDie) d h1 h2

theorem rich_compiled : Compiled richLibs richImage richFile where
  units := rfl
  file := richFile_ok
  offsets := richFile_offsets
  apart := richFile_apart
  functions := by
    refine ⟨by decide, ?_, ?_, ?_⟩
    · intro u hu
      simp only [richFile, List.mem_cons, List.not_mem_nil, or_false] at hu
      subst hu
      exact ⟨true, rfl⟩
    · intro d hd ht
      cases (by decide : ∀ d ∈ candidates richFile, d.tag = .subprogram → d = shopRunDie) d hd ht
      exact .inr ⟨_, rfl⟩
    · intro d hd s hs lo hi hr
      obtain ⟨l, hf, e, he, n, -, -, rfl⟩ := linked_iff _ _ _ _ _ hd hs
      cases rich_function hf
      cases hr
      cases List.mem_singleton.1 he
      exact ⟨by simp, by simp [u64Max1]⟩
  tokenizes := plainLib_tokenizes false
  sorts := Address.built_new

theorem rich_stopped : StoppedIn richLibs richImage richFile richRun 4096 24 where
  found := ⟨_, _, 4088, 16, 48, ⟨by decide, rfl, rfl⟩, ⟨shop_symbol.1, shop_symbol.2, shop_symbol.3⟩, rfl, by omega, rfl, by omega, fun _ _ h _ => rich_function h⟩
  alone := fun _ _ _ _ _ h _ _ _ _ _ _ => rich_function h

/-- The types of the file. -/
theorem rich_named (d : Die) (path : List Str) (hd : InModule richFile d path) (n shown : Str) (l : Layout) (hn : d.attr .name = some (.str n))
    (hs : Names richLibs.lib.render (qualify path n) shown l) : typedef richLibs.lib richImage d.off = some l := by
  have h := C96_types rich_compiled d.off
  exact Res.ok.inj (h.symm.trans (C95_named (TypeNames.plainLib false) (TypeNames.plainLib_lexes false) _ richFile_ok richFile_offsets d path hd n shown l hn hs))

theorem names_prim (render : List TypeNames.Tok → Str) (s : Str) (l : Layout) (h : (s, l) ∈ primTable) : Names render s s l := .path _ _ _ (.prim s l h)

set_option maxRecDepth 8000 in
theorem rich_types : (∃ i j, typedef richLibs.lib richImage 67 = some (.map (.hashMap 0 0 0 0 0 0) i j)) ∧ typedef richLibs.lib richImage 88 = some (.strSlice 0 0) ∧
    typedef richLibs.lib richImage 84 = some (.uint 1) ∧ typedef richLibs.lib richImage 85 = some (.uint 4) ∧
    ∃ n d i j, typedef richLibs.lib richImage 52 = some (.result n d i 0 j 0 0) := by
  have hu : Names richLibs.lib.render (chars! "u8") (chars! "u8") (.uint 1) := names_u8 _
  have hw : Names richLibs.lib.render (chars! "u32") (chars! "u32") (.uint 4) := names_prim _ _ _ (by simp [primTable])
  have hR : Names richLibs.lib.render (chars! "std::hash::random::RandomState") (chars! "std::hash::random::RandomState") (.alias (chars! "RandomState")) := by
    refine .path _ _ _ (.other [chars! "std", chars! "hash", chars! "random"] (chars! "RandomState") [] [] [] ⟨by simp [IsIdent]; decide, by simp [IsIdent]; decide, by decide⟩ (by decide) (by intro h; cases h) (fun _ => by decide) .nil)
  refine ⟨?_, ?_, ?_, ?_, ?_⟩
  · exact ⟨_, _, rich_named { off := 67, tag := .structureType, attrs := [(.name, .str (chars! "HashMap<&str, u8, std::hash::random::RandomState>")), (.byteSize, .data 48)] }
      [chars! "std", chars! "collections", chars! "hash", chars! "map"] ⟨_, List.mem_cons_self .., rfl, by decide⟩ _ _ _ rfl
      (.path _ _ _ (.std _ (chars! "HashMap") [chars! "&str", chars! "u8", chars! "std::hash::random::RandomState"] _ _ _ (.inr ⟨_, _, rfl, by decide⟩) ⟨by simp [IsIdent]; decide, by simp [IsIdent]; decide, by decide⟩
        (.hashMap _ _ _) (.cons _ _ _ _ _ _ .str (.cons _ _ _ _ _ _ hu (.cons _ _ _ _ _ _ hR .nil)))))⟩
  · exact rich_named { off := 88, tag := .structureType, attrs := [(.name, .str (chars! "&str")), (.byteSize, .data 16)] } [] ⟨_, List.mem_cons_self .., rfl, by decide⟩ _ _ _ rfl .str
  · exact rich_named { off := 84, tag := .baseType, attrs := [(.name, .str (chars! "u8")), (.byteSize, .data 1)] } [] ⟨_, List.mem_cons_self .., rfl, by decide⟩ _ _ _ rfl hu
  · exact rich_named { off := 85, tag := .baseType, attrs := [(.name, .str (chars! "u32")), (.byteSize, .data 4)] } [] ⟨_, List.mem_cons_self .., rfl, by decide⟩ _ _ _ rfl hw
  · exact ⟨_, _, _, _, rich_named { off := 52, tag := .structureType, attrs := [(.name, .str (chars! "Result<u32, u32>")), (.byteSize, .data 8)] } [chars! "core", chars! "result"]
      ⟨_, List.mem_cons_self .., rfl, by decide⟩ _ _ _ rfl
      (.path _ _ _ (.std _ (chars! "Result") [chars! "u32", chars! "u32"] _ _ _ (.inr ⟨_, _, rfl, by decide⟩) ⟨by simp [IsIdent]; decide, by simp [IsIdent]; decide, by decide⟩
        (.result _ _ _) (.cons _ _ _ _ _ _ hw (.cons _ _ _ _ _ _ hw .nil))))⟩

theorem rich_u8 : Shown.Is (typedef richLibs.lib richImage) (fileDb richImage.units) 84 (.plain (.uint 1)) := ⟨⟨rich_types.2.2.1, by simp [Shown.Plain]⟩, by simp [Shown.Desc.parts]⟩

theorem rich_u32 : Shown.Is (typedef richLibs.lib richImage) (fileDb richImage.units) 85 (.plain (.uint 4)) := ⟨⟨rich_types.2.2.2.1, by simp [Shown.Plain]⟩, by simp [Shown.Desc.parts]⟩

theorem rich_key : Shown.Is (typedef richLibs.lib richImage) (fileDb richImage.units) 88 (.str 0 8) := by
  refine ⟨⟨⟨_, _, rich_types.2.1⟩, ⟨89, ⟨[], [90], rfl, ⟨_, rfl, rfl⟩, by simp⟩, ⟨_, rfl, rfl⟩⟩, 90, ⟨[89], [], rfl, ⟨_, rfl, rfl⟩, ?_⟩, ⟨_, rfl, rfl⟩⟩, by simp [Shown.Desc.parts]⟩
  simp only [List.mem_singleton, forall_eq]
  rintro ⟨d, h1, h2⟩
  cases h1
  cases h2

theorem rich_known : Known (typedef richLibs.lib richImage) (fileDb richImage.units) 88 ∧ Known (typedef richLibs.lib richImage) (fileDb richImage.units) 84 ∧
    Known (typedef richLibs.lib richImage) (fileDb richImage.units) 85 :=
  ⟨.built (by simp [Ordinary, rich_types.2.1]) rich_key.1 rich_key.2, .built (by simp [Ordinary, rich_types.2.2.1]) rich_u8.1 rich_u8.2, .built (by simp [Ordinary, rich_types.2.2.2.1]) rich_u32.1 rich_u32.2⟩

/-- The child after others with other names. -/
theorem rich_child {db : Parse.Db} {e c : Nat} {n : Str} (before after : List Nat) (h : db.children e = .ok (before ++ c :: after)) (hn : Parse.Named db c n)
    (hb : ∀ b ∈ before, ∀ d, db.entry b = some d → d.attr .name ≠ some (.str n)) : Parse.FirstChild db e (fun c => Parse.Named db c n) c :=
  ⟨before, after, h, hn, fun b hb' ⟨d, h1, h2⟩ => hb b hb' d h1 h2⟩

theorem rich_names : Shown.Is (typedef richLibs.lib richImage) (fileDb richImage.units) 67 (.hashMap 8 0 24 24 0 16 88 84) := by
  obtain ⟨i, j, h⟩ := rich_types.1
  have hw : TypeRes.WellFormed (fileDb richImage.units) := C95_well_formed _ richFile_offsets richFile_apart
  have hd : TypeRes.Distinct (fileDb richImage.units) 67 := hw.types 41 67 ⟨_, rfl, rfl⟩
  refine ⟨⟨⟨_, _, _, _, _, _, _, _, h⟩, hd, ⟨69, rich_child [68] [70] rfl ⟨_, rfl, rfl⟩ ?_, ⟨_, rfl, rfl⟩, ⟨_, rfl, rfl⟩⟩, ⟨70, rich_child [68, 69] [] rfl ⟨_, rfl, rfl⟩ ?_, ⟨_, rfl, rfl⟩, ⟨_, rfl, rfl⟩⟩,
    73, .inl ⟨68, rich_child [] [69, 70] rfl ⟨_, rfl, rfl⟩ (by simp), ⟨_, rfl, rfl⟩⟩,
    0, 77, 0, 80, 91, 8, 0, 24, ⟨75, rich_child [74] [] rfl ⟨_, rfl, rfl⟩ ?_, ⟨_, rfl, rfl⟩, ⟨_, rfl, rfl⟩⟩, ⟨78, rich_child [] [79] rfl ⟨_, rfl, rfl⟩ (by simp), ⟨_, rfl, rfl⟩, ⟨_, rfl, rfl⟩⟩,
    ⟨79, rich_child [78] [] rfl ⟨_, rfl, rfl⟩ ?_, ⟨_, rfl, rfl⟩, ⟨_, rfl, rfl⟩⟩, ⟨_, rfl, rfl⟩, ⟨92, rich_child [] [93] rfl ⟨_, rfl, rfl⟩ (by simp), ⟨_, rfl, rfl⟩⟩,
    ⟨93, rich_child [92] [] rfl ⟨_, rfl, rfl⟩ ?_, ⟨_, rfl, rfl⟩⟩, ⟨81, rich_child [] [82, 83] rfl ⟨_, rfl, rfl⟩ (by simp), ⟨_, rfl, rfl⟩⟩, ⟨82, rich_child [81] [83] rfl ⟨_, rfl, rfl⟩ ?_, ⟨_, rfl, rfl⟩⟩,
    ⟨83, rich_child [81, 82] [] rfl ⟨_, rfl, rfl⟩ ?_, ⟨_, rfl, rfl⟩⟩, by decide⟩, by simpa [Shown.Desc.parts] using ⟨rich_known.1, rich_known.2.1⟩⟩ <;>
  · simp only [List.mem_cons, List.not_mem_nil, or_false, forall_eq_or_imp, forall_eq]
    try refine ⟨?_, ?_⟩
    all_goals (intro d h1 h2; cases h1; cases h2)

theorem rich_res : Shown.Is (typedef richLibs.lib richImage) (fileDb richImage.units) 52 (.result (chars! "Result<u32, u32>") { ty := .uint 4, offset := 0 } 4 85 4 85 8) := by
  obtain ⟨n, d, i, j, h⟩ := rich_types.2.2.2.2
  refine ⟨⟨⟨_, _, _, _, _, _, _, h⟩, 53, ⟨⟨_, rfl, rfl⟩, ⟨_, rfl, rfl⟩, [], [59, 61], rfl, ⟨_, rfl, rfl⟩, by simp⟩, .inl ⟨54, 85, _, ⟨_, rfl, rfl⟩, ⟨_, rfl, rfl⟩, rich_types.2.2.2.1, .inr ⟨4, rfl, rfl⟩, .inr ⟨?_, rfl⟩⟩,
    ⟨55, 56, 59, ⟨[54], [57], rfl⟩, ⟨⟨_, rfl, rfl⟩, rich_child [] [] rfl ⟨_, rfl, rfl⟩ (by simp)⟩, ⟨_, rfl, rfl⟩, ⟨_, rfl, rfl⟩, 60, rich_child [] [] rfl ⟨_, rfl, rfl⟩ (by simp), ⟨_, rfl, rfl⟩, ⟨_, rfl, rfl⟩⟩,
    ⟨57, 58, 61, ⟨[54, 55], [], rfl⟩, ⟨⟨_, rfl, rfl⟩, rich_child [] [] rfl ⟨_, rfl, rfl⟩ (by simp)⟩, ⟨_, rfl, rfl⟩, ⟨_, rfl, rfl⟩, 62, rich_child [] [] rfl ⟨_, rfl, rfl⟩ (by simp), ⟨_, rfl, rfl⟩, ⟨_, rfl, rfl⟩⟩⟩,
    by simpa [Shown.Desc.parts] using rich_known.2.2⟩
  rintro o ⟨d, h1, h2⟩
  cases h1
  cases h2

theorem rich_var {d : Die} (h : VariableEntry richRun d) : d ∈ richVars := by
  obtain ⟨h1, h2⟩ := h
  have he : reach Vars.opened richRun = shopRunDie :: richVars := by decide
  rw [he] at h1
  rcases List.mem_cons.1 h1 with rfl | h1
  · rcases h2 with h2 | h2 <;> cases h2
  · exact h1

theorem rich_stops : Stops richLibs richImage richFile richUnit shopLines richRun where
  compiled := rich_compiled
  unit := List.mem_cons_self ..
  fn := List.mem_of_getElem? (i := 2) rfl
  types := by
    intro d ty hd hty
    have hd := rich_var hd
    simp only [richVars, List.mem_cons, List.not_mem_nil, or_false] at hd
    rcases hd with rfl | rfl | rfl <;> cases hty
    · obtain ⟨i, j, h⟩ := rich_types.1
      exact .built (by simp [Ordinary, h]) rich_names.1 rich_names.2
    · exact rich_known.1
    · obtain ⟨n, d, i, j, h⟩ := rich_types.2.2.2.2
      exact .built (by simp [Ordinary, h]) rich_res.1 rich_res.2

/-- The memory: `names` is `{"ab": 7, "c": 9}`, in a table of four buckets before 400; `key` is `"ab"`, and `res` is `Err(5)`. -/
def richMem : Mem := pieces [(200, [144, 1, 0, 0, 0, 0, 0, 0, 3, 0, 0, 0, 0, 0, 0, 0]), (224, [2, 0, 0, 0, 0, 0, 0, 0]), (248, [8, 2, 0, 0, 0, 0, 0, 0, 2, 0, 0, 0, 0, 0, 0, 0]), (264, [1, 0, 0, 0, 5, 0, 0, 0]),
  (304, [254, 1, 0, 0, 0, 0, 0, 0, 1, 0, 0, 0, 0, 0, 0, 0, 9]), (376, [244, 1, 0, 0, 0, 0, 0, 0, 2, 0, 0, 0, 0, 0, 0, 0, 7]), (400, [17, 255, 255, 34]), (500, [97, 98]), (510, [99]), (520, [97, 98])]

/-- The entries of `names`. -/
theorem rich_entries : Entries (typedef richLibs.lib richImage) (fileDb richImage.units) richMem 200 67 88 84 ([(chars! "ab", 376, 392), (chars! "c", 304, 320)].map (·.2)) :=
  .hash (c := 3) (k := 400) (bytes := [17, 255, 255, 34]) rich_names (by unfold Mem.HoldsNat; decide) (by unfold Mem.HoldsNat; decide) (by unfold Mem.HoldsNat; decide) rfl
    (by unfold Mem.HoldsBytes; decide) (by decide) (by decide) (by decide) (by decide) (by decide) (by decide) (by decide)

theorem rich_keys : ∀ c ∈ [(chars! "ab", 376, 392), (chars! "c", 304, 320)], Data.Plain c.1 ∧ c.1 ≠ richLibs.lossy [] ∧
    Holds (typedef richLibs.lib richImage) (fileDb richImage.units) richMem richLibs.lossy richLibs.floatStr 0 c.2.1 88 (.leaf (quoted c.1)) := by
  simp only [List.mem_cons, List.not_mem_nil, or_false, forall_eq_or_imp, forall_eq]
  refine ⟨⟨by unfold Data.Plain; decide, by decide, ?_⟩, by unfold Data.Plain; decide, by decide, ?_⟩
  · exact .str (p := 500) (bs := [97, 98]) rich_key (by unfold Mem.HoldsNat; decide) (by unfold Mem.HoldsNat; decide) (by unfold Mem.HoldsBytes; decide) (by decide) (by decide)
  · exact .str (p := 510) (bs := [99]) rich_key (by unfold Mem.HoldsNat; decide) (by unfold Mem.HoldsNat; decide) (by unfold Mem.HoldsBytes; decide) (by decide) (by decide)

/-- Where the variables are. -/
theorem rich_local {v : Str} {a e : Nat} {fr : Remote.Frame} (hreg : Calls.readRegisterByIndex fr.registers 0 = some 1)
    (hv : ∃ d ∈ richVars, d.attr .name = some (.str v) ∧ d.attr .type = some (.ref e) ∧ richImage.loc d = some (Vars.fbreg (a - 1)) ∧ 1 ≤ a ∧ a < 300 ∧
      ∀ d' ∈ richVars, d'.attr .name = some (.str v) → d' = d) : Local richImage shopLines richRun fr v a e := by
  obtain ⟨d, hd, h1, h2, h3, h4, h5, h6⟩ := hv
  refine ⟨d, 0, a - 1, 1, ⟨?_, ?_⟩, h1, fun d' hd' => h6 d' (rich_var hd'), h2, ⟨none, ?_⟩, rfl, hreg, h3, ?_⟩
  · have he : reach Vars.opened richRun = shopRunDie :: richVars := by decide
    rw [he]; exact List.mem_cons_of_mem _ hd
  · exact (by decide : ∀ d ∈ richVars, d.tag = .formalParameter ∨ d.tag = .variable) d hd
  · refine (C94_position _ _ _ _).1 ?_
    exact (by decide : ∀ d ∈ richVars, position shopLines (fileDb richImage.units) d.off = Res.ok none) d hd
  · simp only [u64Max1]; omega

theorem rich_answer {v : Str} {a0 e0 : Nat} {ex : Expr} {r : Listing.Printed} (h : Answers richLibs richImage richFile shopLines richRun richMem v a0 e0 ex r)
    (hv : ∃ d ∈ richVars, d.attr .name = some (.str v) ∧ d.attr .type = some (.ref e0) ∧ richImage.loc d = some (Vars.fbreg (a0 - 1)) ∧ 1 ≤ a0 ∧ a0 < 300 ∧
      ∀ d' ∈ richVars, d'.attr .name = some (.str v) → d' = d)
    (text : Str) (htx : Whole.Typed text ex) (other : Wire.Json → Str) :
    ∃ N b, binary richLibs N N richImage = .ok b ∧ rd Remote.toy other b.program.backend ⟨richMem, 0⟩ text = some (r, ⟨richMem, 0⟩) := by
  obtain ⟨hlive, hL, -⟩ := Remote.toy_ok
  obtain ⟨f, hf, hpc, hreg⟩ := Whole.toy_selected ⟨richMem, 0⟩
  obtain ⟨N, hN⟩ := h
  obtain ⟨b, hb, h⟩ := hN N N (Nat.le_refl _) (Nat.le_refl _)
  exact ⟨N, b, hb, h _ Remote.toy Remote.Toy.mem other ⟨richMem, 0⟩ f text hL (hlive _) hf rfl htx 24 5 (by rw [hpc]; exact rich_stopped) shop_line (rich_local hreg hv)⟩

theorem rich_u8_called : Called (typedef richLibs.lib richImage) (fileDb richImage.units) richLibs.lib.render 84 (chars! "u8") :=
  .known (t := .prim (chars! "u8")) (.plain rich_u8.1 (.prim (by simp [TypeText.fixedTable]))) trivial (by simp [Ordinary, rich_types.2.2.1])

theorem rich_value : Holds (typedef richLibs.lib richImage) (fileDb richImage.units) richMem richLibs.lossy richLibs.floatStr 0 392 84 (.leaf (natStr 7)) :=
  .plain rich_u8 ⟨7, by unfold Mem.HoldsNat; decide, by rw [natStr_toString]⟩

theorem rich_leaf (t : Str) (ht : t ≠ emptyText richLibs.lossy) : ¬ (RVal.leaf t).Has (emptyText richLibs.lossy) := by
  intro h; cases h; exact ht rfl

theorem rich_place : Place (typedef richLibs.lib richImage) (fileDb richImage.units) richMem richLibs.lossy richLibs.floatStr (chars! "names") 200 67 (.index (.var (chars! "names")) (.str (chars! "ab"))) 392 84 :=
  .entry .var rich_entries rich_keys (by decide) (List.mem_cons_self ..)

/-- `C98_place_printed_partial` at work: the user types `rd p names["ab"]`. -/
example (other : Wire.Json → Str) : ∃ N b, binary richLibs N N richImage = .ok b ∧
    rd Remote.toy other b.program.backend ⟨richMem, 0⟩ (chars! "p names[\"ab\"]") = some (.text (chars! "type: u8\nvalue: 7\n"), ⟨richMem, 0⟩) :=
  rich_answer (C98_place_printed_partial rich_stops (by omega) rich_names rich_place rich_value (rich_leaf _ (by decide)) rich_u8_called)
    ⟨richVars[0], List.mem_of_getElem? (i := 0) rfl, rfl, rfl, rfl, by omega, by omega, by decide⟩ _ ⟨chars! "p", chars! "names[\"ab\"]", [], rfl, .inl rfl, by with_unfolding_all rfl⟩ other

/-- `C98_variable_key_partial` at work: the user types `rd p names[key]`, and `key` is `"ab"`. -/
example (other : Wire.Json → Str) : ∃ N b, binary richLibs N N richImage = .ok b ∧
    rd Remote.toy other b.program.backend ⟨richMem, 0⟩ (chars! "p names[key]") = some (.text (chars! "type: u8\nvalue: 7\n"), ⟨richMem, 0⟩) := by
  obtain ⟨hlive, hL, -⟩ := Remote.toy_ok
  obtain ⟨f, hf, hpc, hreg⟩ := Whole.toy_selected ⟨richMem, 0⟩
  have hold : Holds (typedef richLibs.lib richImage) (fileDb richImage.units) richMem richLibs.lossy richLibs.floatStr 0 248 88 (.leaf (quoted (chars! "ab"))) :=
    .str (p := 520) (bs := [97, 98]) rich_key (by unfold Mem.HoldsNat; decide) (by unfold Mem.HoldsNat; decide) (by unfold Mem.HoldsBytes; decide) (by decide) (by decide)
  obtain ⟨N, hN⟩ := C98_variable_key_partial (k := chars! "key") (ak := 248) (ix := .var (chars! "key")) rich_stops (by omega) rich_names rich_key rich_place .var hold rich_value (rich_leaf _ (by decide)) rich_u8_called
  obtain ⟨b, hb, h⟩ := hN N N (Nat.le_refl _) (Nat.le_refl _)
  exact ⟨N, b, hb, h _ Remote.toy Remote.Toy.mem other ⟨richMem, 0⟩ f _ hL (hlive _) hf rfl ⟨chars! "p", chars! "names[key]", [], rfl, .inl rfl, by with_unfolding_all rfl⟩ 24 5 (by rw [hpc]; exact rich_stopped) shop_line
    (rich_local hreg ⟨richVars[0], List.mem_of_getElem? (i := 0) rfl, rfl, rfl, rfl, by omega, by omega, by decide⟩)
    (rich_local hreg ⟨richVars[1], List.mem_of_getElem? (i := 1) rfl, rfl, rfl, rfl, by omega, by omega, by decide⟩)⟩

/-- `C101_missing` at work: the user types `rd p names["b"]`, and there is no such key. -/
example (other : Wire.Json → Str) : ∃ N b, binary richLibs N N richImage = .ok b ∧
    rd Remote.toy other b.program.backend ⟨richMem, 0⟩ (chars! "p names[\"b\"]") = some (.error, ⟨richMem, 0⟩) :=
  rich_answer (C101_missing (a0 := 200) rich_stops rich_names (.entry (key := chars! "b") .var rich_entries rich_keys (by unfold Data.Plain; decide) (by decide)))
    ⟨richVars[0], List.mem_of_getElem? (i := 0) rfl, rfl, rfl, rfl, by omega, by omega, by decide⟩ _ ⟨chars! "p", chars! "names[\"b\"]", [], rfl, .inl rfl, by with_unfolding_all rfl⟩ other

/-- `C102_builtin_partial` at work: the user types `rd p key.len()`. -/
example (other : Wire.Json → Str) : ∃ N b, binary richLibs N N richImage = .ok b ∧
    rd Remote.toy other b.program.backend ⟨richMem, 0⟩ (chars! "p key.len()") = some (.text (chars! "type: usize\nvalue: 2\n"), ⟨richMem, 0⟩) :=
  rich_answer (C102_builtin_partial (a0 := 248) rich_stops rich_key .var rich_key (fun _ => rfl) trivial (.strLen (n := 2) (by unfold Mem.HoldsNat; decide) (by decide)))
    ⟨richVars[1], List.mem_of_getElem? (i := 1) rfl, rfl, rfl, rfl, by omega, by omega, by decide⟩ _ ⟨chars! "p", chars! "key.len()", [], rfl, .inl rfl, by with_unfolding_all rfl⟩ other

/-- `C102_result_fails` at work: `res` is `Err(5)`, and the user types `rd p res.is_ok()`. -/
example (other : Wire.Json → Str) : ∃ N b, binary richLibs N N richImage = .ok b ∧
    rd Remote.toy other b.program.backend ⟨richMem, 0⟩ (chars! "p res.is_ok()") = some (.text (chars! "type: bool\nvalue: true\n"), ⟨richMem, 0⟩) :=
  rich_answer (C102_result_fails (a0 := 264) rich_stops rich_res .var rich_res (.inl rfl) (by unfold Mem.HoldsNat; decide) (by decide))
    ⟨richVars[2], List.mem_of_getElem? (i := 2) rfl, rfl, rfl, rfl, by omega, by omega, by decide⟩ _ ⟨chars! "p", chars! "res.is_ok()", [], rfl, .inl rfl, by with_unfolding_all rfl⟩ other

end Rudy.Image
