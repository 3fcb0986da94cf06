import Verif.Proof.Entries
import Verif.Proof.TypeTotal
import Verif.Props.TypeLookup
import Verif.Props.DeclaredShown
/-
C95: what is read of the entries of a debug file is what is in the file; it is the source of names, types and values.
-/
namespace Rudy.Entries
open Rudy Rudy.Walker Rudy.Dwarf Rudy.Parse Rudy.Layout Rudy.Data Rudy.Modules Rudy.TypeNames Rudy.Declared
open Rudy.TypeRes (Ordinary Decodes)

/-! ### Entries and their children -/

/-- C95: the entry read at an offset is the entry of the file at the offset, and nothing is read where there is none. -/
theorem C95_entry (us : List UnitOf) (h : Offsets us) (o : Nat) (d : Die) :
    (fileDb (us.map encUnit)).entry o = some d ↔ ∃ t ∈ nodes us, t.die = d ∧ d.off = o := entry_some us h o d

/-- C95: the children read of an entry are those of the entry, in order: none is left out, and what is below them or beside the entry is not among them, however the
compiler wrote the tree (with or without references to siblings, with empty lists of children, with padding after the units). -/
theorem C95_children (us : List UnitOf) (h : Offsets us) (t : Tree Die) (ht : t ∈ nodes us) :
    (fileDb (us.map encUnit)).children t.die.off = .ok (t.kids.map fun k => k.die.off) := children_node us h t ht

/-- C95: reading the children of an entry never crashes, whatever is in the file. -/
theorem C95_decodes (units : List (List (Tok Die))) : Decodes (fileDb units) := by
  have h1 : ∀ n c depth, treeLoop n c depth ≠ .panic := by
    intro n
    induction n with
    | zero => intro c depth; simp [treeLoop]
    | succ n ih =>
      have hl : ∀ rest depth, look n rest depth ≠ .panic := by
        intro rest depth
        unfold look
        split
        · simp
        · simp
        · by_cases hd : depth = 1
          · rw [if_pos hd]; simp
          · rw [if_neg hd]; exact ih _ _
        · by_cases hd : depth = 1
          · rw [if_pos hd]; simp
          · rw [if_neg hd]; exact ih _ _
      intro c depth
      exact hl _ _
  have h2 : ∀ n c, childLoop n c ≠ .panic := by
    intro n
    induction n with
    | zero => intro c; simp [childLoop]
    | succ n ih =>
      intro c
      simp only [childLoop]
      split
      · simp
      · refine bind_ne (h1 _ _ _) fun r _ => ?_
        split
        · exact bind_ne (ih _) fun _ _ => by simp
        · simp
  intro e
  simp only [fileDb]
  split
  · unfold childrenAt
    split
    · split
      · simp
      · simp
      · simp
      · exact h2 _ _
    · simp
    · simp
  · simp

/-! ### Names that tell parts apart -/

/-- The name of an entry. -/
def nameIs (d : Die) : Option Str := match d.attr .name with | some (.str n) => some n | _ => none

/-- The entry is a field or a type parameter. -/
def isPart (d : Die) : Bool :=
  decide (d.tag = .templateTypeParameter) || (match d.attr .dataMemberLocation with | some (.data _) => true | _ => false)

/-- What the compiler guarantees about the names in a file: the fields and type parameters of a type have distinct names and come before methods of the same
name, and the variants of an enumeration have distinct names. -/
structure NamesApart (us : List UnitOf) : Prop where
  types : ∀ x ∈ nodes us, ∀ t ∈ nodes us, x.die.attr .type = some (.ref t.die.off) →
    t.kids.Pairwise fun b c => isPart c.die = true → nameIs c.die ≠ none → nameIs b.die ≠ nameIs c.die
  variants : ∀ p ∈ nodes us, p.die.tag = .variantPart → p.kids.Pairwise fun b v => b.die.tag = .variant → v.die.tag = .variant →
    ∀ x ∈ b.kids, ∀ y ∈ v.kids, nameIs x.die ≠ none → nameIs x.die ≠ nameIs y.die

mutual
theorem subtrees_trans (t : Tree Die) : ∀ x ∈ subtrees t, ∀ k ∈ x.kids, k ∈ subtrees t := by
  match t with
  | .node d f s ks =>
    intro x hx k hk
    simp only [subtrees, List.mem_cons] at hx ⊢
    rcases hx with rfl | hx
    · exact .inr (subtreesList_mem ks k hk)
    · exact .inr (subtreesList_trans ks x hx k hk)
theorem subtreesList_trans (ts : List (Tree Die)) : ∀ x ∈ subtreesList ts, ∀ k ∈ x.kids, k ∈ subtreesList ts := by
  match ts with
  | [] => simp [subtreesList]
  | t :: ts =>
    intro x hx k hk
    simp only [subtreesList, List.mem_append] at hx ⊢
    rcases hx with hx | hx
    · exact .inl (subtrees_trans t x hx k hk)
    · exact .inr (subtreesList_trans ts x hx k hk)
theorem subtreesList_mem (ts : List (Tree Die)) : ∀ k ∈ ts, k ∈ subtreesList ts := by
  match ts with
  | [] => simp
  | t :: ts =>
    intro k hk
    simp only [subtreesList, List.mem_append, List.mem_cons] at hk ⊢
    rcases hk with rfl | hk
    · exact .inl (subtrees_self _)
    · exact .inr (subtreesList_mem ts k hk)
end

theorem nodes_kids {us : List UnitOf} {t k : Tree Die} (ht : t ∈ nodes us) (hk : k ∈ t.kids) : k ∈ nodes us := by
  obtain ⟨u, hu, h⟩ := List.mem_flatMap.1 ht
  exact List.mem_flatMap.2 ⟨u, hu, subtrees_trans _ _ h _ hk⟩

/-- The tree an offset of which there are children belongs to. -/
theorem node_of_children (us : List UnitOf) (h : Offsets us) (e : Nat) (cs : List Nat)
    (hc : (fileDb (us.map encUnit)).children e = .ok cs) : ∃ t ∈ nodes us, t.die.off = e ∧ cs = t.kids.map fun k => k.die.off := by
  by_cases hx : ∀ t ∈ nodes us, t.die.off ≠ e
  · rw [children_none us e hx] at hc; cases hc
  · simp only [Classical.not_forall, Decidable.not_not] at hx
    obtain ⟨t, ht, rfl⟩ := hx
    rw [children_node us h t ht] at hc
    cases hc
    exact ⟨t, ht, rfl, rfl⟩

theorem map_split {α β : Type} (f : α → β) (l : List α) (before after : List β) (c : β) (h : l.map f = before ++ c :: after) :
    ∃ b x a, l = b ++ x :: a ∧ b.map f = before ∧ f x = c ∧ a.map f = after := by
  obtain ⟨b, r, rfl, hb, hr⟩ := List.map_eq_append_iff.1 h
  obtain ⟨x, a, rfl, hx, ha⟩ := List.map_eq_cons_iff.1 hr
  exact ⟨b, x, a, rfl, hb, hx, ha⟩

theorem entry_is {us : List UnitOf} (h : Offsets us) {t : Tree Die} (ht : t ∈ nodes us) {d : Die}
    (he : (fileDb (us.map encUnit)).entry t.die.off = some d) : d = t.die := by
  rw [entry_node us h t ht] at he; cases he; rfl

/-- C95: what is assumed about names of fields and variants wherever types are resolved (`WellFormed`) is what the compiler guarantees about the file. -/
theorem C95_well_formed (us : List UnitOf) (h : Offsets us) (hn : NamesApart us) : TypeRes.WellFormed (fileDb (us.map encUnit)) := by
  constructor
  · rintro x e ⟨d, hd, hty⟩ before c after n hc hcn hcp b hb hbn
    obtain ⟨tx, htx, rfl, -⟩ := (C95_entry us h x d).1 hd
    obtain ⟨t, ht, rfl, hk⟩ := node_of_children us h e _ hc
    have hp := hn.types tx htx t ht hty
    obtain ⟨kb, kc, ka, hs, rfl, rfl, -⟩ := map_split _ _ _ _ _ hk.symm
    obtain ⟨tb, htb, rfl⟩ := List.mem_map.1 hb
    have hkc : kc ∈ nodes us := nodes_kids ht (by rw [hs]; simp)
    have hkb : tb ∈ nodes us := nodes_kids ht (by rw [hs]; simp [htb])
    rw [hs, List.pairwise_append] at hp
    obtain ⟨dc, hdc, hcn⟩ := hcn
    obtain ⟨db', hdb, hbn⟩ := hbn
    cases entry_is h hkc hdc
    cases entry_is h hkb hdb
    refine hp.2.2 tb htb kc (by simp) ?_ (by simp [nameIs, hcn]) (by simp [nameIs, hcn, hbn])
    rcases hcp with ⟨o, dc', hdc', ho⟩ | ⟨dc', hdc', ho⟩
    · cases entry_is h hkc hdc'
      simp [isPart, ho]
    · cases entry_is h hkc hdc'
      simp [isPart, ho]
  · rintro part ⟨dp, hdp, htag⟩ before v after n m hc ⟨⟨dv, hdv, htv⟩, b1, a1, hm, ⟨dm, hdm, hnm⟩, -⟩ b hb m' ⟨⟨dv', hdv', htv'⟩, b2, a2, hm2, ⟨dm', hdm', hnm'⟩, -⟩
    obtain ⟨t, ht, rfl, hk⟩ := node_of_children us h part _ hc
    cases entry_is h ht hdp
    have hp := hn.variants t ht htag
    obtain ⟨kb, kc, ka, hs, rfl, rfl, -⟩ := map_split _ _ _ _ _ hk.symm
    obtain ⟨tb, htb, rfl⟩ := List.mem_map.1 hb
    have hkc : kc ∈ nodes us := nodes_kids ht (by rw [hs]; simp)
    have hkb : tb ∈ nodes us := nodes_kids ht (by rw [hs]; simp [htb])
    cases entry_is h hkc hdv
    cases entry_is h hkb hdv'
    rw [hs, List.pairwise_append] at hp
    rw [children_node us h kc hkc] at hm
    rw [children_node us h tb hkb] at hm2
    obtain ⟨_, km, _, hs1, -, rfl, -⟩ := map_split _ _ _ _ _ (Res.ok.inj hm)
    obtain ⟨_, km', _, hs2, -, rfl, -⟩ := map_split _ _ _ _ _ (Res.ok.inj hm2)
    have h1 : km ∈ kc.kids := by rw [hs1]; simp
    have h2 : km' ∈ tb.kids := by rw [hs2]; simp
    cases entry_is h (nodes_kids hkc h1) hdm
    cases entry_is h (nodes_kids hkb h2) hdm'
    exact hp.2.2 tb htb kc (by simp) htv' htv km' h2 km h1 (by simp [nameIs, hnm']) (by simp [nameIs, hnm, hnm'])

/-! ### The types the names stand for -/

/-- An entry of a Rust unit of the file, in the module. -/
def InModule (us : List UnitOf) (d : Die) (path : List Str) : Prop := ∃ u ∈ us, u.1.die.isRustCu = true ∧ (d, path) ∈ unitModules u.1

theorem InModule.node {us : List UnitOf} {d : Die} {path : List Str} (h : InModule us d path) : ∃ t ∈ nodes us, t.die = d := by
  obtain ⟨u, hu, -, hm⟩ := h
  have hfst : (unitModules u.1).map (·.1) = u.1.entries := by
    rw [entries_die, unitModules, List.map_cons, modulesOfList_fst]
  have hd : d ∈ (subtrees u.1).map Tree.die := by
    rw [subtrees_die, ← hfst]; exact List.mem_map.2 ⟨_, hm, rfl⟩
  obtain ⟨t, ht, e⟩ := List.mem_map.1 hd
  exact ⟨t, List.mem_flatMap.2 ⟨u, hu, ht⟩, e⟩

theorem InModule.entry {us : List UnitOf} (h : Offsets us) {d : Die} {path : List Str} (hd : InModule us d path) :
    (fileDb (us.map encUnit)).entry d.off = some d := by
  obtain ⟨t, ht, rfl⟩ := hd.node
  exact entry_node us h t ht

/-- C95: an entry with a name is taken for the type that the name stands for in the module it is in (see `Names`). -/
theorem C95_named (lib : Lib) (hl : lib.LexesPlain) (us : List UnitOf) (h : FileOk us) (ho : Offsets us) (d : Die) (path : List Str)
    (hd : InModule us d path) (n shown : Str) (l : Layout) (hn : d.attr .name = some (.str n)) (hs : Names lib.render (qualify path n) shown l) :
    fileTypedef lib (us.map encUnit) d.off = .ok (some l) := by
  obtain ⟨ix, h1, -⟩ := C39_entry_in_its_module us h
  have he := hd.entry ho
  obtain ⟨u, hu, hr, hm⟩ := hd
  simp only [fileTypedef, h1, Res.bind_ok]
  exact C45_entry_name lib hl us h ix h1 _ _ d u hu hr path hm rfl he n shown l hn hs

/-- C95: an entry without a name is not taken for any type of the standard library. -/
theorem C95_unnamed (lib : Lib) (us : List UnitOf) (h : FileOk us) (ho : Offsets us) (t : Tree Die) (ht : t ∈ nodes us)
    (hn : ∀ n, t.die.attr .name ≠ some (.str n)) : fileTypedef lib (us.map encUnit) t.die.off = .ok none := by
  obtain ⟨ix, h1, -⟩ := C39_entry_in_its_module us h
  have he := entry_node us ho t ht
  have hd : dieName (fileDb (us.map encUnit)) t.die.off = .err := by
    simp only [dieName, stringAttr, he, Die.stringAttr]
  simp only [fileTypedef, h1, Res.bind_ok, dieTypedef]
  split
  · rfl
  · rw [hd]

/-- C95: nor is an entry of code in another language. -/
theorem C95_foreign (lib : Lib) (us : List UnitOf) (h : FileOk us) (u : UnitOf) (hu : u ∈ us) (hr : u.1.die.isRustCu = false) (t : Tree Die)
    (hin : u.1.die.off ≤ t.die.off ∧ t.die.off < endOf u.1) :
    fileTypedef lib (us.map encUnit) t.die.off = .ok none := by
  obtain ⟨ix, h1, h2⟩ := C39_offset_outside_units us h
  have : ix.findByOffset t.die.off = none := by
    refine h2 _ fun v hv hrv => ?_
    obtain ⟨A, B, hAB⟩ := List.append_of_mem hu
    have hl := h.layout
    rw [hAB, List.pairwise_append, List.pairwise_cons] at hl
    rw [hAB] at hv
    simp only [List.mem_append, List.mem_cons] at hv
    rcases hv with hv | rfl | hv
    · have := hl.2.2 v hv u (by simp); omega
    · rw [hr] at hrv; cases hrv
    · have := hl.2.1.1 v hv; omega
  simp only [fileTypedef, h1, Res.bind_ok, dieTypedef, this]

/-- C95: a type of the program is not taken for a type of the standard library, whatever it is called, unless its module is one of the standard library and its name that
of a type there. -/
theorem C95_user_type (lib : Lib) (hl : lib.LexesPlain) (us : List UnitOf) (h : FileOk us) (ho : Offsets us) (d : Die) (path : List Str)
    (hd : InModule us d path) (id : Str) (args shown : List Str) (ls : List Layout) (hn : d.attr .name = some (.str (withArgs id args)))
    (hp : PathOk path id) (hm : Many lib.render args shown ls) (h1 : (path ++ [id]).head? ≠ some (chars! "str"))
    (h2 : path = [] → ∀ l, (id, l) ∉ primTable) (h3 : StdPath path → id ∉ stdNames)
    (typedef : Nat → Option Layout) (ht : ∀ e, fileTypedef lib (us.map encUnit) e = .ok (typedef e)) : Ordinary typedef d.off := by
  have := C95_named lib hl us h ho d path hd _ _ _ hn (.path _ _ _ (.other path id args shown ls hp h1 h2 h3 hm))
  rw [ht] at this
  cases this' : typedef d.off with
  | none => simp [Ordinary, this']
  | some l => rw [this'] at this; cases this; simp [Ordinary, this']

/-- C95: every entry stands for some type or none: finding out does not crash, unless the library crashes on the text of a name. -/
theorem C95_total (lib : Lib) (hl : lib.Tokenizes) (us : List UnitOf) (h : FileOk us) :
    ∃ typedef : Nat → Option Layout, ∀ e, fileTypedef lib (us.map encUnit) e = .ok (typedef e) := by
  obtain ⟨ix, h1, -⟩ := C39_entry_in_its_module us h
  have key : ∀ e, ∃ o, fileTypedef lib (us.map encUnit) e = .ok o := by
    intro e
    simp only [fileTypedef, h1, Res.bind_ok, dieTypedef]
    split
    · exact ⟨_, rfl⟩
    · rename_i r _
      have hn : dieName (fileDb (us.map encUnit)) e ≠ .panic := by
        simp only [dieName, stringAttr]
        split
        · simp
        · simp only [Die.stringAttr]; split <;> simp
      split
      · rename_i hx; exact absurd hx hn
      · exact ⟨_, rfl⟩
      · rename_i n _
        have : TypeName.parse lib r.path n ≠ .panic := bind_ne (parseType_ne lib _ (hl _)) fun _ _ => by simp
        split
        · exact ⟨_, rfl⟩
        · exact ⟨_, rfl⟩
        · rename_i hx; exact absurd hx this
  exact ⟨fun e => (key e).choose, fun e => (key e).choose_spec⟩

/-- C95 fails for a file with a namespace that has no name: no type can be found out any more, of any entry. -/
theorem C95_unnamed_namespace_fails (lib : Lib) (cu ns : Die) (f f' : Bool) (s s' : Bool) (ks ks' : List (Tree Die)) (n : Nat) (us : List UnitOf)
    (hc : cu.tag = .compileUnit) (hr : cu.isRustCu = true) (ht : ns.tag = .namespace) (hn : ∀ nm, ns.attr .name ≠ some (.str nm)) (e : Nat) :
    fileTypedef lib (((.node cu f s (.node ns f' s' ks :: ks') , n) :: us).map encUnit) e = .panic := by
  rw [fileTypedef, C39_unnamed_namespace_panics cu ns f f' s s' ks ks' n us hc hr ht hn]; rfl

/-! ### A concrete file -/

/-- A file with a unit in Rust (a module `shop` with a structure and a function, `u8`, and `alloc::vec::Vec<u8>` as the compiler describes it) and a unit in C with
a structure of the same name. -/
def shopFile : List UnitOf :=
  [(.node { off := 10, tag := .compileUnit, attrs := [(.language, .lang true)], unitLength := 200 } true false
      [.node { off := 20, tag := .namespace, attrs := [(.name, .str (chars! "shop"))] } true true
        [.node { off := 30, tag := .structureType, attrs := [(.name, .str (chars! "S")), (.byteSize, .data 1), (.alignment, .data 1)] } true false
          [.node { off := 31, tag := .member, attrs := [(.name, .str (chars! "a")), (.dataMemberLocation, .data 0), (.type, .ref 60)] } false false []],
         .node { off := 40, tag := .subprogram, attrs := [(.name, .str (chars! "run")), (.linkageName, .str (chars! "_ZN4shop3runE"))], range := some (16, 48) } true true
          [.node { off := 41, tag := .variable, attrs := [(.name, .str (chars! "s")), (.type, .ref 30), (.declFile, .file 1), (.declLine, .data 4)] } false false [],
           .node { off := 42, tag := .variable, attrs := [(.name, .str (chars! "bad"))] } false false []]],
       .node { off := 60, tag := .baseType, attrs := [(.name, .str (chars! "u8")), (.byteSize, .data 1)] } false false [],
       .node { off := 70, tag := .namespace, attrs := [(.name, .str (chars! "alloc"))] } true false
        [.node { off := 71, tag := .namespace, attrs := [(.name, .str (chars! "vec"))] } true false
          [.node { off := 72, tag := .structureType, attrs := [(.name, .str (chars! "Vec<u8>"))] } true false []]]], 2),
   (.node { off := 300, tag := .compileUnit, attrs := [(.language, .lang false)], unitLength := 50 } true false
      [.node { off := 310, tag := .structureType, attrs := [(.name, .str (chars! "Vec<u8>"))] } false false []], 0)]

theorem shopFile_ok : FileOk shopFile := by
  refine ⟨by decide, ?_, by decide⟩
  have w : ∀ t : Tree Die, t.die.tag = .compileUnit → (t.entries.Pairwise fun a b => a.off < b.off) →
      (∀ d ∈ t.entries, d.off < t.die.off + t.die.unitLength) →
      (∀ d ∈ t.entries, d.tag = .namespace → nameOf d ≠ []) → Modules.WellFormed t := by
    intro t h1 h2 h3 h4
    refine ⟨h1, h2, h3, ?_⟩
    intro d hd ht
    have := h4 d hd ht
    simp only [nameOf] at this
    split at this
    · exact ⟨_, by assumption⟩
    · exact absurd rfl this
  intro u hu _
  simp only [shopFile, List.mem_cons, List.not_mem_nil, or_false] at hu
  rcases hu with rfl | rfl <;> exact w _ rfl (by decide) (by decide) (by decide)

theorem shopFile_offsets : Offsets shopFile := by unfold Offsets; decide

theorem shopFile_apart : NamesApart shopFile := ⟨by decide, fun p hp ht => absurd ht ((by decide : ∀ p ∈ nodes shopFile, p.die.tag ≠ .variantPart) p hp)⟩

/-- The structure with its field, and the entries of the function. -/
example : (fileDb (shopFile.map encUnit)).children 30 = .ok [31] ∧ (fileDb (shopFile.map encUnit)).children 20 = .ok [30, 40] ∧
    (fileDb (shopFile.map encUnit)).children 33 = .err := by decide

/-- `alloc::vec::Vec<u8>` of the unit in Rust is a vector; the structure of C is not; the structure of the program is itself. -/
example (e : Bool) : fileTypedef (plainLib e) (shopFile.map encUnit) 72 = .ok (some (.vec 0 0 0 (.mk none (.uint 1)))) ∧
    fileTypedef (plainLib e) (shopFile.map encUnit) 310 = .ok none ∧
    fileTypedef (plainLib e) (shopFile.map encUnit) 30 = .ok (some (.alias (chars! "S"))) := by
  have hm : Many (plainLib e).render [chars! "u8"] [chars! "u8"] [.uint 1] := .cons _ _ _ _ _ _ (names_u8 _) .nil
  refine ⟨?_, ?_, ?_⟩
  · refine C95_named (plainLib e) (plainLib_lexes e) _ shopFile_ok shopFile_offsets { off := 72, tag := .structureType, attrs := [(.name, .str (chars! "Vec<u8>"))] }
      [chars! "alloc", chars! "vec"] ⟨_, List.mem_cons_self .., rfl, by decide⟩ (chars! "Vec<u8>") (chars! "alloc::vec::Vec<u8>") _ rfl ?_
    exact .path _ _ _ (.std [chars! "alloc", chars! "vec"] (chars! "Vec") [chars! "u8"] [chars! "u8"] [.uint 1] _ (.inr ⟨_, _, rfl, by decide⟩)
      ⟨by simp [IsIdent]; decide, by simp [IsIdent]; decide, by decide⟩ (.vec _ _) hm)
  · exact C95_foreign (plainLib e) _ shopFile_ok _ (List.mem_cons_of_mem _ (List.mem_cons_self ..)) rfl
      (.node { off := 310, tag := .structureType, attrs := [(.name, .str (chars! "Vec<u8>"))] } false false []) (by decide)
  · refine C95_named (plainLib e) (plainLib_lexes e) _ shopFile_ok shopFile_offsets
      { off := 30, tag := .structureType, attrs := [(.name, .str (chars! "S")), (.byteSize, .data 1), (.alignment, .data 1)] }
      [chars! "shop"] ⟨_, List.mem_cons_self .., rfl, by decide⟩ (chars! "S") (chars! "shop::S") _ rfl ?_
    refine .path _ _ _ (.other [chars! "shop"] (chars! "S") [] [] [] ⟨by simp [IsIdent]; decide, by simp [IsIdent]; decide, by decide⟩ (by decide) (by intro h; cases h) ?_ .nil)
    rintro (h | ⟨r, rs, h, hr⟩)
    · cases h
    · cases h; exact absurd hr (by decide)

/-- The library of the examples tokenizes or fails, but does not crash. -/
theorem plainLib_tokenizes (e : Bool) : (plainLib e).Tokenizes := by
  intro s
  simp only [plainLib]
  split <;> simp

/-- What the entries of the file stand for is known. -/
example (e : Bool) : ∃ typedef : Nat → Option Layout, ∀ x, fileTypedef (plainLib e) (shopFile.map encUnit) x = .ok (typedef x) :=
  C95_total _ (plainLib_tokenizes e) _ shopFile_ok

end Rudy.Entries
