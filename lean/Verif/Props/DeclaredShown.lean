import Verif.Props.Declared
import Verif.Props.Moved
/-
More of C94: from the entries of the debug information to what `rd print x` prints.
-/
namespace Rudy.Declared
open Rudy Rudy.Dwarf Rudy.Parse Rudy.Layout Rudy.Data Rudy.TypeRes Rudy.Resolve Rudy.Shown Rudy.Whole Rudy.Listing

section
variable {typedef : Nat → Option Layout} {db : Db} {lossy : List UInt8 → Str} {floatStr : Nat → Nat → Str}

/-- C94, from the entries to what is printed: the user types `rd print x` where the program is stopped in a function. If one of its variables and
parameters is called `x`, its entry gives it the type described at `e` and says it is at `o` from the register of the frame base, then what is printed is the
name of the type described at `e` and the value that memory holds there: whatever else is in the function (other variables may be unreadable), provided
that no type of its variables crashes the resolution. -/
theorem C94_printed_partial (hw : WellFormed db) (hdec : Decodes db) {render : List TypeNames.Tok → Str} {m : Mem} {n a e : Nat} {val : RVal}
    {name : Str} (hn : n ≤ 4) (h : Holds typedef db m lossy floatStr n a e val) (hne : ¬ val.Has (emptyText lossy))
    (hc : Called typedef db render e name) :
    ∃ N, ∀ (σ : Type) (L : Remote.Lldb σ) (mem : σ → Mem) (other : Wire.Json → Str) (b : Binary) (s : σ) (fr : Remote.Frame)
      (text x : Str) (depth : Nat) (u : Die → UnitFiles) (loc : Die → Option Vars.Eval),
      N ≤ depth → N ≤ b.stack →
      Remote.ReadsMemory L mem → Remote.Live L s → Remote.Selected L s fr → mem s = m → TypesFrom b typedef db lossy floatStr depth →
      -- the variables are read from the entries in `db`
      Reading b.vars (shallow typedef db depth) u db loc → Whole.Typed text (.var x) →
      -- the program is stopped in the function `f`, of which `tree` are the entries
      ∀ (fn line base : Nat) (f : Vars.Fn) (tree : Walker.Tree Die) (trailing : List (Walker.Tok Die)),
      b.vars.lookupAddress fr.pc = some (fn, line) → b.vars.getFunction fn = some f → f.toks = Walker.enc tree ++ trailing →
      b.vars.baseAddress fn = some base →
      (∀ d ty, VariableEntry tree d → Parse.Typed db d.off ty → shallow typedef db depth ty ≠ .panic) →
      -- `d` is the entry of the variable `x`, the only one of this name
      ∀ (d : Die), VariableEntry tree d → Named db d.off x → (∀ d', VariableEntry tree d' → Named db d'.off x → d' = d) →
      -- it has the type described at `e`, is declared in a file of the unit or nowhere …
      Parse.Typed db d.off e → (∃ p, DeclaredAt (u d) db d.off p) →
      -- … and is at `a`
      ∀ (r o fp : Nat), f.frameBase = some (Vars.inReg r) → Calls.readRegisterByIndex fr.registers r = some fp →
      loc d = some (Vars.fbreg o) → a = (fp + o) % u64Max1 →
      rd L other b.program.backend s text = some (.text (page [chars! "type: " ++ name, chars! "value: " ++ val.text]), s) := by
  obtain ⟨N, hN⟩ := C86_variable_partial hw hdec hn h hne hc
  obtain ⟨M, hM⟩ := holds_resolves hw hdec h
  refine ⟨max N M + 1, fun σ L mem other b s fr text x depth u loc hd hst hL hlive hf hm hT hE ht fn line base f tree trailing
    h1 h2 h3 h4 hcr d hdv hdn hdu hdt hdp r o fp hfb hreg hloc ha => ?_⟩
  obtain ⟨k, rfl⟩ : ∃ k, depth = k + 1 := ⟨depth - 1, by omega⟩
  obtain ⟨p, hdp⟩ := hdp
  obtain ⟨t, ht'⟩ : ∃ t, shallow typedef db (k + 1) e = .ok t := shallow_of_resolveType (hM k (by omega)).choose_spec
  have hdes : Describes (shallow typedef db (k + 1)) (u d) db d.off (some x) t p :=
    ⟨fun n => ⟨fun hx => by cases hx; exact hdn, fun hx => by rw [hdn.unique hx]⟩, ⟨e, hdt, ht'⟩, hdp⟩
  have hrd : Reading (b.info.variables L s) (shallow typedef db (k + 1)) u db loc := ⟨hE.parse⟩
  have hv := C94_found_partial (b.info.variables L s) _ u db loc hrd fr.pc fn line base f tree trailing h1 h2 h3 h4 hcr d hdv x t p hdes hdu
  have hreg' : (b.info.variables L s).ctx.reg r = .ok fp := by
    show (Remote.talk L (Remote.getRegister r) s).1 = _
    rw [Remote.C77_register L hlive hf, hreg]
  have hloc' : Vars.dataLocation (b.info.variables L s).ctx f.frameBase base (loc d) = .ok (some a) := by
    rw [hfb, hloc, ha]; exact Vars.C55_frame_variable _ r o fp base hreg'
  obtain ⟨td, htd⟩ := hM (k + 1) (by omega)
  have hal : (b.info.variables L s).resolve = resolveType typedef db (k + 1) := hT.vars
  refine hN σ L mem other b s fr text x x (k + 1) td (by omega) (by omega) hL hlive hf hm hT ht ?_ htd
  rw [hv]
  simp only [Vars.variableInfo, hloc', hal, fullType_shallow ht', htd, Res.bind_ok, Option.getD_some]

end

/-- C94 fails where a variable of the function is an `RwLock` (whatever it is called): looking up any variable crashes the session, so `rd print x` is not answered
and the connection is lost, for every `x`. -/
theorem C94_session_lost_fails {σ : Type} (L : Remote.Lldb σ) (other : Wire.Json → Str) (b : Binary) (s : σ) (fr : Remote.Frame)
    (hlive : Remote.Live L s) (hf : Remote.Selected L s fr) (typedef : Nat → Option Layout) (db : Db) (depth : Nat) (u : Die → UnitFiles)
    (loc : Die → Option Vars.Eval) (hE : Reading b.vars (shallow typedef db depth) u db loc) {text x : Str} (ht : Whole.Typed text (.var x))
    (fn line : Nat) (f : Vars.Fn) (tree : Walker.Tree Die) (trailing : List (Walker.Tok Die))
    (h1 : b.vars.lookupAddress fr.pc = some (fn, line)) (h2 : b.vars.getFunction fn = some f) (h3 : f.toks = Walker.enc tree ++ trailing)
    (d : Die) (hd : VariableEntry tree d) (ty : Nat) (hty : Parse.Typed db d.off ty)
    (t0 : TypeDef) (i j : Nat) (hn : typedef ty = some (.smartPtr .rwLock t0 i j)) :
    ∃ s', rd L other b.program.backend s text = some (.failed [], s') := by
  have hrd : Reading (b.info.variables L s) (shallow typedef db depth) u db loc := ⟨hE.parse⟩
  have hv := (C94_rwlock_fails (b.info.variables L s) typedef u db depth loc hrd fr.pc fn line f tree trailing h1 h2 h3 d hd ty hty t0 i j hn).1 x
  have hfr : (b.info.world L).frame s = some fr.pc := by
    show Remote.okOf (Remote.talk L Remote.getPc s) = _
    rw [Remote.C77_pc L hlive hf]; rfl
  have hvar : (b.info.world L).variableAt s fr.pc x = .panic := by
    show (Vars.getVariableAtPc (b.info.variables L s) fr.pc x).bind _ = _
    rw [hv]; rfl
  obtain ⟨sub, a, as, h4, h5, h6⟩ := ht
  refine ⟨s, C84_crash L other b.program s text sub a as h4 s (.inr (.inr (.inr (.inl ⟨h5, _, h6, ?_⟩))))⟩
  rw [C86_evaluated]
  simp only [Eval.evaluate, Eval.variableRef, Eval.Ev.bind, Eval.getPc, Eval.St.new, hfr, Eval.Ev.reading, hvar]

/-! ### An example -/

/-- A function (1) with the variables `s` of the type `struct S { a: u8 }` (50), declared on line 4 of the file number 1, and `bad`, which has no type. -/
def recordTable : Table :=
  [(1, .subprogram, [], [2, 3]),
   (2, .variable, [(.name, .str (chars! "s")), (.type, .ref 50), (.declFile, .file 1), (.declLine, .data 4)], []),
   (3, .variable, [(.name, .str (chars! "bad"))], []),
   (50, .structureType, [(.name, .str (chars! "S")), (.byteSize, .data 1), (.alignment, .data 1)], [51]),
   (51, .member, [(.name, .str (chars! "a")), (.dataMemberLocation, .data 0), (.type, .ref 60)], []),
   (60, .baseType, [(.name, .str (chars! "u8")), (.byteSize, .data 1)], [])]

theorem recordTable_wellFormed : WellFormed (dbOf recordTable) ∧ Decodes (dbOf recordTable) := wellFormed_of recordTable (by decide)

theorem is_record : Is nestedTypedef (dbOf recordTable) 50 (.struct (chars! "S") 1 1 [(chars! "a", 0, 60)]) := by
  refine ⟨⟨trivial, ⟨_, rfl, rfl⟩, ⟨_, rfl, rfl⟩, ⟨_, rfl, rfl⟩, ⟨_, rfl, rfl⟩, [51], rfl, ?_, ?_⟩, ?_⟩
  · intro c hc
    simp only [List.mem_singleton] at hc
    subst hc
    rintro ⟨d, h1, h2⟩
    cases h1
    cases h2
  · exact .cons ⟨⟨_, rfl, rfl⟩, ⟨_, rfl, rfl⟩, ⟨_, rfl, rfl⟩⟩ .nil
  · simp only [Desc.parts, List.map_cons, List.map_nil, List.mem_singleton, forall_eq]
    exact .built (d := .plain (.uint 1)) (fun h => h) ⟨rfl, by simp [Shown.Plain]⟩ (by simp [Desc.parts])

theorem holds_record : Holds nestedTypedef (dbOf recordTable) (pieces [(100, [7])]) (fun _ => []) (fun _ _ => []) 1 100 50
    (.record (chars! "S") [(chars! "a", .leaf (chars! "7"))]) := by
  refine .struct (vs := [(chars! "a", 0, 60, .leaf (chars! "7"))]) is_record (.refl _) (by simp) ?_ (by decide)
  simp only [List.mem_singleton, forall_eq]
  refine .plain (l := .uint 1) ⟨⟨rfl, by simp [Shown.Plain]⟩, by simp [Desc.parts]⟩ ⟨7, ?_, ?_⟩
  · unfold Mem.HoldsNat; decide
  · rw [← natStr_toString]; rfl

/-- The entries of the variables and the function. -/
def recordVar : Die :=
  { off := 2, tag := .variable, attrs := [(.name, .str (chars! "s")), (.type, .ref 50), (.declFile, .file 1), (.declLine, .data 4)] }
/-- See `recordVar`. -/
def badVar : Die := { off := 3, tag := .variable, attrs := [(.name, .str (chars! "bad"))] }
/-- See `recordVar`. -/
def recordFn : Walker.Tree Die :=
  .node { off := 1, tag := .subprogram } true false [.node recordVar false false [], .node badVar false false []]

/-- The binary: `s` is at 99 from the contents of the first register. -/
def recordBinary (N : Nat) : Binary where
  world := { Discovery.untypedParam with resolve := fun _ => resolveType nestedTypedef (dbOf recordTable) (N + 3) }
  lookup := fun _ => none
  vars :=
    { lookupAddress := fun _ => some (0, 5)
      getFunction := fun _ => some { toks := Walker.enc recordFn, frameBase := some (Vars.inReg 0) }
      baseAddress := fun _ => some 4096
      parse := variableOf (shallow nestedTypedef (dbOf recordTable) (N + 3)) (fun _ => macroUnit) (dbOf recordTable) (fun _ => some (Vars.fbreg 99))
      resolve := resolveType nestedTypedef (dbOf recordTable) (N + 3)
      ctx := ⟨fun _ => .err, .err⟩ }
  lossy := fun _ => []
  floatStr := fun _ _ => []
  isFloat := fun _ => false
  stack := N

/-- `C94_printed_partial` at work: the user types `rd p s`. -/
example (other : Wire.Json → Str) : ∃ N, rd Remote.toy other (recordBinary N).program.backend ⟨pieces [(100, [7])], 0⟩ (chars! "p s") =
    some (.text (chars! "type: S\nvalue: S {\n  a: 7\n}\n"), ⟨pieces [(100, [7])], 0⟩) := by
  obtain ⟨hlive, hL, -⟩ := Remote.toy_ok
  obtain ⟨f, hf, hpc, hreg⟩ := toy_selected ⟨pieces [(100, [7])], 0⟩
  have hne : ¬ (RVal.record (chars! "S") [(chars! "a", .leaf (chars! "7"))]).Has (emptyText fun _ => []) := by
    intro h
    cases h with
    | record h1 h2 =>
      cases List.mem_singleton.1 h1
      cases h2
  obtain ⟨N, hN⟩ := C94_printed_partial (render := fun _ => []) recordTable_wellFormed.1 recordTable_wellFormed.2 (by omega) holds_record hne (.struct is_record)
  refine ⟨N, ?_⟩
  have hent : ∀ d, VariableEntry recordFn d → d = recordVar ∨ d = badVar := by
    rintro d ⟨h1, h2⟩
    have he : Walker.reach Vars.opened recordFn = [({ off := 1, tag := .subprogram } : Die), recordVar, badVar] := by decide
    rw [he] at h1
    simp only [List.mem_cons, List.not_mem_nil, or_false] at h1
    rcases h1 with rfl | rfl | rfl
    · rcases h2 with h2 | h2 <;> cases h2
    · exact .inl rfl
    · exact .inr rfl
  have := hN Remote.Toy Remote.toy Remote.Toy.mem other (recordBinary N) ⟨pieces [(100, [7])], 0⟩ f (chars! "p s") (chars! "s") (N + 3) (fun _ => macroUnit) (fun _ => some (Vars.fbreg 99))
    (by omega) (by simp only [recordBinary]; omega) hL (hlive _) hf rfl ⟨rfl, rfl, rfl, rfl⟩ ⟨rfl⟩ ⟨chars! "p", chars! "s", [], rfl, .inl rfl, by with_unfolding_all rfl⟩
    0 5 4096 { toks := Walker.enc recordFn, frameBase := some (Vars.inReg 0) } recordFn [] rfl rfl (by simp) rfl ?_ recordVar ⟨by decide, .inr rfl⟩
    ((dieName_ok _ _ _).1 rfl) ?_ ((typed_iff _ _ _).1 rfl) ⟨some ⟨[.normal (chars! "main.rs")], 4, none⟩, (C94_position _ _ _ _).1 rfl⟩
    0 99 1 rfl hreg rfl (by decide)
  · rw [this]; congr 2
  · intro d ty hd hty
    rcases hent d hd with rfl | rfl
    · cases hty.unique ((typed_iff (dbOf recordTable) recordVar.off 50).1 rfl)
      have h : shallow nestedTypedef (dbOf recordTable) 3 50 = .ok (.mk (some 50) (.alias (chars! "S"))) := rfl
      rw [shallow_mono (by omega) h]
      simp
    · have h : entryType (dbOf recordTable) badVar.off = .ok ty := (typed_iff _ _ _).2 hty
      have h' : entryType (dbOf recordTable) badVar.off = .err := rfl
      rw [h'] at h; cases h
  · intro d hd hx
    rcases hent d hd with rfl | rfl
    · rfl
    · have h := (dieName_ok _ _ _).2 hx
      exact absurd h (by decide)

/-- `C94_session_lost_fails` at work: were the type 50 an `RwLock` instead, `rd p bad` would end the session. -/
example (other : Wire.Json → Str) : ∃ s', rd Remote.toy other { recordBinary 3 with vars := { (recordBinary 3).vars with
      parse := variableOf (shallow (fun _ => some (.smartPtr .rwLock (.mk none (.uint 4)) 0 0)) (dbOf recordTable) 3) (fun _ => macroUnit) (dbOf recordTable)
        (fun _ => some (Vars.fbreg 99)) } : Binary }.program.backend ⟨pieces [(100, [7])], 0⟩ (chars! "p bad") = some (.failed [], s') := by
  obtain ⟨hlive, -, -⟩ := Remote.toy_ok
  obtain ⟨f, hf, -, -⟩ := toy_selected ⟨pieces [(100, [7])], 0⟩
  exact C94_session_lost_fails Remote.toy other _ _ f (hlive _) hf (fun _ => some (.smartPtr .rwLock (.mk none (.uint 4)) 0 0)) (dbOf recordTable) 3
    (fun _ => macroUnit) (fun _ => some (Vars.fbreg 99)) ⟨rfl⟩ (x := chars! "bad") ⟨chars! "p", chars! "bad", [], rfl, .inl rfl, by with_unfolding_all rfl⟩
    0 5 { toks := Walker.enc recordFn, frameBase := some (Vars.inReg 0) } recordFn [] rfl rfl (by simp) recordVar ⟨by decide, .inr rfl⟩ 50
    ((typed_iff _ _ _).1 rfl) _ 0 0 rfl

end Rudy.Declared
