import Verif.Proof.Strict
import Verif.Proof.Ask
import Verif.Model.Whole
import Verif.Props.Listing
import Verif.Props.TypeText
import Verif.Props.ShownPlaces
import Verif.Props.CallShown
/-
C86: from the line typed in LLDB to the line printed. `rd print x` prints the value the program has in `x`. The pieces are C84 (the
command, the connection, what is printed), C77 (the questions the server asks LLDB), C76 (types and memory to text), C33 and C55 (where a
variable is) and C85 (what its type is called).

LLDB refuses to read no bytes. C76 is stated for debuggers that answer such reads; `C86_read_partial` shows what it is for LLDB.
-/
set_option linter.unusedSimpArgs false
namespace Rudy.Shown
open Rudy Rudy.Dwarf Rudy.Parse Rudy.Layout Rudy.Data Rudy.TypeRes Rudy.Eval Rudy.Expr

/-- The text of a value an empty text is shown as, `""` (the text of no bytes is empty). -/
def emptyText (lossy : List UInt8 → Str) : Str := chars! "\"" ++ lossy [] ++ chars! "\""

section
variable {typedef : Nat → Option Layout} {db : Db} {m : Mem} {lossy : List UInt8 → Str} {floatStr : Nat → Nat → Str}

/-- C86: C76 for debuggers that refuse to read no bytes: any value is shown in which no text is empty. -/
theorem C86_read_partial (hw : WellFormed db) (hdec : Decodes db) {n a e : Nat} {v : RVal} (hn : n ≤ 4)
    (h : Holds typedef db m lossy floatStr n a e v) (hne : ¬ v.Has (emptyText lossy)) :
    ∃ N, ∀ (σ : Type) (W : World σ) (ex : Expr) (st st' : St σ) (td : TypeDef) (depth : Nat), N ≤ depth → N ≤ W.stack →
      Strict (W.target st'.proc) (target typedef db m lossy floatStr depth) →
      resolveType typedef db depth e = .ok td ∨ shallow typedef db depth e = .ok td →
      toRef W ex st = (.ok (a, td), st') →
      evaluate W ex st = (.ok (v.text, td.displayName), st') := by
  obtain ⟨N, hN⟩ := holds_core hw hdec h
  refine ⟨N, fun σ W ex st st' td depth hd hs hT htd hp => ?_⟩
  obtain ⟨x, hx, hsh⟩ := hN depth W.stack W.stack hd hs hs td htd
  obtain ⟨y, hy, hv⟩ := hsh.2 8 (by omega)
  have hR := target_reads typedef db m lossy floatStr depth
  have hne' : ¬ (shown y).Has (quoted (lossy [])) := by
    rw [hv]; exact hne
  have hy' := expand_strict hT hR W.stack 8 x y hy hne'
  have hx' := readMem_strict hT hR W.stack a td x hx (by
    rintro ty rfl
    cases hy
    exact hne' .leaf)
  rw [evaluate_place W ex st st' _ hp]
  simp only [pointerToResult, Ev.reading, hx', Res.bind_ok, hy', formatValue_shown, hv]

/-- Specification: the type of the entry `e` is called `name`: a type known by its name or made of such by its name in Rust, a struct or
an enumeration by its own. -/
inductive Called (typedef : Nat → Option Layout) (db : Db) (render : List TypeNames.Tok → Str) (e : Nat) : Str → Prop
  | known {t : TypeText.RTy} : TypeText.Entry typedef db e t → t.Good render → ¬ Ordinary typedef e → Called typedef db render e t.text
  | struct {name : Str} {s al : Nat} {fs : List (Str × Nat × Nat)} : Is typedef db e (.struct name s al fs) → Called typedef db render e name
  | enum {name : Str} {d : Disc} {vs : List (Str × Option Int × Nat)} {s : Nat} : Is typedef db e (.enum name d vs s) → Called typedef db render e name
  | cenum {name : Str} {d : DiscTy} {vs : List (Str × Int)} {s : Nat} : Is typedef db e (.cenum name d vs s) → Called typedef db render e name

theorem called_ok (hw : WellFormed db) (hdec : Decodes db) {render : List TypeNames.Tok → Str} {e : Nat} {name : Str} (h : Called typedef db render e name) :
    ∃ N, ∀ d, N ≤ d → ∀ td, resolveType typedef db d e = .ok td → td.displayName = name := by
  cases h with
  | known hE hg ho =>
    obtain ⟨N, hN⟩ := TypeText.C85_named_as_in_rust_partial (render := render) hw hdec hE hg
    refine ⟨N, fun d hd td htd => ?_⟩
    obtain ⟨_, _, _, h3⟩ := hN d hd
    exact h3 td htd ho
  | struct hI =>
    obtain ⟨N, hN⟩ := TypeText.C85_user_types_partial hw hdec hI (.inl ⟨_, _, _, rfl⟩)
    refine ⟨N, fun d hd td htd => ?_⟩
    obtain ⟨td', h1, h2⟩ := hN d hd
    rw [h1] at htd; cases htd; exact h2
  | enum hI =>
    obtain ⟨N, hN⟩ := TypeText.C85_user_types_partial hw hdec hI (.inr (.inl ⟨_, _, _, rfl⟩))
    refine ⟨N, fun d hd td htd => ?_⟩
    obtain ⟨td', h1, h2⟩ := hN d hd
    rw [h1] at htd; cases htd; exact h2
  | cenum hI =>
    obtain ⟨N, hN⟩ := TypeText.C85_user_types_partial hw hdec hI (.inr (.inr ⟨_, _, _, rfl⟩))
    refine ⟨N, fun d hd td htd => ?_⟩
    obtain ⟨td', h1, h2⟩ := hN d hd
    rw [h1] at htd; cases htd; exact h2

end
end Rudy.Shown

namespace Rudy.Whole
open Rudy Rudy.Server Rudy.Dwarf Rudy.Parse Rudy.Layout Rudy.Data Rudy.TypeRes Rudy.Eval Rudy.Shown Rudy.Listing
open Rudy.Expr (parseExpression joinWith)

/-- The user types `print`, `p`, or `eval` and the expression `e` after `rd`. -/
def Typed (text : Str) (e : Expr.Expr) : Prop :=
  ∃ sub a as, Front.words text = sub :: a :: as ∧ (Front.expand sub = chars! "print" ∨ Front.expand sub = chars! "eval") ∧
    parseExpression (joinWith (chars! " ") (a :: as)) = .ok e

/-- What the evaluator knows about types is what `typedef` and the debug information `db` say, looked through `depth` levels deep. -/
structure TypesFrom (b : Binary) (typedef : Nat → Option Layout) (db : Db) (lossy : List UInt8 → Str)
    (floatStr : Nat → Nat → Str) (depth : Nat) : Prop where
  resolve : b.world.resolve 0 = resolveType typedef db depth
  vars : b.vars.resolve = resolveType typedef db depth
  lossy : b.lossy = lossy
  floatStr : b.floatStr = floatStr

theorem strict_of {σ : Type} (L : Remote.Lldb σ) (b : Binary) {mem : σ → Mem} (hL : Remote.ReadsMemory L mem) {s : σ} (hs : Remote.Live L s)
    {typedef : Nat → Option Layout} {db : Db} {lossy : List UInt8 → Str} {floatStr : Nat → Nat → Str} {depth : Nat}
    (hT : TypesFrom b typedef db lossy floatStr depth) :
    Strict (b.info.target L s) (target typedef db (mem s) lossy floatStr depth) where
  read := fun a n hn => Remote.read_over L hL hs a n (by omega)
  resolve := hT.resolve
  lossy := hT.lossy
  floatStr := hT.floatStr

/-- C86: evaluating an expression, with the questions of the server answered by LLDB, is what `Model/Eval.lean` says it is, on the process
as LLDB shows it: the same value or error, the same effects. -/
theorem C86_evaluated {σ : Type} (L : Remote.Lldb σ) (b : Binary) (s : σ) (e : Expr.Expr) :
    Remote.talk L (b.program.eval e) s =
      ((evaluate (b.info.world L) e (St.new s)).1, (evaluate (b.info.world L) e (St.new s)).2.proc) :=
  Ask.run_same (Ask.same_evaluate e) s

theorem C86_referenced {σ : Type} (L : Remote.Lldb σ) (b : Binary) (s : σ) (e : Expr.Expr) :
    Remote.talk L (Ask.toRef b.info e).run s =
      ((toRef (b.info.world L) e (St.new s)).1, (toRef (b.info.world L) e (St.new s)).2.proc) :=
  Ask.run_same (Ask.same_toRef e) s

theorem rd_value {σ : Type} (L : Remote.Lldb σ) (other : Wire.Json → Str) (b : Binary) (s : σ) {text : Str} {e : Expr.Expr}
    (ht : Typed text e) {value type : Str} {st' : St σ}
    (h : evaluate (b.info.world L) e (St.new s) = (.ok (value, type), st')) :
    rd L other b.program.backend s text = some (.text (page [chars! "type: " ++ type, chars! "value: " ++ value]), st'.proc) := by
  obtain ⟨sub, a, as, h1, h2, h3⟩ := ht
  refine C84_value L other b.program s text sub a as h1 h2 e h3 value type st'.proc ?_
  rw [C86_evaluated, h]

section
variable {typedef : Nat → Option Layout} {db : Db} {lossy : List UInt8 → Str} {floatStr : Nat → Nat → Str}

/-- C86: `rd print` of an expression that evaluates to a place - a variable, a field, an element, what a call returns - prints the name of
the type of the place and the value the memory of the process holds there. -/
theorem C86_place_partial (hw : WellFormed db) (hdec : Decodes db) {render : List TypeNames.Tok → Str} {m : Mem} {n a e : Nat} {v : RVal}
    {name : Str} (hn : n ≤ 4) (h : Holds typedef db m lossy floatStr n a e v) (hne : ¬ v.Has (emptyText lossy))
    (hc : Called typedef db render e name) :
    ∃ N, ∀ (σ : Type) (L : Remote.Lldb σ) (mem : σ → Mem) (other : Wire.Json → Str) (b : Binary) (s s' : σ)
      (text : Str) (ex : Expr.Expr) (depth : Nat) (td : TypeDef), N ≤ depth → N ≤ b.stack →
      Remote.ReadsMemory L mem → Remote.Live L s' → mem s' = m → TypesFrom b typedef db lossy floatStr depth →
      Typed text ex →
      Remote.talk L (Ask.toRef b.info ex).run s = (.ok (a, td), s') → resolveType typedef db depth e = .ok td →
      rd L other b.program.backend s text = some (.text (page [chars! "type: " ++ name, chars! "value: " ++ v.text]), s') := by
  obtain ⟨N, hN⟩ := C86_read_partial hw hdec hn h hne
  obtain ⟨M, hM⟩ := called_ok hw hdec hc
  refine ⟨max N M, fun σ L mem other b s s' text ex depth td hd hst hL hlive hm hT ht hp htd => ?_⟩
  rw [C86_referenced] at hp
  obtain ⟨st', hst', hproc⟩ : ∃ st', toRef (b.info.world L) ex (St.new s) = (.ok (a, td), st') ∧ st'.proc = s' := by
    cases hx : toRef (b.info.world L) ex (St.new s) with
    | mk r st' =>
      rw [hx] at hp
      cases hp
      exact ⟨_, rfl, rfl⟩
  have hS : Strict ((b.info.world L).target st'.proc) (target typedef db m lossy floatStr depth) := by
    rw [hproc, ← hm]; exact strict_of L b hL hlive hT
  have hx := hN σ (b.info.world L) ex (St.new s) st' td depth (by omega) (by show N ≤ b.stack; omega) hS (.inl htd) hst'
  rw [hM depth (by omega) td htd] at hx
  rw [← hproc]
  exact rd_value L other b s ht hx

/-- C86: `rd print x` for a variable at `a`: `hv` says that the debug information, with the registers of the selected frame, has the variable
there. -/
theorem C86_variable_partial (hw : WellFormed db) (hdec : Decodes db) {render : List TypeNames.Tok → Str} {m : Mem} {n a e : Nat} {v : RVal}
    {name : Str} (hn : n ≤ 4) (h : Holds typedef db m lossy floatStr n a e v) (hne : ¬ v.Has (emptyText lossy))
    (hc : Called typedef db render e name) :
    ∃ N, ∀ (σ : Type) (L : Remote.Lldb σ) (mem : σ → Mem) (other : Wire.Json → Str) (b : Binary) (s : σ) (f : Remote.Frame)
      (text x shown : Str) (depth : Nat) (ty : TypeDef), N ≤ depth → N ≤ b.stack →
      Remote.ReadsMemory L mem → Remote.Live L s → Remote.Selected L s f → mem s = m → TypesFrom b typedef db lossy floatStr depth →
      Typed text (.var x) →
      Vars.getVariableAtPc (b.info.variables L s) f.pc x = .ok (some ⟨shown, some a, ty⟩) → resolveType typedef db depth e = .ok ty →
      rd L other b.program.backend s text = some (.text (page [chars! "type: " ++ name, chars! "value: " ++ v.text]), s) := by
  obtain ⟨N, hN⟩ := C86_place_partial hw hdec hn h hne hc
  refine ⟨N, fun σ L mem other b s f text x shown depth ty hd hst hL hlive hf hm hT ht hv htd => ?_⟩
  refine hN σ L mem other b s s text (.var x) depth ty hd hst hL hlive hm hT ht ?_ htd
  have hfr : (b.info.world L).frame s = some f.pc := by
    show Remote.okOf (Remote.talk L Remote.getPc s) = _
    rw [Remote.C77_pc L hlive hf]; rfl
  have hvar : (b.info.world L).variableAt s f.pc x = .ok (some (some (a, ty))) := by
    show (Vars.getVariableAtPc (b.info.variables L s) f.pc x).bind _ = _
    rw [hv]; rfl
  rw [C86_referenced]
  simp only [toRef, variableRef, Ev.bind, Eval.getPc, St.new, hfr, Ev.reading, Ev.lift, hvar]

/-- C86: `rd print x` where the program is stopped in a function with a variable `x` (and no other of that name) prints the name of the
type of `x` and the value memory holds where the debug information says it is: at `o` from the contents of the register it gives. -/
theorem C86_local_partial (hw : WellFormed db) (hdec : Decodes db) {render : List TypeNames.Tok → Str} {m : Mem} {n a e : Nat} {val : RVal}
    {name : Str} (hn : n ≤ 4) (h : Holds typedef db m lossy floatStr n a e val) (hne : ¬ val.Has (emptyText lossy))
    (hc : Called typedef db render e name) :
    ∃ N, ∀ (σ : Type) (L : Remote.Lldb σ) (mem : σ → Mem) (other : Wire.Json → Str) (b : Binary) (s : σ) (fr : Remote.Frame)
      (text x : Str) (depth : Nat) (f : Vars.Fn) (t : Walker.Tree Die) (line base r o fp : Nat)
      (v : Vars.Var), N ≤ depth → N ≤ b.stack →
      Remote.ReadsMemory L mem → Remote.Live L s → Remote.Selected L s fr → mem s = m → TypesFrom b typedef db lossy floatStr depth →
      Typed text (.var x) →
      -- the program is stopped in the function `f`
      Vars.At b.vars fr.pc f t line base →
      -- `v` is its only variable called `x`
      v.name = some x → (Vars.paramsOf b.vars.parse t ++ Vars.localsOf b.vars.parse t).filter (fun w => w.name == some x) = [v] →
      -- it is at `o` from what LLDB says is in the register `r`, which is `a`
      f.frameBase = some (Vars.inReg r) → Calls.readRegisterByIndex fr.registers r = some fp → v.loc = some (Vars.fbreg o) →
      a = (fp + o) % u64Max1 →
      -- and has the type described at `e`
      shallow typedef db depth e = .ok v.ty →
      rd L other b.program.backend s text = some (.text (page [chars! "type: " ++ name, chars! "value: " ++ val.text]), s) := by
  obtain ⟨N, hN⟩ := C86_variable_partial hw hdec hn h hne hc
  obtain ⟨M, hM⟩ := holds_resolves hw hdec h
  refine ⟨max N M + 1, fun σ L mem other b s fr text x depth f t line base r o fp v hd hst hL hlive hf hm hT ht hat hname huniq hfb hreg
    hloc ha hty => ?_⟩
  obtain ⟨k, rfl⟩ : ∃ k, depth = k + 1 := ⟨depth - 1, by omega⟩
  have hreg' : (b.info.variables L s).ctx.reg r = .ok fp := by
    show (Remote.talk L (Remote.getRegister r) s).1 = _
    rw [Remote.C77_register L hlive hf, hreg]
  have hloc' : Vars.dataLocation (b.info.variables L s).ctx f.frameBase base v.loc = .ok (some a) := by
    rw [hfb, hloc, ha]; exact Vars.C55_frame_variable _ r o fp base hreg'
  have hat' : Vars.At (b.info.variables L s) fr.pc f t line base := by
    obtain ⟨fn, h1, h2, h3, h4, h5⟩ := hat
    exact ⟨fn, h1, h2, h3, h4, h5⟩
  have hvar := Vars.C33_unique_name_found_partial (b.info.variables L s) fr.pc f t line base hat' v x hname huniq
  have hal : (b.info.variables L s).resolve = resolveType typedef db (k + 1) := hT.vars
  obtain ⟨td, htd⟩ := hM (k + 1) (by omega)
  refine hN σ L mem other b s fr text x (v.name.getD (chars! "_")) (k + 1) td (by omega) (by omega) hL hlive hf hm hT ht ?_ htd
  rw [hvar]
  simp only [Vars.variableInfo, hloc', hal, fullType_shallow hty, htd, Res.bind_ok]

end

/-- C86 is false of empty texts: `rd print x` is an error for a variable that holds an empty `String`, because LLDB refuses to read no
bytes. -/
theorem C86_empty_string_fails {σ : Type} (L : Remote.Lldb σ) (other : Wire.Json → Str) (b : Binary) {mem : σ → Mem}
    (hL : Remote.ReadsMemory L mem) (hr : Remote.RefusesNothing L) {s : σ} (hs : Remote.Live L s) {f : Remote.Frame} (hf : Remote.Selected L s f)
    {text x shown : Str} {a data lenOff dataOff capOff : Nat} {loc : Option Nat} {et : TypeDef}
    (hv : Vars.getVariableAtPc (b.info.variables L s) f.pc x = .ok (some ⟨shown, some a, .mk loc (.string lenOff dataOff capOff et)⟩)) (hstack : 0 < b.stack)
    (hlen : (mem s).HoldsNat (a + lenOff) 8 0) (hdata : (mem s).HoldsNat (a + dataOff) 8 data)
    (h1 : a + lenOff < u64Max1) (h2 : a + dataOff < u64Max1) (ht : Typed text (.var x)) :
    ∃ s', rd L other b.program.backend s text = some (.error, s') := by
  have hvar : (b.info.world L).variableAt s f.pc x = .ok (some (some (a, .mk loc (.string lenOff dataOff capOff et)))) := by
    show (Vars.getVariableAtPc (b.info.variables L s) f.pc x).bind _ = _
    rw [hv]; rfl
  have he := Remote.C77_empty_string_fails L (b.info.world L) hL hr hs hf hvar hstack hlen hdata h1 h2
  have ho : Remote.over L (b.info.world L) = b.info.world L := rfl
  rw [ho] at he
  obtain ⟨sub, c, as, h3, h4, h5⟩ := ht
  exact ⟨_, C84_value_error L other b.program s text sub c as h3 h4 _ (.inr ⟨_, h5, by rw [C86_evaluated, he]⟩)⟩

/-! ### An example -/

/-- The process of the example of C76 in the debugger of C77: a `HashMap<u8, Vec<u8>>` at 100. -/
def mapProcess : Remote.Toy := ⟨mapMem, 0⟩

/-- Its debug information: the types of the example of C76, and a function with the variable `m`, at 99 from the contents of the first
register. -/
def mapBinary (N : Nat) : Binary where
  world := { Discovery.untypedParam with resolve := fun _ => resolveType demoTypedef (dbOf TypeRes.demo) (N + 3) }
  lookup := fun _ => none
  vars :=
    { lookupAddress := fun _ => some (0, 5)
      getFunction := fun _ => some { toks := Walker.enc oneVar, frameBase := some (Vars.inReg 0) }
      baseAddress := fun _ => some 4096
      parse := fun d => .ok { die := d, name := some (chars! "m"), line := none, loc := some (Vars.fbreg 99), ty := oneVarType }
      resolve := resolveType demoTypedef (dbOf TypeRes.demo) (N + 3)
      ctx := ⟨fun _ => .err, .err⟩ }
  lossy := fun _ => []
  floatStr := fun _ _ => []
  isFloat := fun _ => false
  stack := N

theorem map_type (N : Nat) : resolveType demoTypedef (dbOf TypeRes.demo) (N + 3) 40 = .ok mapType :=
  ((resolveType_le demoTypedef (dbOf TypeRes.demo) 3 (N + 3) (by omega) 40).eq (by rw [demo_resolves.2.1]; simp)).trans demo_resolves.2.1

theorem map_shallow (N : Nat) : shallow demoTypedef (dbOf TypeRes.demo) (N + 3) 40 = .ok oneVarType := by
  have h : shallow demoTypedef (dbOf TypeRes.demo) 3 40 = .ok oneVarType := rfl
  exact shallow_mono (by omega) h

theorem map_called : Called demoTypedef (dbOf TypeRes.demo) (fun _ => []) 40 (chars! "HashMap<u8, Vec<u8>>") := by
  have hu : TypeText.Entry demoTypedef (dbOf TypeRes.demo) 30 (.prim (chars! "u8")) := .plain is_u8.1 (.prim (by decide))
  exact .known (.hashMap is_map.1 hu (.vec is_vec.1 hu)) (by simp [TypeText.RTy.Good, TypeText.RTys.Good]) (fun h => h)

theorem map_no_empty : ¬ (RVal.map [(.leaf (chars! "7"), .seq [.leaf (chars! "1"), .leaf (chars! "2")])]).Has (emptyText fun _ => []) := by
  intro h
  cases h with
  | key h1 h2 =>
    cases List.mem_singleton.1 h1
    cases h2
  | value h1 h2 =>
    cases List.mem_singleton.1 h1
    cases h2 with
    | seq h3 h4 =>
      simp only [List.mem_cons, List.not_mem_nil, or_false] at h3
      rcases h3 with rfl | rfl <;> cases h4

theorem map_typed : Typed (chars! "p m") (.var (chars! "m")) :=
  ⟨chars! "p", chars! "m", [], rfl, .inl rfl, by with_unfolding_all rfl⟩

theorem toy_selected (s : Remote.Toy) : ∃ f, Remote.Selected Remote.toy s f ∧ f.pc = 4096 ∧ Calls.readRegisterByIndex f.registers 0 = some 1 :=
  ⟨_, ⟨⟨_, rfl, rfl⟩, by decide, by decide, by decide⟩, rfl, by decide⟩

theorem map_page : page [chars! "type: " ++ chars! "HashMap<u8, Vec<u8>>", chars! "value: " ++
    (RVal.map [(.leaf (chars! "7"), .seq [.leaf (chars! "1"), .leaf (chars! "2")])]).text] =
      chars! "type: HashMap<u8, Vec<u8>>\nvalue: {\n  7: [\n    1,\n    2\n  ]\n}\n" := by
  decide

theorem map_typesFrom (N : Nat) : TypesFrom (mapBinary N) demoTypedef (dbOf TypeRes.demo) (fun _ => []) (fun _ _ => []) (N + 3) :=
  ⟨by simp only [mapBinary], rfl, by simp only [mapBinary], by simp only [mapBinary]⟩

theorem map_vars (N pc : Nat) : Vars.At (mapBinary N).vars pc { toks := Walker.enc oneVar, frameBase := some (Vars.inReg 0) } oneVar 5 4096 :=
  ⟨0, rfl, rfl, ⟨[], by simp⟩, rfl, by rintro ⟨d, _, _, h⟩; cases h⟩

/-- `C86_local_partial` at work: the user types `rd p m`. -/
theorem map_printed (other : Wire.Json → Str) : ∃ N, rd Remote.toy other (mapBinary N).program.backend mapProcess (chars! "p m") =
    some (.text (chars! "type: HashMap<u8, Vec<u8>>\nvalue: {\n  7: [\n    1,\n    2\n  ]\n}\n"), mapProcess) := by
  obtain ⟨hlive, hL, -⟩ := Remote.toy_ok
  obtain ⟨f, hf, hpc, hreg⟩ := toy_selected mapProcess
  obtain ⟨N, hN⟩ := C86_local_partial demo_wellFormed.1 demo_wellFormed.2.1 (by omega) holds_map map_no_empty map_called
  have hm : Remote.Toy.mem mapProcess = mapMem := by simp only [mapProcess]
  have := hN Remote.Toy Remote.toy Remote.Toy.mem other (mapBinary N) mapProcess f (chars! "p m") (chars! "m")
    (N + 3) _ oneVar 5 4096 0 99 1
    { die := { off := 2, tag := .variable, attrs := [(.name, .str (chars! "m"))] }, name := some (chars! "m"), line := none,
      loc := some (Vars.fbreg 99), ty := oneVarType }
    (by omega) (by simp only [mapBinary]; omega) hL (hlive _) hf hm (map_typesFrom N) map_typed
    (map_vars N f.pc) rfl (by with_unfolding_all rfl) rfl hreg rfl (by decide) (map_shallow N)
  exact ⟨N, by rw [this, map_page]⟩

end Rudy.Whole
