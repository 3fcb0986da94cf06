import Verif.Model.Variables
import Verif.Props.FnIndex
import Mathlib.Data.List.Forall2
/-
C33, C55: variables of a function.
-/
namespace Rudy.Vars
open Rudy.Walker Rudy.Dwarf

/-! ### Vocabulary -/

/-- The entries that variables may be declared below: blocks and functions, scopes and types, but not
inlined calls or call sites. -/
def opened (d : Die) : Bool :=
  [Tag.namespace, .subprogram, .structureType, .enumerationType, .baseType, .pointerType, .arrayType,
    .lexicalBlock, .unionType].contains d.tag

theorem descends_eq : descends = opened := by
  funext d
  obtain ⟨o, tg, at', rg, ul⟩ := d
  cases tg <;> rfl

/-- The description of an entry, if it can be read. -/
def known (parse : Die → Res Var) (d : Die) : Option Var :=
  match parse d with
  | .ok v => some v
  | _ => none

/-- The parameters of a function: the parameter entries below its entry, in document order, that can be
parsed. Entries below variables, types' members and inlined calls do not count. -/
def paramsOf (parse : Die → Res Var) (t : Tree Die) : List Var :=
  ((reach opened t).filter fun d => decide (d.tag = .formalParameter)).filterMap (known parse)

/-- The local variables of a function, in all its blocks, in document order. -/
def localsOf (parse : Die → Res Var) (t : Tree Die) : List Var :=
  ((reach opened t).filter fun d => decide (d.tag = .variable)).filterMap (known parse)

/-- One of the variables or parameters of the function cannot be read without a crash. -/
def Crashes (parse : Die → Res Var) (t : Tree Die) : Prop :=
  ∃ d ∈ reach opened t, (d.tag = .formalParameter ∨ d.tag = .variable) ∧ parse d = .panic

/-- `t` is the entry of the function found at `address`, `line` the line there and `base` its address;
reading its variables does not crash. -/
inductive At (W : World) (address : Nat) (f : Fn) (t : Tree Die) (line base : Nat) : Prop where
  | intro (fn : Nat) (lookup : W.lookupAddress address = some (fn, line)) (func : W.getFunction fn = some f)
      (tree : ∃ trailing, f.toks = enc t ++ trailing) (addr : W.baseAddress fn = some base)
      (reads : ¬ Crashes W.parse t)

/-- The variable is declared on a known line before `line`. -/
def declaredBefore (line : Nat) (v : Var) : Bool := v.line.any fun l => decide (l < line)

/-- A location at a constant offset from the frame base (`DW_OP_fbreg`, offsets in two's complement). -/
def fbreg (n : Nat) : Eval := .frameBase fun fb => .complete [.address ((fb + n) % u64Max1)]

/-- A location in a register (`DW_OP_reg`). -/
def inReg (r : Nat) : Eval := .complete [.register r]

/-- A fixed address (`DW_OP_addr`). -/
def static (a : Nat) : Eval := .relocated a fun x => .complete [.address x]

/-! ### Proofs -/

theorem walk_eq (parse : Die → Res Var) (t : Tree Die) (trailing : List (Tok Die)) :
    walkDie (visitor parse) (.ok {}) (enc t ++ trailing) =
      ((reach opened t).foldl (fun s d => ((visitor parse).enter s d).1) (.ok {}), .ok) := by
  have hstep : ∀ (s : Res Resolved) (d : Die), True → (visitor parse).enter s d =
      ((fun s d => ((visitor parse).enter s d).1) s d, if descends d then .walk else .skip) := by
    intro s d _
    obtain ⟨o, tg, at', rg, ul⟩ := d
    cases tg <;> rfl
  rw [C42_walk_entry_follows_tree,
    visitTree_fold _ _ descends (fun _ => True) hstep (fun _ _ _ => rfl) t (fun _ _ => trivial), descends_eq]

theorem fold_panic (parse : Die → Res Var) (ds : List Die) :
    ds.foldl (fun s d => ((visitor parse).enter s d).1) .panic = .panic := by
  induction ds with
  | nil => rfl
  | cons d ds ih =>
    have : ((visitor parse).enter .panic d).1 = .panic := by
      obtain ⟨o, tg, at', rg, ul⟩ := d
      cases tg <;> rfl
    simp only [List.foldl_cons, this, ih]

theorem fold_crash (parse : Die → Res Var) (ds : List Die) (s : Resolved)
    (h : ∃ d ∈ ds, (d.tag = .formalParameter ∨ d.tag = .variable) ∧ parse d = .panic) :
    ds.foldl (fun s d => ((visitor parse).enter s d).1) (.ok s) = .panic := by
  induction ds generalizing s with
  | nil => obtain ⟨d, hd, _⟩ := h; cases hd
  | cons d ds ih =>
    simp only [List.foldl_cons]
    by_cases hd : (d.tag = .formalParameter ∨ d.tag = .variable) ∧ parse d = .panic
    · obtain ⟨ht, hp⟩ := hd
      have : ((visitor parse).enter (.ok s) d).1 = .panic := by
        rcases ht with ht | ht <;> simp [visitor, ht, collect, hp, Res.bind]
      rw [this, fold_panic]
    · have hrest : ∃ d ∈ ds, (d.tag = .formalParameter ∨ d.tag = .variable) ∧ parse d = .panic := by
        obtain ⟨e, he, h1⟩ := h
        rcases List.mem_cons.1 he with rfl | he
        · exact absurd h1 hd
        · exact ⟨e, he, h1⟩
      have : (∃ s', ((visitor parse).enter (.ok s) d).1 = .ok s') := by
        by_cases h1 : d.tag = .formalParameter
        · cases hp : parse d with
          | panic => exact absurd ⟨Or.inl h1, hp⟩ hd
          | ok v => simp [visitor, h1, collect, hp, Res.bind]
          | err => simp [visitor, h1, collect, hp, Res.bind]
        · by_cases h2 : d.tag = .variable
          · cases hp : parse d with
            | panic => exact absurd ⟨Or.inr h2, hp⟩ hd
            | ok v => simp [visitor, h2, collect, hp, Res.bind]
            | err => simp [visitor, h2, collect, hp, Res.bind]
          · refine ⟨s, ?_⟩
            obtain ⟨o, tg, at', rg, ul⟩ := d
            cases tg <;> first | rfl | exact absurd rfl h1 | exact absurd rfl h2
      obtain ⟨s', hs'⟩ := this
      rw [hs']
      exact ih s' hrest

theorem fold_ok (parse : Die → Res Var) (ds : List Die) (s : Resolved)
    (h : ¬ ∃ d ∈ ds, (d.tag = .formalParameter ∨ d.tag = .variable) ∧ parse d = .panic) :
    ds.foldl (fun s d => ((visitor parse).enter s d).1) (.ok s) =
      .ok { params := s.params ++ (ds.filter fun d => decide (d.tag = .formalParameter)).filterMap (known parse)
            locals := s.locals ++ (ds.filter fun d => decide (d.tag = .variable)).filterMap (known parse) } := by
  induction ds generalizing s with
  | nil => simp
  | cons d ds ih =>
    have hrest : ¬ ∃ d ∈ ds, (d.tag = .formalParameter ∨ d.tag = .variable) ∧ parse d = .panic := by
      rintro ⟨e, he, h1⟩; exact h ⟨e, by simp [he], h1⟩
    simp only [List.foldl_cons]
    by_cases h1 : d.tag = .formalParameter
    · cases hp : parse d with
      | panic => exact absurd ⟨d, by simp, Or.inl h1, hp⟩ h
      | ok v =>
        have e : ((visitor parse).enter (.ok s) d).1 = .ok { s with params := s.params ++ [v] } := by
          simp [visitor, h1, collect, hp, Res.bind]
        rw [e, ih _ hrest]
        simp [h1, known, hp]
      | err =>
        have e : ((visitor parse).enter (.ok s) d).1 = .ok s := by simp [visitor, h1, collect, hp, Res.bind]
        rw [e, ih _ hrest]
        simp [h1, known, hp]
    · by_cases h2 : d.tag = .variable
      · cases hp : parse d with
        | panic => exact absurd ⟨d, by simp, Or.inr h2, hp⟩ h
        | ok v =>
        have e : ((visitor parse).enter (.ok s) d).1 = .ok { s with locals := s.locals ++ [v] } := by
          simp [visitor, h2, collect, hp, Res.bind]
        rw [e, ih _ hrest]
        simp [h2, known, hp]
        | err =>
        have e : ((visitor parse).enter (.ok s) d).1 = .ok s := by simp [visitor, h2, collect, hp, Res.bind]
        rw [e, ih _ hrest]
        simp [h2, known, hp]
      · have : ((visitor parse).enter (.ok s) d).1 = .ok s := by
          obtain ⟨o, tg, at', rg, ul⟩ := d
          cases tg <;> first | rfl | exact absurd rfl h1 | exact absurd rfl h2
        rw [this, ih _ hrest]
        simp [h1, h2]

theorem resolve_eq (parse : Die → Res Var) (t : Tree Die) (trailing : List (Tok Die)) (h : ¬ Crashes parse t) :
    resolveFunctionVariables parse (enc t ++ trailing) =
      .ok { params := paramsOf parse t, locals := localsOf parse t } := by
  simp only [resolveFunctionVariables]
  rw [walk_eq, fold_ok parse _ _ h]
  simp [paramsOf, localsOf]

theorem resolve_crash (parse : Die → Res Var) (t : Tree Die) (trailing : List (Tok Die)) (h : Crashes parse t) :
    resolveFunctionVariables parse (enc t ++ trailing) = .panic := by
  simp only [resolveFunctionVariables]
  rw [walk_eq, fold_crash parse _ _ h]

theorem getVariable_eq (W : World) (address : Nat) (f : Fn) (t : Tree Die) (line base : Nat)
    (h : At W address f t line base) (name : Str) :
    getVariableAtPc W address name =
      match (paramsOf W.parse t ++ localsOf W.parse t).find? fun v => v.name == some name with
      | some v => (variableInfo W f base v).bind fun i => .ok (some i)
      | none => .ok none := by
  obtain ⟨fn, h1, h2, ⟨tr, h3⟩, h4, hcr⟩ := h
  simp only [getVariableAtPc, h1, h2, h3, resolve_eq _ _ _ hcr, Res.bind, h4, Res.ofOption]
  rw [List.find?_append]
  cases (paramsOf W.parse t).find? fun v => v.name == some name with
  | some v => simp
  | none =>
    simp only [Option.none_or]
    cases (localsOf W.parse t).find? fun v => v.name == some name <;> rfl

/-! ### Properties -/

/-- C33: the variables considered are exactly those described below the function's entry. -/
theorem C33_variables_collected (parse : Die → Res Var) (t : Tree Die) (trailing : List (Tok Die)) (h : ¬ Crashes parse t) :
    resolveFunctionVariables parse (enc t ++ trailing) =
      .ok { params := paramsOf parse t, locals := localsOf parse t } := resolve_eq parse t trailing h

/-- C33 fails for a function with one variable or parameter that cannot be read without a crash (of type `RwLock`,
say: `C94_rwlock_fails`): no variable of the function can be looked up or listed, whatever its name. -/
theorem C33_one_crash_hides_all_fails (W : World) (address fn line : Nat) (f : Fn) (t : Tree Die) (trailing : List (Tok Die))
    (hl : W.lookupAddress address = some (fn, line)) (hf : W.getFunction fn = some f) (ht : f.toks = enc t ++ trailing)
    (h : Crashes W.parse t) :
    (∀ name, getVariableAtPc W address name = .panic) ∧ getAllVariablesAtPc W address = .panic := by
  constructor
  · intro name
    simp only [getVariableAtPc, hl, hf, ht, resolve_crash _ _ _ h, Res.bind]
  · simp only [getAllVariablesAtPc, hl, hf, ht, resolve_crash _ _ _ h, Res.bind]

/-- The type of a variable is the one it has or, if that is a name only, what is described where the name was found. -/
theorem fullType_ok (resolve : Nat → Res Layout.TypeDef) (t t' : Layout.TypeDef) :
    fullType resolve t = .ok t' ↔ (∀ n, t.layout ≠ .alias n) ∧ t' = t ∨ ∃ e n, t = .mk (some e) (.alias n) ∧ resolve e = .ok t' := by
  obtain ⟨loc, l⟩ := t
  cases l with
  | «alias» n =>
    cases loc with
    | none => simp [fullType, Layout.TypeDef.layout]
    | some e => simp [fullType, Layout.TypeDef.layout]
  | _ => simp [fullType, Layout.TypeDef.layout, eq_comm]

/-- C33: what is reported about a variable: its name, or an underscore if it has none, the address its
location evaluates to, and its type, with aliases resolved. -/
theorem C33_reported (W : World) (f : Fn) (base : Nat) (v : Var) (i : VarInfo)
    (h : variableInfo W f base v = .ok i) :
    (v.name = some i.name ∨ v.name = none ∧ i.name = ['_']) ∧
      dataLocation W.ctx f.frameBase base v.loc = .ok i.address ∧
      ((∀ n, v.ty.layout ≠ .alias n) ∧ i.ty = v.ty ∨ ∃ e n, v.ty = .mk (some e) (.alias n) ∧ W.resolve e = .ok i.ty) := by
  simp only [variableInfo, Res.bind_eq_ok] at h
  obtain ⟨a, ha, ty, ht, hi⟩ := h
  cases hi
  refine ⟨?_, ha, ?_⟩
  · cases v.name <;> simp
  · exact (fullType_ok W.resolve v.ty ty).1 ht

/-- C33: a variable whose name no other variable of the function has is found, and the answer describes
that variable. (Full statement: the live binding of a name; missing: names bound more than once, which
fail, see below.) -/
theorem C33_unique_name_found_partial (W : World) (address : Nat) (f : Fn) (t : Tree Die) (line base : Nat)
    (h : At W address f t line base) (v : Var) (name : Str) (hn : v.name = some name)
    (hu : (paramsOf W.parse t ++ localsOf W.parse t).filter (fun w => w.name == some name) = [v]) :
    getVariableAtPc W address name = (variableInfo W f base v).bind fun i => .ok (some i) := by
  rw [getVariable_eq W address f t line base h]
  rw [← List.head?_filter, hu]
  rfl

/-- C33: a name no variable of the function has is not found. -/
theorem C33_unknown_name (W : World) (address : Nat) (f : Fn) (t : Tree Die) (line base : Nat)
    (h : At W address f t line base) (name : Str)
    (hu : ∀ v ∈ paramsOf W.parse t ++ localsOf W.parse t, v.name ≠ some name) :
    getVariableAtPc W address name = .ok none := by
  rw [getVariable_eq W address f t line base h]
  have : ((paramsOf W.parse t ++ localsOf W.parse t).find? fun v => v.name == some name) = none := by
    rw [List.find?_eq_none]; intro v hv; simpa using hu v hv
  rw [this]

/-- C33: what is found has the name asked for and is a variable of the function. -/
theorem C33_found_is_variable (W : World) (address : Nat) (f : Fn) (t : Tree Die) (line base : Nat)
    (h : At W address f t line base) (name : Str) (i : VarInfo)
    (hi : getVariableAtPc W address name = .ok (some i)) :
    i.name = name ∧ ∃ v ∈ paramsOf W.parse t ++ localsOf W.parse t, v.name = some name ∧
      variableInfo W f base v = .ok i := by
  rw [getVariable_eq W address f t line base h] at hi
  cases hf : (paramsOf W.parse t ++ localsOf W.parse t).find? fun v => v.name == some name with
  | none => rw [hf] at hi; cases hi
  | some v =>
    rw [hf] at hi
    simp only [Res.bind_eq_ok] at hi
    obtain ⟨j, hj, e⟩ := hi
    cases e
    have hv := List.find?_some hf
    simp only [beq_iff_eq] at hv
    refine ⟨?_, v, List.mem_of_find?_eq_some hf, hv, hj⟩
    simp only [variableInfo, Res.bind_eq_ok] at hj
    obtain ⟨a, _, ty, _, e⟩ := hj
    cases e
    simp [hv]

theorem infos_ok (W : World) (f : Fn) (base : Nat) (vs : List Var) (is : List VarInfo) :
    infos W f base vs = .ok is ↔ List.Forall₂ (fun v i => variableInfo W f base v = .ok i) vs is := by
  induction vs generalizing is with
  | nil =>
    simp only [infos]
    constructor
    · intro h; cases h; exact .nil
    · intro h; cases h; rfl
  | cons v vs ih =>
    simp only [infos, Res.bind_eq_ok]
    constructor
    · rintro ⟨i, hi, js, hjs, e⟩
      cases e
      exact .cons hi ((ih _).1 hjs)
    · intro h
      cases h with
      | cons h1 h2 => exact ⟨_, h1, _, (ih _).2 h2, rfl⟩

/-- C33: the listing consists of all parameters and of the locals declared on an earlier line than the
current one, in order, one description each. -/
theorem C33_listing_exact (W : World) (address : Nat) (f : Fn) (t : Tree Die) (line base : Nat)
    (h : At W address f t line base) (ps ls : List VarInfo) :
    getAllVariablesAtPc W address = .ok (ps, ls) ↔
      List.Forall₂ (fun v i => variableInfo W f base v = .ok i) (paramsOf W.parse t) ps ∧
      List.Forall₂ (fun v i => variableInfo W f base v = .ok i)
        ((localsOf W.parse t).filter fun v => declaredBefore line v) ls := by
  obtain ⟨fn, h1, h2, ⟨tr, h3⟩, h4, hcr⟩ := h
  have hfilt : ((localsOf W.parse t).filter fun v => definedAt line v) =
      (localsOf W.parse t).filter fun v => declaredBefore line v := by
    apply List.filter_congr
    intro v _
    simp only [declaredBefore, definedAt]; cases v.line <;> simp
  simp only [getAllVariablesAtPc, h1, h2, h3, resolve_eq _ _ _ hcr, Res.bind, h4, Res.ofOption, hfilt]
  have := infos_ok W f base
  constructor
  · intro hh
    cases ha : infos W f base (paramsOf W.parse t) with
    | ok ps' =>
      rw [ha] at hh
      simp only at hh
      cases hb : infos W f base ((localsOf W.parse t).filter fun v => declaredBefore line v) with
      | ok ls' =>
        rw [hb] at hh
        simp only [Res.ok.injEq, Prod.mk.injEq] at hh
        obtain ⟨rfl, rfl⟩ := hh
        exact ⟨(this _ _).1 ha, (this _ _).1 hb⟩
      | err => rw [hb] at hh; cases hh
      | panic => rw [hb] at hh; cases hh
    | err => rw [ha] at hh; cases hh
    | panic => rw [ha] at hh; cases hh
  · rintro ⟨ha, hb⟩
    rw [(this _ _).2 ha]
    simp only
    rw [(this _ _).2 hb]

/-- C33: the listing and the lookup agree on every listed local whose name is bound once. -/
theorem C33_listing_agrees_partial (W : World) (address : Nat) (f : Fn) (t : Tree Die) (line base : Nat)
    (h : At W address f t line base) (ps ls : List VarInfo)
    (hl : getAllVariablesAtPc W address = .ok (ps, ls)) (v : Var) (name : Str)
    (hv : v ∈ paramsOf W.parse t ∨
      v ∈ localsOf W.parse t ∧ declaredBefore line v = true) (hn : v.name = some name)
    (hu : (paramsOf W.parse t ++ localsOf W.parse t).filter (fun w => w.name == some name) = [v]) :
    ∃ i, i ∈ ps ++ ls ∧ getVariableAtPc W address name = .ok (some i) := by
  have hx := (C33_listing_exact W address f t line base h ps ls).1 hl
  have key : ∀ (vs : List Var) (is : List VarInfo),
      List.Forall₂ (fun v i => variableInfo W f base v = .ok i) vs is → v ∈ vs →
      ∃ i ∈ is, variableInfo W f base v = .ok i := by
    intro vs is hf
    induction hf with
    | nil => simp
    | cons h1 _ ih =>
      intro hm
      simp only [List.mem_cons] at hm
      rcases hm with rfl | hm
      · exact ⟨_, List.mem_cons_self .., h1⟩
      · obtain ⟨i, hi, e⟩ := ih hm
        exact ⟨i, by simp [hi], e⟩
  have : ∃ i, i ∈ ps ++ ls ∧ variableInfo W f base v = .ok i := by
    rcases hv with hv | ⟨hv, hlt⟩
    · obtain ⟨i, hi, e⟩ := key _ _ hx.1 hv
      exact ⟨i, by simp [hi], e⟩
    · obtain ⟨i, hi, e⟩ := key _ _ hx.2 (by simp only [List.mem_filter, hv, true_and]; exact hlt)
      exact ⟨i, by simp [hi], e⟩
  obtain ⟨i, hi, e⟩ := this
  refine ⟨i, hi, ?_⟩
  rw [C33_unique_name_found_partial W address f t line base h v name hn hu, e]
  rfl

/-- C33 fails, in general: of several variables with a name the first is returned, whatever the
current line: a parameter even if a local shadows it, the first local even if a later one shadows it,
is out of scope, or is not declared yet. -/
theorem C33_first_binding_wins_fails (W : World) (address : Nat) (f : Fn) (t : Tree Die) (line base : Nat)
    (h : At W address f t line base) (name : Str) (v : Var) (before after : List Var)
    (hv : paramsOf W.parse t ++ localsOf W.parse t = before ++ v :: after) (hn : v.name = some name)
    (hb : ∀ w ∈ before, w.name ≠ some name) :
    getVariableAtPc W address name = (variableInfo W f base v).bind fun i => .ok (some i) := by
  rw [getVariable_eq W address f t line base h, hv, List.find?_append]
  have : (before.find? fun v => v.name == some name) = none := by
    rw [List.find?_eq_none]; intro w hw; simpa using hb w hw
  simp [this, hn]

/-! ### C55: the address of a variable -/

/-- C55: a variable at a constant offset from the frame base is located there, for a frame base held in
a register. -/
theorem C55_frame_variable (c : Ctx) (r n x base : Nat) (h : c.reg r = .ok x) :
    dataLocation c (some (inReg r)) base (some (fbreg n)) = .ok (some ((x + n) % u64Max1)) := by
  simp [dataLocation, fbreg, dataLoop, frameBase, inReg, frameLoop, h, Res.bind]

/-- C55: a variable without a location (or whose location is not a single expression) has no address. -/
theorem C55_no_location (c : Ctx) (fb : Option Eval) (base : Nat) : dataLocation c fb base none = .ok none := rfl

/-- C55 fails: a variable held in a register makes the lookup panic. -/
theorem C55_register_variable_fails (c : Ctx) (fb : Option Eval) (base r : Nat) :
    dataLocation c fb base (some (inReg r)) = .panic := rfl

/-- C55 fails: so does any location made of several pieces. -/
theorem C55_pieces_fail (c : Ctx) (fb : Option Eval) (base : Nat) (p q : Loc) (ps : List Loc) :
    dataLocation c fb base (some (.complete (p :: q :: ps))) = .panic := by
  cases p <;> rfl

/-- C55 fails: a fixed address is shifted by the address of the function, not taken as it is. -/
theorem C55_static_variable_fails (c : Ctx) (fb : Option Eval) (base a : Nat) (h : base + a < u64Max1) :
    dataLocation c fb base (some (static a)) = .ok (some (base + a)) := by
  simp [dataLocation, static, dataLoop, addU, h, Res.bind]

/-- C55 fails: when the frame base is given as the call frame address, the stack pointer is used in
its place. -/
theorem C55_call_frame_fails (c : Ctx) (sp n base : Nat) (h : c.sp = .ok sp) :
    dataLocation c (some (.cfa fun x => .complete [.address x])) base (some (fbreg n)) =
      .ok (some ((sp + n) % u64Max1)) := by
  simp [dataLocation, fbreg, dataLoop, frameBase, frameLoop, h, Res.bind]

/-- C55 and C33 fail: one parameter held in a register makes the whole listing panic, if those before it
can be described. -/
theorem C55_one_register_parameter_hides_all_fails (W : World) (address : Nat) (f : Fn) (t : Tree Die)
    (line base : Nat) (h : At W address f t line base) (before after : List Var) (v : Var) (r : Nat)
    (hp : paramsOf W.parse t = before ++ v :: after) (hv : v.loc = some (inReg r))
    (hb : ∀ w ∈ before, ∃ i, variableInfo W f base w = .ok i) :
    getAllVariablesAtPc W address = .panic := by
  obtain ⟨fn, h1, h2, ⟨tr, h3⟩, h4, hcr⟩ := h
  have hpan : infos W f base (before ++ v :: after) = .panic := by
    clear hp
    induction before with
    | nil => simp [infos, variableInfo, hv, C55_register_variable_fails, Res.bind]
    | cons w ws ih =>
      obtain ⟨i, hi⟩ := hb w (by simp)
      simp only [List.cons_append, infos, hi, Res.bind, ih fun x hx => hb x (by simp [hx])]
  simp only [getAllVariablesAtPc, h1, h2, h3, resolve_eq _ _ _ hcr, Res.bind, h4, Res.ofOption, hp, hpan]

/-! ### A concrete function -/

/-- `fn f(p) { let x (line 2); { let x (line 4); } let y (line 6); }`. -/
def demoFn : Tree Die :=
  let leaf (off : Nat) (tag : Tag) (nm : Str) : Tree Die :=
    .node { off := off, tag := tag, attrs := [(.name, .str nm)] } false false []
  .node { off := 1, tag := .subprogram } true false
    [leaf 2 .formalParameter (chars! "p"), leaf 3 .variable (chars! "x"),
     .node { off := 4, tag := .lexicalBlock } true false
       [leaf 5 .variable (chars! "x"), leaf 6 .variable (chars! "y")]]

/-- The parsed variables: at offset `off` from the frame base, declared on line `off - 1`. -/
def demoParse (d : Die) : Res Var :=
  match d.attr .name with
  | some (.str s) => .ok { die := d, name := some s, line := some (d.off - 1), loc := some (fbreg d.off), ty := .mk (some d.off) (.uint 4) }
  | _ => .err

/-- Stopped at line 5 of `demoFn`. -/
def demoWorld : World where
  lookupAddress _ := some (0, 5)
  getFunction _ := some { toks := enc demoFn, frameBase := some (inReg 6) }
  baseAddress _ := some 4096
  parse := demoParse
  resolve _ := .err
  ctx := { reg := fun _ => .ok 1000, sp := .ok 900 }

/-- The hypotheses of the C33 and C55 theorems hold here. -/
theorem demoWorld_at : At demoWorld 0 { toks := enc demoFn, frameBase := some (inReg 6) } demoFn 5 4096 :=
  ⟨0, rfl, rfl, ⟨[], by simp⟩, rfl, by
    rintro ⟨d, _, _, h⟩
    simp only [demoWorld, demoParse] at h
    split at h <;> cases h⟩

/-- C33 fails on the concrete function: at line 5 the live `x` is the one declared on line 4 (at 1005),
which the listing shows; the lookup returns the one declared on line 2 (at 1003). -/
theorem C33_shadowed_local_fails :
    (∃ ps ls, getAllVariablesAtPc demoWorld 0 = .ok (ps, ls) ∧
      ls.map (fun i => (i.name, i.address)) = [(chars! "x", some 1003), (chars! "x", some 1005)]) ∧
    (getVariableAtPc demoWorld 0 (chars! "x")) =
      .ok (some { name := chars! "x", address := some 1003, ty := .mk (some 3) (.uint 4) }) := by
  constructor
  · exact ⟨_, _, rfl, rfl⟩
  · rfl

/-- C33 fails: a variable declared on the current line or later is found by name although the listing
does not show it. -/
theorem C33_undeclared_local_fails :
    (∃ ps ls, getAllVariablesAtPc demoWorld 0 = .ok (ps, ls) ∧ ∀ i ∈ ps ++ ls, i.name ≠ chars! "y") ∧
    getVariableAtPc demoWorld 0 (chars! "y") =
      .ok (some { name := chars! "y", address := some 1006, ty := .mk (some 6) (.uint 4) }) := by
  constructor
  · exact ⟨_, _, rfl, by decide⟩
  · rfl

/-- The positive theorems apply to `p`. -/
example : ∃ i, getVariableAtPc demoWorld 0 (chars! "p") = .ok (some i) ∧ i.address = some 1002 := by
  refine ⟨{ name := chars! "p", address := some 1002, ty := .mk (some 2) (.uint 4) }, ?_, rfl⟩
  exact C33_unique_name_found_partial demoWorld 0 _ demoFn 5 4096 demoWorld_at
    { die := { off := 2, tag := .formalParameter, attrs := [(.name, .str (chars! "p"))] },
      name := some (chars! "p"), line := some 1, loc := some (fbreg 2), ty := .mk (some 2) (.uint 4) } (chars! "p") rfl rfl

end Rudy.Vars
