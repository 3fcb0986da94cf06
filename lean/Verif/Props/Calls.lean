import Verif.Model.Calls
import Verif.Proof.ExprPrint
import Verif.Proof.Memory
import Mathlib.Data.List.Forall2
import Mathlib.Data.List.Nodup
/-
C71: the expression given to LLDB for a call.
-/
namespace Rudy.Calls
open Rudy Rudy.Server Rudy.Expr Rudy.Layout Rudy.Data

/-! ### Calls in C++ -/

/-- The types that occur in calls. -/
inductive CType where
  | voidPtr | ulong | int | double
  | struct (name : Str)

/-- The text of a type. -/
def CType.text : CType → Str
  | .voidPtr => chars! "void*"
  | .ulong => chars! "unsigned long"
  | .int => chars! "int"
  | .double => chars! "double"
  | .struct n => chars! "struct " ++ n

/-- The values that occur in calls: a literal, an address, or the contents of a structure at an address. -/
inductive CVal where
  | literal (t : Str)
  | address (t : Str)
  | load (struct : Str) (t : Str)

/-- The text of a value. -/
def CVal.text : CVal → Str
  | .literal t => t
  | .address t => chars! "(void*)" ++ t
  | .load n t => chars! "*((struct " ++ n ++ chars! "*)" ++ t ++ chars! ")"

/-- A call of the code at an address: the structures defined for it (their names and sizes in bytes), the structure it
returns (`none`: a number), and the arguments with their types. -/
structure CCall where
  defs : List (Str × Nat)
  ret : Option Str
  address : Nat
  args : List (CType × CVal)

/-- The definition of a structure of bytes. -/
def defText (d : Str × Nat) : Str := chars! "struct " ++ d.1 ++ chars! " { unsigned char bytes[" ++ natStr d.2 ++ chars! "]; }; "

/-- The parameter list of a function type. -/
def paramText (ts : List CType) : Str := if ts.isEmpty then chars! "void" else joinWith (chars! ", ") (ts.map CType.text)

/-- The text of a call. -/
def CCall.text (c : CCall) : Str :=
  c.defs.flatMap defText ++
  match c.ret with
  | none => chars! "((unsigned long (*)(" ++ paramText (c.args.map (·.1)) ++ chars! "))" ++ hexStr c.address ++ chars! ")(" ++
      joinWith (chars! ", ") (c.args.map (·.2.text)) ++ chars! ")"
  | some n => chars! "auto result = ((struct " ++ n ++ chars! " (*)(" ++ paramText (c.args.map (·.1)) ++ chars! "))" ++ hexStr c.address ++
      chars! ")(" ++ joinWith (chars! ", ") (c.args.map (·.2.text)) ++ chars! "); &result"

/-- Every structure is defined once, and every structure used is defined. -/
structure CCall.WellFormed (c : CCall) : Prop where
  once : (c.defs.map (·.1)).Nodup
  params : ∀ n v, (CType.struct n, v) ∈ c.args → n ∈ c.defs.map (·.1)
  loads : ∀ t n x, (t, CVal.load n x) ∈ c.args → n ∈ c.defs.map (·.1)
  result : ∀ n, c.ret = some n → n ∈ c.defs.map (·.1)

/-- How an argument of a request is to be passed: a value of `n` bytes as a structure of that size, read at the address; a
pointer as an address; numbers as they are; booleans as 1 and 0. -/
def Passes (defs : List (Str × Nat)) (a : Arg) (p : CType × CVal) : Prop :=
  match a.ty, a.size with
  | .pointer, some n => ∃ s, (s, n) ∈ defs ∧ p = (.struct s, .load s a.value)
  | .pointer, none => p = (.voidPtr, .address a.value)
  | .integer, _ => p = (.ulong, .literal a.value)
  | .float, _ => p = (.double, .literal a.value)
  | .bool, _ => p.1 = .int ∧ ((a.value = chars! "true" ∨ a.value = chars! "1") → p.2 = .literal (chars! "1")) ∧
      ((a.value = chars! "false" ∨ a.value = chars! "0") → p.2 = .literal (chars! "0"))

/-- A text that cannot be mistaken for anything but one literal. -/
def Plain (t : Str) : Prop := ∀ c ∈ t, c ≠ ',' ∧ c ≠ '(' ∧ c ≠ ')' ∧ c ≠ '*'

/-- A name. -/
def Name (t : Str) : Prop := ∀ c ∈ t, isWord c = true

/-- The literals and addresses of a call are plain, the structures have names. -/
structure CCall.Clean (c : CCall) : Prop where
  defs : ∀ d ∈ c.defs, Name d.1
  ret : ∀ n, c.ret = some n → Name n
  types : ∀ n v, (CType.struct n, v) ∈ c.args → Name n
  literals : ∀ t x, (t, CVal.literal x) ∈ c.args → Plain x
  addresses : ∀ t x, (t, CVal.address x) ∈ c.args → Plain x
  loads : ∀ t n x, (t, CVal.load n x) ∈ c.args → Name n ∧ Plain x

/-- What a call returns: a number, or a structure of the size asked for. -/
def Returns (c : CCall) : Option Nat → Prop
  | none => c.ret = none
  | some n => ∃ s, c.ret = some s ∧ (s, n) ∈ c.defs

/-! ### The call that is made -/

/-- Name of the structure for values of `n` bytes. -/
def argName (n : Nat) : Str := chars! "Arg_" ++ natStr n

/-- Name of the structure for results of `n` bytes. -/
def retName (n : Nat) : Str := chars! "ReturnBuffer_" ++ natStr n

theorem natStr_inj {m n : Nat} (h : natStr m = natStr n) : m = n := by
  rw [← valueOf_natStr m, ← valueOf_natStr n, h]

theorem argName_inj {m n : Nat} (h : argName m = argName n) : m = n := natStr_inj (by simpa [argName] using h)

theorem argName_ret (m n : Nat) : argName m ≠ retName n := by
  intro h
  have := congrArg List.head? h
  simp [argName, retName] at this

/-- The sizes the structures are defined for. -/
def sizes : List Nat → List Arg → List Nat
  | acc, [] => acc
  | acc, a :: r => match a.size with
    | none => sizes acc r
    | some n => if n ∈ acc then sizes acc r else sizes (acc ++ [n]) r

theorem sizes_nodup (acc : List Nat) (args : List Arg) (h : acc.Nodup) : (sizes acc args).Nodup := by
  induction args generalizing acc with
  | nil => exact h
  | cons a r ih =>
    rw [sizes]
    split
    · exact ih acc h
    · split
      · exact ih acc h
      · rename_i hn
        exact ih _ (List.nodup_append.2 ⟨h, by simp, by
          intro x hx y hy he
          rw [List.mem_singleton] at hy
          exact hn (hy ▸ he ▸ hx)⟩)

theorem sizes_acc (acc : List Nat) (args : List Arg) : ∀ n ∈ acc, n ∈ sizes acc args := by
  induction args generalizing acc with
  | nil => exact fun n h => h
  | cons a r ih =>
    intro n h
    rw [sizes]
    split
    · exact ih acc n h
    · split
      · exact ih acc n h
      · exact ih _ n (List.mem_append_left _ h)

theorem sizes_mem (acc : List Nat) (args : List Arg) {a : Arg} (ha : a ∈ args) {n : Nat} (hn : a.size = some n) :
    n ∈ sizes acc args := by
  induction args generalizing acc with
  | nil => cases ha
  | cons b r ih =>
    rw [sizes]
    rcases List.mem_cons.1 ha with rfl | ha
    · rw [hn]
      simp only
      split
      · rename_i h; exact sizes_acc _ _ _ h
      · exact sizes_acc _ _ _ (by simp)
    · split
      · exact ih acc ha
      · split
        · exact ih acc ha
        · exact ih _ ha

theorem structDef_inj {m n : Nat} (h : structDef m = structDef n) : m = n := by
  have h1 : natStr m ++ (chars! " { unsigned char bytes[" ++ natStr m ++ chars! "]; }") =
      natStr n ++ (chars! " { unsigned char bytes[" ++ natStr n ++ chars! "]; }") := by
    simpa [structDef, argStruct] using h
  have key : ∀ (k : Nat) (r : Str), (natStr k ++ (' ' :: r)).takeWhile isDigit = natStr k := by
    intro k r
    rw [List.takeWhile_append_of_pos (natStr_digits k)]
    simp [show isDigit ' ' = false by decide]
  have h2 := congrArg (List.takeWhile isDigit) h1
  simp only [List.cons_append, List.nil_append, key] at h2
  exact natStr_inj h2

theorem foldl_addDef (acc : List Nat) (args : List Arg) :
    args.foldl addDef (acc.map structDef) = (sizes acc args).map structDef := by
  induction args generalizing acc with
  | nil => rfl
  | cons a r ih =>
    rw [List.foldl_cons, sizes]
    cases hs : a.size with
    | none => simp only [addDef, hs]; exact ih acc
    | some n =>
      simp only [addDef, hs]
      by_cases hn : n ∈ acc
      · have : (acc.map structDef).contains (structDef n) = true := by simpa using ⟨n, hn, rfl⟩
        rw [if_pos this, if_pos hn]
        exact ih acc
      · have : ¬ (acc.map structDef).contains (structDef n) = true := by
          simp only [List.contains_eq_mem, List.mem_map, decide_eq_true_eq, not_exists, not_and]
          intro m hm he
          exact hn (structDef_inj he ▸ hm)
        rw [if_neg this, if_neg hn]
        have := ih (acc ++ [n])
        rwa [List.map_append] at this

theorem structDefs_eq (args : List Arg) : structDefs args = (sizes [] args).map structDef := foldl_addDef [] args

/-- How an argument is passed. -/
def pass (a : Arg) : CType × CVal :=
  match a.ty, a.size with
  | .pointer, some n => (.struct (argName n), .load (argName n) a.value)
  | .pointer, none => (.voidPtr, .address a.value)
  | .integer, _ => (.ulong, .literal a.value)
  | .float, _ => (.double, .literal a.value)
  | .bool, _ => (.int, .literal (if isTrue a.value then chars! "1" else chars! "0"))

theorem pass_type (a : Arg) : (pass a).1.text = argType a := by
  unfold pass argType
  split <;> simp_all [CType.text, argStruct, argName]

theorem pass_value (a : Arg) : (pass a).2.text = argValue a := by
  unfold pass argValue
  split <;> simp_all [CVal.text, argStruct, argName]

/-- The structures defined. -/
def defsOf (args : List Arg) (ret : Option Nat) : List (Str × Nat) :=
  (sizes [] args).map (fun n => (argName n, n)) ++ ret.toList.map fun n => (retName n, n)

theorem join_defs (ns : List Nat) :
    joinWith (chars! "; ") (ns.map structDef) ++ (if (ns.map structDef).isEmpty then [] else chars! "; ") =
      (ns.map fun n => (argName n, n)).flatMap defText := by
  induction ns with
  | nil => rfl
  | cons n r ih =>
    cases r with
    | nil => simp [joinWith, defText, structDef, argStruct, argName]
    | cons m r =>
      simp only [List.map_cons, joinWith, List.flatMap_cons, List.isEmpty_cons, Bool.false_eq_true, if_false] at ih ⊢
      rw [← ih]
      simp [defText, structDef, argStruct, argName]

theorem join_append {sep : Str} (xs : List Str) (y : Str) :
    joinWith sep (xs ++ [y]) = joinWith sep xs ++ (if xs.isEmpty then [] else sep) ++ y := by
  induction xs with
  | nil => simp [joinWith]
  | cons x r ih =>
    cases r with
    | nil => simp [joinWith]
    | cons z r =>
      simp only [List.cons_append, joinWith, List.isEmpty_cons, Bool.false_eq_true, if_false] at ih ⊢
      rw [ih]
      simp

/-- The text of the call is the expression. -/
theorem callText_eq (args : List Arg) (cargs : List (CType × CVal)) (address : Nat) (ret : Option Nat) :
    callText (cargs.map (·.2.text)) (structDefs args) (paramText (cargs.map (·.1))) address ret =
      (CCall.mk (defsOf args ret) (ret.map retName) address cargs).text := by
  rw [structDefs_eq]
  cases ret with
  | none =>
    have := join_defs (sizes [] args)
    simp only [callText, CCall.text, defsOf, Option.map_none, Option.toList_none, List.map_nil, List.append_nil]
    rw [← this]
    simp
  | some n =>
    have := join_defs (sizes [] args)
    simp only [callText, CCall.text, defsOf, Option.map_some, Option.toList_some, List.map_cons, List.map_nil, List.flatMap_append,
      List.flatMap_cons, List.flatMap_nil, List.append_nil]
    rw [join_append, ← this]
    simp [defText, retName]

theorem defs_wf (args : List Arg) (ret : Option Nat) : ((defsOf args ret).map (·.1)).Nodup := by
  have h := sizes_nodup [] args List.nodup_nil
  have h1 : (((sizes [] args).map fun n => (argName n, n)).map (·.1)).Nodup := by
    rw [List.map_map]
    exact List.Nodup.map (fun m n e => argName_inj e) h
  rw [defsOf, List.map_append]
  cases ret with
  | none => simpa using h1
  | some n =>
    refine List.nodup_append.2 ⟨h1, by simp, ?_⟩
    intro x hx y hy he
    simp only [Option.toList_some, List.map_cons, List.map_nil, List.mem_singleton] at hy
    simp only [List.map_map, List.mem_map, Function.comp] at hx
    obtain ⟨m, _, rfl⟩ := hx
    exact argName_ret m n (he.trans hy)

theorem pass_passes {args : List Arg} {ret : Option Nat} {a : Arg} (ha : a ∈ args) : Passes (defsOf args ret) a (pass a) := by
  unfold Passes pass
  cases ht : a.ty with
  | pointer =>
    cases hs : a.size with
    | none => rfl
    | some n =>
      exact ⟨argName n, List.mem_append_left _ (List.mem_map.2 ⟨n, sizes_mem [] args ha hs, rfl⟩), rfl⟩
  | integer => rfl
  | float => rfl
  | bool =>
    refine ⟨rfl, ?_, ?_⟩
    · rintro (h | h) <;> rw [h] <;> rfl
    · rintro (h | h) <;> rw [h] <;> rfl

theorem forall2_pass {args : List Arg} {ret : Option Nat} (l : List Arg) (h : ∀ a ∈ l, a ∈ args) :
    List.Forall₂ (Passes (defsOf args ret)) l (l.map pass) := by
  induction l with
  | nil => exact .nil
  | cons a r ih => exact .cons (pass_passes (h a (by simp))) (ih fun b hb => h b (by simp [hb]))

theorem arg_defined {args : List Arg} {ret : Option Nat} {n : Nat} (h : n ∈ sizes [] args) :
    argName n ∈ (defsOf args ret).map (·.1) := by
  rw [defsOf, List.map_append, List.map_map]
  exact List.mem_append_left _ (List.mem_map.2 ⟨n, h, rfl⟩)

theorem pass_struct {a : Arg} {s : Str} {v : CVal} (h : pass a = (.struct s, v)) : ∃ n, a.size = some n ∧ s = argName n := by
  unfold pass at h
  split at h <;> simp_all

theorem pass_load {a : Arg} {t : CType} {s x : Str} (h : pass a = (t, .load s x)) : ∃ n, a.size = some n ∧ s = argName n := by
  unfold pass at h
  split at h <;> simp_all

theorem call_wf (args : List Arg) (self : List (CType × CVal)) (hself : ∀ p ∈ self, p.1 = .voidPtr ∧ ∀ n x, p.2 ≠ .load n x)
    (address : Nat) (ret : Option Nat) :
    (CCall.mk (defsOf args ret) (ret.map retName) address (self ++ args.map pass)).WellFormed where
  once := defs_wf args ret
  params := by
    intro n v h
    rcases List.mem_append.1 h with h | h
    · exact absurd (hself _ h).1 (by simp)
    · obtain ⟨a, ha, he⟩ := List.mem_map.1 h
      obtain ⟨m, hm, rfl⟩ := pass_struct he
      exact arg_defined (sizes_mem [] args ha hm)
  loads := by
    intro t n x h
    rcases List.mem_append.1 h with h | h
    · exact absurd rfl ((hself _ h).2 n x)
    · obtain ⟨a, ha, he⟩ := List.mem_map.1 h
      obtain ⟨m, hm, rfl⟩ := pass_load he
      exact arg_defined (sizes_mem [] args ha hm)
  result := by
    intro n h
    cases ret with
    | none => simp at h
    | some m =>
      simp only [Option.map_some, Option.some.injEq] at h
      subst h
      simp [defsOf]

theorem returns (args : List Arg) (cargs : List (CType × CVal)) (address : Nat) (ret : Option Nat) :
    Returns (CCall.mk (defsOf args ret) (ret.map retName) address cargs) ret := by
  cases ret with
  | none => rfl
  | some n => exact ⟨retName n, rfl, by simp [defsOf]⟩

/-! ### The expression determines the call -/

/-- Texts up to a character that occurs in neither. -/
theorem cut_at {c : Char} {x x' r r' : Str} (h : c ∉ x) (h' : c ∉ x') (e : x ++ c :: r = x' ++ c :: r') : x = x' ∧ r = r' := by
  induction x generalizing x' with
  | nil =>
    cases x' with
    | nil => simpa using e
    | cons a x' =>
      simp only [List.nil_append, List.cons_append, List.cons.injEq] at e
      exact absurd (e.1 ▸ List.mem_cons_self) h'
  | cons a x ih =>
    cases x' with
    | nil =>
      simp only [List.nil_append, List.cons_append, List.cons.injEq] at e
      exact absurd (e.1 ▸ List.mem_cons_self) h
    | cons b x' =>
      simp only [List.cons_append, List.cons.injEq] at e
      have := ih (fun m => h (List.mem_cons_of_mem _ m)) (fun m => h' (List.mem_cons_of_mem _ m)) e.2
      exact ⟨by rw [e.1, this.1], this.2⟩

theorem name_not {n : Str} (h : Name n) {c : Char} (hc : isWord c = false) : c ∉ n := fun m => by simp [h c m] at hc

theorem digits_not (n : Nat) {c : Char} (hc : isDigit c = false) : c ∉ natStr n := fun m => by simp [natStr_digits n c m] at hc

theorem defText_cancel {d d' : Str × Nat} (h : Name d.1) (h' : Name d'.1) {r r' : Str} (e : defText d ++ r = defText d' ++ r') :
    d = d' ∧ r = r' := by
  obtain ⟨n, k⟩ := d
  obtain ⟨n', k'⟩ := d'
  have e1 : n ++ ' ' :: (chars! "{ unsigned char bytes[" ++ (natStr k ++ ']' :: (chars! "; }; " ++ r))) =
      n' ++ ' ' :: (chars! "{ unsigned char bytes[" ++ (natStr k' ++ ']' :: (chars! "; }; " ++ r'))) := by
    simpa [defText] using e
  obtain ⟨hn, e2⟩ := cut_at (name_not h (by decide)) (name_not h' (by decide)) e1
  have e3 := List.append_cancel_left e2
  obtain ⟨hk, e4⟩ := cut_at (digits_not k (by decide)) (digits_not k' (by decide)) e3
  exact ⟨Prod.ext hn (natStr_inj hk), List.append_cancel_left e4⟩

theorem defs_cancel {ds ds' : List (Str × Nat)} (h : ∀ d ∈ ds, Name d.1) (h' : ∀ d ∈ ds', Name d.1) {r r' : Str}
    (hr : r.head? ≠ some 's') (hr' : r'.head? ≠ some 's') (e : ds.flatMap defText ++ r = ds'.flatMap defText ++ r') : ds = ds' ∧ r = r' := by
  induction ds generalizing ds' with
  | nil =>
    cases ds' with
    | nil => exact ⟨rfl, by simpa using e⟩
    | cons d' ds' => exact absurd (by rw [show r = _ from e]; rfl) hr
  | cons d ds ih =>
    cases ds' with
    | nil => exact absurd (by rw [show r' = _ from e.symm]; rfl) hr'
    | cons d' ds' =>
      simp only [List.flatMap_cons, List.append_assoc] at e
      obtain ⟨hd, e1⟩ := defText_cancel (h d (by simp)) (h' d' (by simp)) e
      obtain ⟨hds, e2⟩ := ih (fun x hx => h x (by simp [hx])) (fun x hx => h' x (by simp [hx])) e1
      exact ⟨by rw [hd, hds], e2⟩

/-- Lists of the same length are determined by the text of their elements, if these contain no comma. -/
theorem join_inj {xs ys : List Str} (hx : ∀ x ∈ xs, ',' ∉ x) (hy : ∀ y ∈ ys, ',' ∉ y) (hn : xs ≠ []) (hn' : ys ≠ [])
    (e : joinWith (chars! ", ") xs = joinWith (chars! ", ") ys) : xs = ys := by
  induction xs generalizing ys with
  | nil => exact absurd rfl hn
  | cons x xs ih =>
    cases ys with
    | nil => exact absurd rfl hn'
    | cons y ys =>
      cases xs with
      | nil =>
        cases ys with
        | nil => simpa [joinWith] using e
        | cons y2 ys =>
          have : ',' ∈ x := by
            have e1 : x = y ++ ',' :: ' ' :: joinWith (chars! ", ") (y2 :: ys) := by simpa [joinWith] using e
            rw [e1]; simp
          exact absurd this (hx x (by simp))
      | cons x2 xs =>
        cases ys with
        | nil =>
          have : ',' ∈ y := by
            have e1 : y = x ++ ',' :: ' ' :: joinWith (chars! ", ") (x2 :: xs) := by simpa [joinWith] using e.symm
            rw [e1]; simp
          exact absurd this (hy y (by simp))
        | cons y2 ys =>
          have e1 : x ++ ',' :: (' ' :: joinWith (chars! ", ") (x2 :: xs)) = y ++ ',' :: (' ' :: joinWith (chars! ", ") (y2 :: ys)) := by
            simpa [joinWith] using e
          obtain ⟨h1, h2⟩ := cut_at (hx x (by simp)) (hy y (by simp)) e1
          rw [h1, ih (fun z hz => hx z (by simp [hz])) (fun z hz => hy z (by simp [hz])) (by simp) (by simp) (List.cons.inj h2).2]

theorem digitChar_inj {a b : Nat} (ha : a < 16) (hb : b < 16) (h : a.digitChar = b.digitChar) : a = b := by
  have : ∀ a < 16, ∀ b < 16, a.digitChar = b.digitChar → a = b := by decide
  exact this a ha b hb h

theorem hex_inj (m : Nat) : ∀ n, Nat.toDigits 16 m = Nat.toDigits 16 n → m = n := by
  induction m using Nat.strongRecOn with
  | ind m ih =>
    intro n h
    have len : ∀ k, 16 ≤ k → ∃ c l, Nat.toDigits 16 k = c :: l ∧ l ≠ [] := by
      intro k hk
      rw [Nat.toDigits_of_base_le (by decide) hk]
      cases hq : Nat.toDigits 16 (k / 16) with
      | nil => exact absurd hq Nat.toDigits_ne_nil
      | cons c l => exact ⟨c, l ++ [(k % 16).digitChar], by simp, by simp⟩
    by_cases hm : m < 16
    · by_cases hn : n < 16
      · rw [Nat.toDigits_of_lt_base hm, Nat.toDigits_of_lt_base hn] at h
        exact digitChar_inj hm hn (List.cons.inj h).1
      · obtain ⟨c, l, hl, hne⟩ := len n (Nat.not_lt.1 hn)
        rw [Nat.toDigits_of_lt_base hm, hl] at h
        exact absurd (List.cons.inj h).2.symm hne
    · by_cases hn : n < 16
      · obtain ⟨c, l, hl, hne⟩ := len m (Nat.not_lt.1 hm)
        rw [Nat.toDigits_of_lt_base hn, hl] at h
        exact absurd (List.cons.inj h).2 hne
      · rw [Nat.toDigits_of_base_le (by decide) (Nat.not_lt.1 hm), Nat.toDigits_of_base_le (by decide) (Nat.not_lt.1 hn)] at h
        obtain ⟨h1, h2⟩ := List.append_inj' h rfl
        have e1 := ih (m / 16) (by omega) _ h1
        have e2 := digitChar_inj (Nat.mod_lt _ (by decide)) (Nat.mod_lt _ (by decide)) (List.cons.inj h2).1
        omega

theorem hexStr_inj {m n : Nat} (h : hexStr m = hexStr n) : m = n := hex_inj m n (List.append_cancel_left h)

theorem digitChar_not {n : Nat} (hn : n < 16) : n.digitChar ≠ ')' ∧ n.digitChar ≠ ',' ∧ n.digitChar ≠ '(' ∧ n.digitChar ≠ '*' := by
  have : ∀ n < 16, n.digitChar ≠ ')' ∧ n.digitChar ≠ ',' ∧ n.digitChar ≠ '(' ∧ n.digitChar ≠ '*' := by decide
  exact this n hn

theorem hex_plain (n : Nat) : ∀ c ∈ Nat.toDigits 16 n, c ≠ ')' ∧ c ≠ ',' ∧ c ≠ '(' ∧ c ≠ '*' := by
  induction n using Nat.strongRecOn with
  | ind n ih =>
    intro c hc
    by_cases hn : n < 16
    · rw [Nat.toDigits_of_lt_base hn, List.mem_singleton] at hc
      exact hc ▸ digitChar_not hn
    · rw [Nat.toDigits_of_base_le (by decide) (Nat.not_lt.1 hn)] at hc
      rcases List.mem_append.1 hc with hc | hc
      · exact ih _ (by omega) c hc
      · rw [List.mem_singleton] at hc
        exact hc ▸ digitChar_not (Nat.mod_lt _ (by decide))

theorem hexStr_plain (n : Nat) : Plain (hexStr n) := by
  intro c hc
  rcases List.mem_append.1 hc with hc | hc
  · have : ∀ c ∈ chars! "0x", c ≠ ',' ∧ c ≠ '(' ∧ c ≠ ')' ∧ c ≠ '*' := by decide
    exact this c hc
  · have := hex_plain n c hc
    exact ⟨this.2.1, this.2.2.1, this.1, this.2.2.2⟩

/-- The text of a type has no comma and no parenthesis. -/
theorem type_text {t : CType} (h : ∀ n, t = .struct n → Name n) : ',' ∉ t.text ∧ ')' ∉ t.text := by
  cases t with
  | struct n =>
    have hn := h n rfl
    have h1 := name_not hn (c := ',') (by decide)
    have h2 := name_not hn (c := ')') (by decide)
    simp [CType.text, h1, h2]
  | voidPtr => decide
  | ulong => decide
  | int => decide
  | double => decide

theorem type_inj {t t' : CType} (e : t.text = t'.text) : t = t' := by
  cases t <;> cases t' <;> first
    | rfl
    | (rename_i a b; exact congrArg CType.struct (List.append_cancel_left e))
    | exact absurd (congrArg List.head? e) (by decide)
    | (exfalso; have := congrArg List.head? e; simp [CType.text] at this)

theorem join_mem {xs : List Str} {sep : Str} {c : Char} (h : c ∈ joinWith sep xs) : c ∈ sep ∨ ∃ x ∈ xs, c ∈ x := by
  induction xs with
  | nil => simp [joinWith] at h
  | cons x xs ih =>
    cases xs with
    | nil => exact .inr ⟨x, by simp, by simpa [joinWith] using h⟩
    | cons y ys =>
      simp only [joinWith, List.mem_append] at h
      rcases h with (h | h) | h
      · exact .inr ⟨x, by simp, h⟩
      · exact .inl h
      · rcases ih h with h | ⟨z, hz, hc⟩
        · exact .inl h
        · exact .inr ⟨z, by simp [hz], hc⟩

theorem param_text {ts : List CType} (h : ∀ t ∈ ts, ∀ n, t = .struct n → Name n) : ')' ∉ paramText ts := by
  unfold paramText
  split
  · decide
  · intro hc
    rcases join_mem hc with hc | ⟨x, hx, hc⟩
    · revert hc; decide
    · obtain ⟨t, ht, rfl⟩ := List.mem_map.1 hx
      exact (type_text (h t ht)).2 hc

theorem param_inj {ts ts' : List CType} (h : ∀ t ∈ ts, ∀ n, t = .struct n → Name n) (h' : ∀ t ∈ ts', ∀ n, t = .struct n → Name n)
    (e : paramText ts = paramText ts') : ts = ts' := by
  have nv : ∀ us : List CType, us ≠ [] → joinWith (chars! ", ") (us.map CType.text) ≠ chars! "void" := by
    intro us hu hj
    cases us with
    | nil => exact hu rfl
    | cons u us =>
      cases us with
      | nil =>
        simp only [List.map_cons, List.map_nil, joinWith] at hj
        cases u with
        | struct n => exact absurd (congrArg List.head? hj) (by simp [CType.text])
        | voidPtr => exact absurd hj (by decide)
        | ulong => exact absurd hj (by decide)
        | int => exact absurd hj (by decide)
        | double => exact absurd hj (by decide)
      | cons v us =>
        have : ',' ∈ chars! "void" := by
          rw [← hj]; simp [joinWith]
        exact absurd this (by decide)
  have inj : ∀ {us us' : List CType}, us.map CType.text = us'.map CType.text → us = us' := by
    intro us us' hu
    exact List.map_injective_iff.2 (fun _ _ => type_inj) hu
  unfold paramText at e
  cases ts with
  | nil =>
    cases ts' with
    | nil => rfl
    | cons t' ts' => exact absurd e.symm (nv _ (by simp))
  | cons t ts =>
    cases ts' with
    | nil => exact absurd e (nv _ (by simp))
    | cons t' ts' =>
      refine inj (join_inj ?_ ?_ (by simp) (by simp) e)
      · intro x hx
        obtain ⟨t, ht, rfl⟩ := List.mem_map.1 hx
        exact (type_text (h t ht)).1
      · intro x hx
        obtain ⟨t, ht, rfl⟩ := List.mem_map.1 hx
        exact (type_text (h' t ht)).1

/-- A value with plain texts. -/
def CVal.Clean : CVal → Prop
  | .literal x => Plain x
  | .address x => Plain x
  | .load n x => Name n ∧ Plain x

theorem value_comma {v : CVal} (h : v.Clean) : ',' ∉ v.text := by
  cases v with
  | literal x => exact fun m => (h _ m).1 rfl
  | address x =>
    have : ',' ∉ x := fun m => (h _ m).1 rfl
    simp [CVal.text, this]
  | load n x =>
    have h1 : ',' ∉ x := fun m => (h.2 _ m).1 rfl
    have h2 := name_not h.1 (c := ',') (by decide)
    simp [CVal.text, h1, h2]

theorem value_inj {v v' : CVal} (h : v.Clean) (h' : v'.Clean) (e : v.text = v'.text) : v = v' := by
  have head : ∀ x : Str, Plain x → ∀ c r, x = c :: r → c ≠ '(' ∧ c ≠ '*' := by
    intro x hx c r hr
    have := hx c (by rw [hr]; simp)
    exact ⟨this.2.1, this.2.2.2⟩
  cases v with
  | literal x =>
    cases v' with
    | literal y => exact congrArg CVal.literal e
    | address y => exact absurd rfl (head x h '(' _ e).1
    | load n y =>
      have e : x = _ := e
      simp only [CVal.text, List.cons_append] at e
      exact absurd rfl (head x h '*' _ e).2
  | address x =>
    cases v' with
    | literal y => exact absurd rfl (head y h' '(' _ e.symm).1
    | address y => exact congrArg CVal.address (List.append_cancel_left e)
    | load n y => exact absurd (congrArg List.head? e) (by simp [CVal.text])
  | load n x =>
    cases v' with
    | literal y =>
      have e : _ = y := e
      simp only [CVal.text, List.cons_append] at e
      exact absurd rfl (head y h' '*' _ e.symm).2
    | address y => exact absurd (congrArg List.head? e) (by simp [CVal.text])
    | load m y =>
      have e1 : n ++ '*' :: (')' :: (x ++ [')'])) = m ++ '*' :: (')' :: (y ++ [')'])) := by simpa [CVal.text] using e
      obtain ⟨h1, h2⟩ := cut_at (name_not h.1 (by decide)) (name_not h'.1 (by decide)) e1
      rw [h1, List.append_cancel_right (List.cons.inj h2).2]

theorem values_inj {vs vs' : List CVal} (h : ∀ v ∈ vs, v.Clean) (h' : ∀ v ∈ vs', v.Clean) (hl : vs.length = vs'.length)
    (e : joinWith (chars! ", ") (vs.map CVal.text) = joinWith (chars! ", ") (vs'.map CVal.text)) : vs = vs' := by
  have inj : ∀ {us us' : List CVal}, (∀ v ∈ us, v.Clean) → (∀ v ∈ us', v.Clean) → us.map CVal.text = us'.map CVal.text → us = us' := by
    intro us
    induction us with
    | nil => intro us' _ _ hu; cases us' with
      | nil => rfl
      | cons _ _ => simp at hu
    | cons u us ih =>
      intro us' h1 h2 hu
      cases us' with
      | nil => simp at hu
      | cons u' us' =>
        simp only [List.map_cons, List.cons.injEq] at hu
        rw [value_inj (h1 u (by simp)) (h2 u' (by simp)) hu.1, ih (fun v hv => h1 v (by simp [hv])) (fun v hv => h2 v (by simp [hv])) hu.2]
  cases vs with
  | nil => exact (List.length_eq_zero_iff.1 hl.symm).symm
  | cons v vs =>
    cases vs' with
    | nil => simp at hl
    | cons v' vs' =>
      refine inj h h' (join_inj ?_ ?_ (by simp) (by simp) e)
      · intro x hx
        obtain ⟨t, ht, rfl⟩ := List.mem_map.1 hx
        exact value_comma (h t ht)
      · intro x hx
        obtain ⟨t, ht, rfl⟩ := List.mem_map.1 hx
        exact value_comma (h' t ht)

theorem clean_types {c : CCall} (h : c.Clean) : ∀ t ∈ c.args.map (·.1), ∀ n, t = .struct n → Name n := by
  intro t ht n hn
  obtain ⟨⟨u, v⟩, hm, rfl⟩ := List.mem_map.1 ht
  exact h.types n v (hn ▸ hm)

theorem clean_values {c : CCall} (h : c.Clean) : ∀ v ∈ c.args.map (·.2), v.Clean := by
  intro v hv
  obtain ⟨⟨u, w⟩, hm, rfl⟩ := List.mem_map.1 hv
  cases w with
  | literal x => exact h.literals u x hm
  | address x => exact h.addresses u x hm
  | load n x => exact h.loads u n x hm

theorem args_ext {as bs : List (CType × CVal)} (h1 : as.map (·.1) = bs.map (·.1)) (h2 : as.map (·.2) = bs.map (·.2)) : as = bs := by
  induction as generalizing bs with
  | nil => cases bs with
    | nil => rfl
    | cons _ _ => simp at h1
  | cons a as ih => cases bs with
    | nil => simp at h1
    | cons b bs =>
      simp only [List.map_cons, List.cons.injEq] at h1 h2
      rw [ih h1.2 h2.2, Prod.ext h1.1 h2.1]

/-- C71: the expression says which call it is: the address, the types, the values and the result. -/
theorem C71_unambiguous {c c' : CCall} (h : c.Clean) (h' : c'.Clean) (e : c.text = c'.text) : c = c' := by
  have tail : ∀ (as as' : List (CType × CVal)) (a a' : Nat) (z : Str), (∀ t ∈ as.map (·.1), ∀ n, t = .struct n → Name n) →
      (∀ t ∈ as'.map (·.1), ∀ n, t = .struct n → Name n) → (∀ v ∈ as.map (·.2), v.Clean) → (∀ v ∈ as'.map (·.2), v.Clean) →
      paramText (as.map (·.1)) ++ ')' :: (')' :: (hexStr a ++ ')' :: ('(' :: (joinWith (chars! ", ") (as.map (·.2.text)) ++ z)))) =
      paramText (as'.map (·.1)) ++ ')' :: (')' :: (hexStr a' ++ ')' :: ('(' :: (joinWith (chars! ", ") (as'.map (·.2.text)) ++ z)))) →
      as = as' ∧ a = a' := by
    intro as as' a a' z h1 h2 h3 h4 e
    obtain ⟨e1, e2⟩ := cut_at (param_text h1) (param_text h2) e
    obtain ⟨e3, e4⟩ := cut_at (fun m => (hexStr_plain a _ m).2.2.1 rfl) (fun m => (hexStr_plain a' _ m).2.2.1 rfl) (List.cons.inj e2).2
    have e5 := List.append_cancel_right (List.cons.inj e4).2
    have ht := param_inj h1 h2 e1
    have hl : (as.map (·.2)).length = (as'.map (·.2)).length := by
      have := congrArg List.length ht
      simpa using this
    have hv := values_inj h3 h4 hl (by simpa [List.map_map, Function.comp_def] using e5)
    exact ⟨args_ext ht hv, hexStr_inj e3⟩
  obtain ⟨ds, r, a, as⟩ := c
  obtain ⟨ds', r', a', as'⟩ := c'
  have ht := clean_types h
  have ht' := clean_types h'
  have hv := clean_values h
  have hv' := clean_values h'
  cases r with
  | none =>
    cases r' with
    | none =>
      obtain ⟨hd, e1⟩ := defs_cancel h.defs h'.defs (by simp) (by simp) e
      have e2 : chars! "((unsigned long (*)(" ++ (paramText (as.map (·.1)) ++ ')' :: (')' :: (hexStr a ++ ')' :: ('(' :: (joinWith (chars! ", ") (as.map (·.2.text)) ++ chars! ")"))))) =
        chars! "((unsigned long (*)(" ++ (paramText (as'.map (·.1)) ++ ')' :: (')' :: (hexStr a' ++ ')' :: ('(' :: (joinWith (chars! ", ") (as'.map (·.2.text)) ++ chars! ")"))))) := by
        simpa using e1
      obtain ⟨h1, h2⟩ := tail _ _ _ _ _ ht ht' hv hv' (List.append_cancel_left e2)
      cases hd; cases h1; cases h2; rfl
    | some n' =>
      obtain ⟨_, e1⟩ := defs_cancel h.defs h'.defs (by simp) (by simp) e
      exact absurd (congrArg List.head? e1) (by simp)
  | some n =>
    cases r' with
    | none =>
      obtain ⟨_, e1⟩ := defs_cancel h.defs h'.defs (by simp) (by simp) e
      exact absurd (congrArg List.head? e1) (by simp)
    | some n' =>
      obtain ⟨hd, e1⟩ := defs_cancel h.defs h'.defs (by simp) (by simp) e
      have e2 : chars! "auto result = ((struct " ++ (n ++ ' ' :: (chars! "(*)(" ++ (paramText (as.map (·.1)) ++ ')' :: (')' :: (hexStr a ++ ')' :: ('(' :: (joinWith (chars! ", ") (as.map (·.2.text)) ++ chars! "); &result"))))))) =
        chars! "auto result = ((struct " ++ (n' ++ ' ' :: (chars! "(*)(" ++ (paramText (as'.map (·.1)) ++ ')' :: (')' :: (hexStr a' ++ ')' :: ('(' :: (joinWith (chars! ", ") (as'.map (·.2.text)) ++ chars! "); &result"))))))) := by
        simpa using e1
      obtain ⟨hn, e3⟩ := cut_at (name_not (h.ret n rfl) (by decide)) (name_not (h'.ret n' rfl) (by decide)) (List.append_cancel_left e2)
      obtain ⟨h1, h2⟩ := tail _ _ _ _ _ ht ht' hv hv' (List.append_cancel_left e3)
      cases hd; cases hn; cases h1; cases h2; rfl

theorem name_of_digits (n : Nat) : Name (natStr n) := fun c hc => by
  simp [isWord, natStr_digits n c hc]

theorem argName_name (n : Nat) : Name (argName n) := by
  intro c hc
  rcases List.mem_append.1 hc with hc | hc
  · have : ∀ c ∈ chars! "Arg_", isWord c = true := by decide
    exact this c hc
  · exact name_of_digits n c hc

theorem retName_name (n : Nat) : Name (retName n) := by
  intro c hc
  rcases List.mem_append.1 hc with hc | hc
  · have : ∀ c ∈ chars! "ReturnBuffer_", isWord c = true := by decide
    exact this c hc
  · exact name_of_digits n c hc

theorem pass_literal {a : Arg} {t : CType} {x : Str} (h : pass a = (t, .literal x)) : x = a.value ∨ x = chars! "1" ∨ x = chars! "0" := by
  unfold pass at h
  split at h
  · simp at h
  · simp at h
  · simp at h; exact .inl h.2.symm
  · simp at h; exact .inl h.2.symm
  · simp only [Prod.mk.injEq, CVal.literal.injEq] at h
    right
    rw [← h.2]
    split <;> simp

theorem pass_address {a : Arg} {t : CType} {x : Str} (h : pass a = (t, .address x)) : x = a.value := by
  unfold pass at h
  split at h <;> simp_all

theorem pass_load_text {a : Arg} {t : CType} {s x : Str} (h : pass a = (t, .load s x)) : x = a.value := by
  unfold pass at h
  split at h <;> simp_all

theorem call_clean (args : List Arg) (self : List (CType × CVal)) (address : Nat) (ret : Option Nat) (h : ∀ a ∈ args, Plain a.value)
    (hself : ∀ p ∈ self, p.1 = .voidPtr ∧ ∃ x, p.2 = .address x ∧ Plain x) :
    (CCall.mk (defsOf args ret) (ret.map retName) address (self ++ args.map pass)).Clean where
  defs := by
    intro d hd
    rcases List.mem_append.1 hd with hd | hd
    · obtain ⟨n, _, rfl⟩ := List.mem_map.1 hd
      exact argName_name n
    · obtain ⟨n, _, rfl⟩ := List.mem_map.1 hd
      exact retName_name n
  ret := by
    intro n hn
    obtain ⟨m, _, rfl⟩ := Option.map_eq_some_iff.1 hn
    exact retName_name m
  types := by
    intro n v hm
    rcases List.mem_append.1 hm with hm | hm
    · exact absurd (hself _ hm).1 (by simp)
    · obtain ⟨a, ha, he⟩ := List.mem_map.1 hm
      obtain ⟨m, _, rfl⟩ := pass_struct he
      exact argName_name m
  literals := by
    intro t x hm
    rcases List.mem_append.1 hm with hm | hm
    · obtain ⟨_, y, hy, _⟩ := hself _ hm
      simp at hy
    · obtain ⟨a, ha, he⟩ := List.mem_map.1 hm
      rcases pass_literal he with e | e | e
      · exact e ▸ h a ha
      · rw [e]; unfold Plain; decide
      · rw [e]; unfold Plain; decide
  addresses := by
    intro t x hm
    rcases List.mem_append.1 hm with hm | hm
    · obtain ⟨_, y, hy, hp⟩ := hself _ hm
      simp only [CVal.address.injEq] at hy
      exact hy ▸ hp
    · obtain ⟨a, ha, he⟩ := List.mem_map.1 hm
      exact pass_address he ▸ h a ha
  loads := by
    intro t n x hm
    rcases List.mem_append.1 hm with hm | hm
    · obtain ⟨_, y, hy, _⟩ := hself _ hm
      simp at hy
    · obtain ⟨a, ha, he⟩ := List.mem_map.1 hm
      obtain ⟨m, _, rfl⟩ := pass_load he
      exact ⟨argName_name m, pass_load_text he ▸ h a ha⟩

/-- C71: the expression for a function call is a call of that address with the arguments in order, each passed as its kind
requires, with every structure it uses defined exactly once and a result of the size asked for. -/
theorem C71_function (address : Nat) (args : List Arg) (ret : Option Nat) :
    ∃ c : CCall, functionExpr address args ret = c.text ∧ c.address = address ∧ c.WellFormed ∧
      List.Forall₂ (Passes c.defs) args c.args ∧ Returns c ret ∧ ((∀ a ∈ args, Plain a.value) → c.Clean) := by
  refine ⟨⟨defsOf args ret, ret.map retName, address, args.map pass⟩, ?_, rfl, call_wf args [] (by simp) address ret,
    forall2_pass args fun _ h => h, returns .., fun h => call_clean args [] address ret h (by simp)⟩
  rw [← callText_eq]
  simp only [functionExpr, paramText, List.map_map, Function.comp_def, pass_type, pass_value, List.isEmpty_map]

/-- C71: for a method the same, with the address of the object as the first argument. -/
theorem C71_method (address base : Nat) (args : List Arg) (ret : Option Nat) :
    ∃ c : CCall, ∃ rest, methodExpr address base args ret = c.text ∧ c.address = address ∧ c.WellFormed ∧
      c.args = (.voidPtr, .address (hexStr base)) :: rest ∧ List.Forall₂ (Passes c.defs) args rest ∧ Returns c ret ∧
      ((∀ a ∈ args, Plain a.value) → c.Clean) := by
  refine ⟨⟨defsOf args ret, ret.map retName, address, [(.voidPtr, .address (hexStr base))] ++ args.map pass⟩, args.map pass, ?_, rfl,
    call_wf args [(.voidPtr, .address (hexStr base))] (by simp) address ret, rfl, forall2_pass args fun _ h => h, returns ..,
    fun h => call_clean args [(.voidPtr, .address (hexStr base))] address ret h (by simpa using hexStr_plain base)⟩
  rw [← callText_eq]
  have h1 : (((CType.voidPtr, CVal.address (hexStr base)) :: args.map pass).map (·.2.text)) =
      (chars! "(void*)" ++ hexStr base) :: args.map argValue := by
    simp only [List.map_cons, List.map_map, Function.comp_def, pass_value]
    rfl
  have h2 : paramText (((CType.voidPtr, CVal.address (hexStr base)) :: args.map pass).map (·.1)) =
      joinWith (chars! ", ") (chars! "void*" :: args.map argType) := by
    simp only [List.map_cons, List.map_map, Function.comp_def, pass_type, paramText, List.isEmpty_cons, Bool.false_eq_true, if_false]
    rfl
  show methodExpr address base args ret = callText (((CType.voidPtr, CVal.address (hexStr base)) :: args.map pass).map (·.2.text)) _
    (paramText (((CType.voidPtr, CVal.address (hexStr base)) :: args.map pass).map (·.1))) _ _
  rw [h1, h2]
  rfl

/-- A call with two arguments of the same size, a number and a boolean. -/
def demoArgs : List Arg := [⟨chars! "0x10", .pointer, some 24⟩, ⟨chars! "7", .integer, none⟩, ⟨chars! "0x40", .pointer, some 24⟩,
  ⟨chars! "True", .bool, none⟩]

set_option maxRecDepth 8000 in
example : functionExpr 4096 demoArgs (some 8) = chars! "struct Arg_24 { unsigned char bytes[24]; }; struct ReturnBuffer_8 { unsigned char bytes[8]; }; auto result = ((struct ReturnBuffer_8 (*)(struct Arg_24, unsigned long, struct Arg_24, int))0x1000)(*((struct Arg_24*)0x10), 7, *((struct Arg_24*)0x40), 1); &result" := by
  with_unfolding_all rfl
example : methodExpr 16 32 [] none = chars! "((unsigned long (*)(void*))0x10)((void*)0x20)" := by decide
example : functionExpr 16 [] none = chars! "((unsigned long (*)(void))0x10)()" := by decide
example : ∀ a ∈ demoArgs, Plain a.value := by unfold Plain; decide

/-! ### Answers -/

/-- Where the result of a call is: LLDB's value for `&result` if it has one, or else the load address of that value, or else its
address. -/
inductive ResultAt : Nat → Option Nat → Option Nat → Option Nat → Prop where
  | value {v l ad} : v ≠ 0 → ResultAt v l ad (some v)
  | load {a ad} : ResultAt 0 (some a) ad (some a)
  | address {a} : ResultAt 0 none (some a) (some a)
  | nowhere : ResultAt 0 none none none

/-- C71: a call is answered with what LLDB found: the number, or the address of the result with the size that was asked
for; otherwise with an error. -/
theorem C71_answer (lldb : Str → Outcome) (e : Event) (a : Answer) (h : handleCall lldb e = some a) :
    ∃ text ret wrap, ((∃ address args, e = .executeFunction address args ret ∧ text = functionExpr address args ret ∧ wrap = Answer.function) ∨
        (∃ address base args, e = .executeMethod address base args ret ∧ text = methodExpr address base args ret ∧ wrap = Answer.method)) ∧
      ((∃ m, lldb text = .failed m ∧ a = .error []) ∨
       (∃ v l ad, lldb text = .value v l ad ∧ ret = none ∧ a = wrap (.simple v (chars! "usize"))) ∨
       (∃ v l ad n, lldb text = .value v l ad ∧ ret = some n ∧
          ((a = .error [] ∧ (ResultAt v l ad none ∨ ResultAt v l ad (some (2 ^ 64 - 1)))) ∨
           ∃ x, a = wrap (.complex x n (chars! "complex")) ∧ ResultAt v l ad (some x) ∧ x ≠ 2 ^ 64 - 1))) := by
  have where_ : ∀ v l ad, ResultAt v l ad (some (resultAddress v l ad)) ∨ (ResultAt v l ad none ∧ resultAddress v l ad = 2 ^ 64 - 1) := by
    intro v l ad
    unfold resultAddress
    by_cases hv : v = 0
    · subst hv
      cases l with
      | some x => exact .inl .load
      | none =>
        cases ad with
        | some x => exact .inl .address
        | none => exact .inr ⟨.nowhere, rfl⟩
    · rw [if_neg hv]; exact .inl (.value hv)
  cases e with
  | executeMethod address base args ret =>
    refine ⟨methodExpr address base args ret, ret, .method, .inr ⟨address, base, args, rfl, rfl, rfl⟩, ?_⟩
    simp only [handleCall] at h
    cases hl : lldb (methodExpr address base args ret) with
    | failed m =>
      rw [hl] at h
      exact .inl ⟨m, rfl, by simpa [callResult] using h.symm⟩
    | value v l ad =>
      rw [hl] at h
      cases ret with
      | none => exact .inr (.inl ⟨v, l, ad, rfl, rfl, by simpa [callResult] using h.symm⟩)
      | some n =>
        refine .inr (.inr ⟨v, l, ad, n, rfl, rfl, ?_⟩)
        simp only [callResult] at h
        by_cases hx : resultAddress v l ad ≠ invalidAddress
        · rw [if_pos hx] at h
          exact .inr ⟨_, by simpa using h.symm, (where_ v l ad).resolve_right (fun hw => hx hw.2), hx⟩
        · rw [if_neg hx] at h
          have hx' : resultAddress v l ad = 2 ^ 64 - 1 := Classical.byContradiction hx
          exact .inl ⟨by simpa using h.symm, (where_ v l ad).elim (fun hw => .inr (hx' ▸ hw)) (fun hw => .inl hw.1)⟩
  | executeFunction address args ret =>
    refine ⟨functionExpr address args ret, ret, .function, .inl ⟨address, args, rfl, rfl, rfl⟩, ?_⟩
    simp only [handleCall] at h
    cases hl : lldb (functionExpr address args ret) with
    | failed m =>
      rw [hl] at h
      exact .inl ⟨m, rfl, by simpa [callResult] using h.symm⟩
    | value v l ad =>
      rw [hl] at h
      cases ret with
      | none => exact .inr (.inl ⟨v, l, ad, rfl, rfl, by simpa [callResult] using h.symm⟩)
      | some n =>
        refine .inr (.inr ⟨v, l, ad, n, rfl, rfl, ?_⟩)
        simp only [callResult] at h
        by_cases hx : resultAddress v l ad ≠ invalidAddress
        · rw [if_pos hx] at h
          exact .inr ⟨_, by simpa using h.symm, (where_ v l ad).resolve_right (fun hw => hx hw.2), hx⟩
        · rw [if_neg hx] at h
          have hx' : resultAddress v l ad = 2 ^ 64 - 1 := Classical.byContradiction hx
          exact .inl ⟨by simpa using h.symm, (where_ v l ad).elim (fun hw => .inr (hx' ▸ hw)) (fun hw => .inl hw.1)⟩
  | _ => simp [handleCall] at h

example : handleCall (fun _ => .value 4096 none none) (.executeFunction 16 [] (some 24)) = some (.function (.complex 4096 24 (chars! "complex"))) := by
  with_unfolding_all rfl

end Rudy.Calls
