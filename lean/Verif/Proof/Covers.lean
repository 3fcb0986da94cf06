import Verif.Proof.Strict
/-
A memory that has all that another one has, and perhaps more: what is read from the one is read from the other too. Used for C105.
-/
set_option linter.unusedSimpArgs false
set_option linter.unusedVariables false
namespace Rudy.Shown
open Rudy Rudy.Layout Rudy.Data Rudy.Eval

/-- Specification: `T'` answers every read of memory that `T` answers, with the same bytes. -/
structure Covers (T' T : Target) : Prop where
  read : ∀ a n bs, T.read a n = some bs → T'.read a n = some bs
  resolve : T'.resolve = T.resolve
  lossy : T'.lossy = T.lossy
  floatStr : T'.floatStr = T.floatStr

/-- If `x` succeeds, so does `y`, with the same result. -/
def Below {α : Type} (x y : Res α) : Prop := ∀ v, x = .ok v → y = .ok v

namespace Below
variable {α β : Type}

theorem refl (x : Res α) : Below x x := fun _ h => h

theorem bind {x y : Res α} {f g : α → Res β} (h : Below x y) (hf : ∀ a, Below (f a) (g a)) : Below (x.bind f) (y.bind g) := by
  intro v hv
  rw [Res.bind_eq_ok] at hv ⊢
  obtain ⟨a, h1, h2⟩ := hv
  exact ⟨a, h a h1, hf a v h2⟩

end Below

/-- Steps that are the same on both sides. -/
macro "below" : tactic => `(tactic| repeat' first | exact Below.refl _ | assumption | refine Below.bind ?_ ?_ | split | intro _)

namespace Covers
variable {T' T : Target} (h : Covers T' T)
include h

theorem readE (a n : Nat) : Below (T.readE a n) (T'.readE a n) := by
  intro v hv
  unfold Target.readE at *
  cases hr : T.read a n with
  | none => rw [hr] at hv; cases hv
  | some bs => rw [h.read _ _ _ hr]; rw [hr] at hv; exact hv

theorem readExact (a n : Nat) : Below (T.readExact a n) (T'.readExact a n) := by
  have := h.readE a n
  unfold Target.readExact; below

theorem readNat (a n : Nat) : Below (T.readNat a n) (T'.readNat a n) := by
  have := h.readExact a n
  unfold Target.readNat; below

theorem readAddress (a : Nat) : Below (T.readAddress a) (T'.readAddress a) := by
  have := h.readE a 8
  unfold Target.readAddress; below

theorem readLen (a : Nat) : Below (T.readLen a) (T'.readLen a) := by
  have := h.readE a 8
  unfold Target.readLen; below

theorem resolveAt (o : Option Nat) : T'.resolveAt o = T.resolveAt o := by
  cases o with
  | none => rfl
  | some e => simp only [Target.resolveAt, h.resolve]

theorem resolveAlias (t : TypeDef) : T'.resolveAlias t = T.resolveAlias t := by
  unfold Target.resolveAlias; simp only [h.resolveAt]

theorem btreeEdge (base : Option Nat) {sub sub' : Nat → Res (List (Nat × Nat))} (hs : ∀ e, Below (sub e) (sub' e)) (i : Nat) :
    Below (Data.btreeEdge T (base.map (·, sub)) i) (Data.btreeEdge T' (base.map (·, sub')) i) := by
  cases base with
  | none => exact Below.refl _
  | some b =>
    simp only [Data.btreeEdge, Option.map]
    refine Below.bind (Below.refl _) fun o => Below.bind (Below.refl _) fun ea => Below.bind (h.readAddress ea) fun e => ?_
    split
    · exact hs e
    · exact Below.refl _

theorem btreeLoop (ks vs keysA valsA : Nat) (base : Option Nat) {sub sub' : Nat → Res (List (Nat × Nat))} (hs : ∀ e, Below (sub e) (sub' e)) (left i : Nat) :
    Below (Data.btreeLoop T ks vs keysA valsA (base.map (·, sub)) left i) (Data.btreeLoop T' ks vs keysA valsA (base.map (·, sub')) left i) := by
  induction left generalizing i with
  | zero => simp only [Data.btreeLoop]; exact h.btreeEdge base hs i
  | succ n ih =>
    have := ih (i + 1)
    simp only [Data.btreeLoop]
    refine Below.bind (h.btreeEdge base hs i) fun p => ?_
    below

theorem btreeNode (kt vt : TypeDef) (nl : NodeLayout) (height node : Nat) :
    Below (Data.btreeNode T kt vt nl height node) (Data.btreeNode T' kt vt nl height node) := by
  have hh : ∀ node, Below (btreeHead T kt vt nl node) (btreeHead T' kt vt nl node) := by
    intro node
    have := fun la => h.readNat la 2
    simp only [btreeHead]
    refine Below.bind (Below.refl _) fun la => Below.bind (this la) fun _ => Below.refl _
  induction height generalizing node with
  | zero =>
    simp only [Data.btreeNode]
    exact Below.bind (hh node) fun a => h.btreeLoop _ _ _ _ none (sub := fun _ => .err) (sub' := fun _ => .err) (fun _ => Below.refl _) _ _
  | succ n ih =>
    simp only [Data.btreeNode]
    exact Below.bind (hh node) fun a => Below.bind (Below.refl _) fun base => h.btreeLoop _ _ _ _ (some base) ih _ _

theorem mapEntries (a : Nat) (v : MapVariant) (kt vt : TypeDef) :
    Below (Data.mapEntries T a v kt vt) (Data.mapEntries T' a v kt vt) := by
  cases v with
  | hashMap mo co io ps ko vo =>
    simp only [Data.mapEntries]
    refine Below.bind (Below.refl _) fun _ => Below.bind (Below.refl _) fun _ => Below.bind (Below.refl _) fun _ => Below.bind (h.readNat _ _) fun items => ?_
    split
    · exact Below.refl _
    · refine Below.bind (h.readNat _ _) fun _ => Below.bind (Below.refl _) fun _ => Below.bind (h.readAddress _) fun _ => Below.bind (Below.refl _) fun _ => Below.bind (h.readE _ _) fun _ => Below.refl _
  | btreeMap =>
    simp only [Data.mapEntries]
    refine Below.bind (Below.refl _) fun _ => Below.bind (h.readNat _ _) fun len => ?_
    split
    · exact Below.refl _
    · refine Below.bind (Below.refl _) fun _ => Below.bind (h.readNat _ _) fun _ => ?_
      split
      · exact Below.refl _
      · refine Below.bind (Below.refl _) fun _ => Below.bind (Below.refl _) fun _ => Below.bind (h.readAddress _) fun _ => Below.bind (h.readNat _ _) fun _ => h.btreeNode _ _ _ _ _
  | indexMap => exact Below.refl _

theorem vecInfo (a lenOff dataOff : Nat) : Below (Data.vecInfo T a lenOff dataOff) (Data.vecInfo T' a lenOff dataOff) := by
  simp only [Data.vecInfo]
  exact Below.bind (Below.refl _) fun _ => Below.bind (h.readLen _) fun _ => Below.bind (Below.refl _) fun _ => Below.bind (h.readAddress _) fun _ => Below.refl _

theorem readDisc (a : Nat) (ty : DiscTy) : Below (Data.readDisc T a ty) (Data.readDisc T' a ty) := by
  cases ty with
  | implicit => exact Below.refl _
  | int s => simp only [Data.readDisc]; exact Below.bind (h.readE _ _) fun _ => Below.refl _
  | uint s => simp only [Data.readDisc]; exact Below.bind (h.readE _ _) fun _ => Below.refl _

theorem readLayout {rc rc' : Nat → TypeDef → Res Value} (hr : ∀ a t, Below (rc a t) (rc' a t)) (a : Nat) (loc : Option Nat) (l : Layout) :
    Below (Data.readLayout T rc a loc l) (Data.readLayout T' rc' a loc l) := by
  cases l with
  | enum n disc vs sz =>
    simp only [Data.readLayout, readEnum]
    refine Below.bind (Below.refl _) fun da => Below.bind ?_ fun d => Below.bind (Below.refl _) fun w => Below.bind (hr _ _) fun x => Below.refl _
    cases hty : disc.ty with
    | implicit => exact Below.bind (Below.refl _) fun _ => Below.bind (h.readExact _ _) fun _ => Below.refl _
    | int s => exact h.readDisc _ _
    | uint s => exact h.readDisc _ _
  | cenum n disc vs sz => simp only [Data.readLayout, readCEnum]; exact Below.bind (h.readDisc _ _) fun _ => Below.refl _
  | map v k w => simp only [Data.readLayout]; exact Below.bind (h.mapEntries _ _ _ _) fun _ => Below.refl _
  | smartPtr k t innerOff dataOff =>
    cases k <;> simp only [Data.readLayout] <;>
      repeat' first | exact Below.refl _ | exact h.readAddress _ | exact hr _ _ | refine Below.bind ?_ ?_ | intro _
  | _ =>
    simp only [Data.readLayout, h.resolveAlias, h.resolveAt, h.lossy, h.floatStr]
    repeat' first | exact Below.refl _ | exact h.readE _ _ | exact h.readNat _ _ | exact h.readAddress _ | exact h.readLen _ | exact h.vecInfo _ _ _ | exact hr _ _ | refine Below.bind ?_ ?_ | split | intro _

/-- Reading a value, with at least as much stack. -/
theorem readMem {f f' : Nat} (hf : f ≤ f') (a : Nat) (t : TypeDef) : Below (Data.readMem T f a t) (Data.readMem T' f' a t) := by
  induction f generalizing f' a t with
  | zero => intro v hv; cases hv
  | succ f ih =>
    obtain ⟨g, rfl⟩ : ∃ g, f' = g + 1 := ⟨f' - 1, by omega⟩
    obtain ⟨loc, l⟩ := t
    simp only [Data.readMem]
    exact h.readLayout (fun a t => ih (by omega) a t) _ _ _

theorem expand {k k' : Nat} (hk : k ≤ k') (d : Nat) (v : Value) : Below (Eval.expand T k d v) (Eval.expand T' k' d v) := by
  induction d generalizing v with
  | zero => exact Below.refl _
  | succ d ih =>
    have hlist : ∀ xs, Below (expandList (Eval.expand T k d) xs) (expandList (Eval.expand T' k' d) xs) := by
      intro xs
      induction xs with
      | nil => exact Below.refl _
      | cons x xs ihx => simp only [expandList]; exact Below.bind (ih _) fun _ => Below.bind ihx fun _ => Below.refl _
    have hfields : ∀ xs, Below (expandFields (Eval.expand T k d) xs) (expandFields (Eval.expand T' k' d) xs) := by
      intro xs
      induction xs with
      | nil => exact Below.refl _
      | cons x xs ihx => simp only [expandFields]; exact Below.bind (ih _) fun _ => Below.bind ihx fun _ => Below.refl _
    have hentries : ∀ xs, Below (expandEntries (Eval.expand T k d) xs) (expandEntries (Eval.expand T' k' d) xs) := by
      intro xs
      induction xs with
      | nil => exact Below.refl _
      | cons x xs ihx => simp only [expandEntries]; exact Below.bind (ih _) fun _ => Below.bind (ih _) fun _ => Below.bind ihx fun _ => Below.refl _
    cases v with
    | pointer a t => simp only [Eval.expand]; exact Below.bind (h.readMem hk _ _) ih
    | scalar => exact Below.refl _
    | array t xs => simp only [Eval.expand]; exact Below.bind (hlist _) fun _ => Below.refl _
    | struct t xs => simp only [Eval.expand]; exact Below.bind (hfields _) fun _ => Below.refl _
    | tuple t xs => simp only [Eval.expand]; exact Below.bind (hlist _) fun _ => Below.refl _
    | map t xs => simp only [Eval.expand]; exact Below.bind (hentries _) fun _ => Below.refl _

theorem indexSeq {k k' : Nat} (hk : k ≤ k') (a : Nat) (t : TypeDef) (i : Nat) : Below (Data.indexSeq T k a t i) (Data.indexSeq T' k' a t i) := by
  unfold Data.indexSeq
  split
  · exact Below.refl _
  · exact Below.bind (h.readMem hk _ _) fun _ => Below.refl _
  · exact Below.bind (h.vecInfo _ _ _) fun _ => Below.refl _
  · exact Below.refl _

theorem indexMap {k k' : Nat} (hk : k ≤ k') (a : Nat) (t : TypeDef) (key : Value) : Below (Data.indexMap T k a t key) (Data.indexMap T' k' a t key) := by
  have hf : ∀ kt vt es, Below (findKey T k kt vt key es) (findKey T' k' kt vt key es) := by
    intro kt vt es
    induction es with
    | nil => exact Below.refl _
    | cons e es ih =>
      obtain ⟨x, y⟩ := e
      simp only [findKey]
      refine Below.bind (h.readMem hk _ _) fun _ => ?_
      split
      · exact Below.refl _
      · exact ih
  unfold Data.indexMap
  split
  · exact Below.bind (h.mapEntries _ _ _ _) fun _ => hf _ _ _
  · exact Below.refl _

theorem readInt {k k' f f' : Nat} (hk : k ≤ k') (hf : f ≤ f') (p : Ptr) : Below (Eval.readInt T k f p) (Eval.readInt T' k' f' p) := by
  induction f generalizing f' p with
  | zero => intro v hv; cases hv
  | succ f ih =>
    obtain ⟨g, rfl⟩ : ∃ g, f' = g + 1 := ⟨f' - 1, by omega⟩
    simp only [Eval.readInt]
    refine Below.bind (h.readMem hk _ _) fun v => ?_
    split
    · exact Below.refl _
    · exact ih (by omega) _
    · exact Below.refl _

theorem readString {k k' f f' : Nat} (hk : k ≤ k') (hf : f ≤ f') (p : Ptr) : Below (Eval.readString T k f p) (Eval.readString T' k' f' p) := by
  induction f generalizing f' p with
  | zero => intro v hv; cases hv
  | succ f ih =>
    obtain ⟨g, rfl⟩ : ∃ g, f' = g + 1 := ⟨f' - 1, by omega⟩
    simp only [Eval.readString]
    refine Below.bind (h.readMem hk _ _) fun v => ?_
    split
    · exact Below.refl _
    · exact ih (by omega) _
    · exact Below.refl _

theorem evalSynthetic (a : Nat) (t : TypeDef) (m : Str) : Below (Data.evalSynthetic T a t m) (Data.evalSynthetic T' a t m) := by
  have hu : ∀ a o, Below (readUsize T a o) (readUsize T' a o) := fun a o => by
    simp only [readUsize]; exact Below.bind (Below.refl _) fun _ => Below.bind (h.readE _ _) fun _ => Below.refl _
  have ht : ∀ a d, Below (readTag T a d) (readTag T' a d) := fun a d => by
    simp only [readTag]; exact Below.bind (Below.refl _) fun _ => Below.bind (h.readE _ _) fun _ => Below.refl _
  have hv : ∀ a l c m, Below (vecMethod T a l c m) (vecMethod T' a l c m) := fun a l c m => by
    unfold vecMethod
    repeat' first | exact Below.refl _ | exact hu _ _ | refine Below.bind ?_ ?_ | split | intro _
  have hs : ∀ a m, Below (sliceMethod T a m) (sliceMethod T' a m) := fun a m => by
    unfold sliceMethod
    repeat' first | exact Below.refl _ | exact hu _ _ | refine Below.bind ?_ ?_ | split | intro _
  unfold Data.evalSynthetic
  split
  · exact hv _ _ _ _
  · unfold stringMethod; repeat' first | exact Below.refl _ | exact hv _ _ _ _ | split
  · unfold optionMethod; exact Below.bind (ht _ _) fun _ => Below.refl _
  · unfold resultMethod; exact Below.bind (ht _ _) fun _ => Below.refl _
  · exact hs _ _
  · exact hs _ _
  · exact Below.refl _
  · exact Below.refl _

end Covers
end Rudy.Shown
