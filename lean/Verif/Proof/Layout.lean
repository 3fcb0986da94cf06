import Verif.Model.Layout
/- Helper lemmas and specification vocabulary (shape, plain) for Verif.Props.Layout. -/
namespace Rudy.Layout
open Rudy

set_option linter.unusedSimpArgs false
set_option linter.unusedVariables false

/-! ### Lemmas: matching is reflexive and symmetric -/

mutual
theorem TypeDef.matching_refl : ∀ a : TypeDef, a.matching a = true
  | .mk l a => by simp [TypeDef.matching, a.matching_refl]
theorem Layout.matching_refl : ∀ a : Layout, a.matching a = true
  | .array e n => by simp [Layout.matching, e.matching_refl]
  | .bool  => by simp [Layout.matching]
  | .char  => by simp [Layout.matching]
  | .float s => by simp [Layout.matching]
  | .function r as => by simp [Layout.matching, r.matching_refl, as.matching_refl]
  | .int s => by simp [Layout.matching]
  | .never  => by simp [Layout.matching]
  | .pointer m e => by simp [Layout.matching, e.matching_refl]
  | .reference m e => by simp [Layout.matching, e.matching_refl]
  | .slice e x y => by simp [Layout.matching, e.matching_refl]
  | .str  => by simp [Layout.matching]
  | .strSlice x y => by simp [Layout.matching]
  | .tuple as s => by simp [Layout.matching, as.matching_refl]
  | .unit  => by simp [Layout.matching]
  | .uint s => by simp [Layout.matching]
  | .smartPtr v e x y => by simp [Layout.matching, e.matching_refl]
  | .map v e f => by simp [Layout.matching, e.matching_refl, f.matching_refl]
  | .option n d o e s => by simp [Layout.matching, e.matching_refl]
  | .result n d e o f p s => by simp [Layout.matching, e.matching_refl, f.matching_refl]
  | .string x y z e => by simp [Layout.matching]
  | .vec x y z e => by simp [Layout.matching, e.matching_refl]
  | .struct n s a fs => by simp [Layout.matching]
  | .enum n d vs s => by simp [Layout.matching]
  | .cenum n d vs s => by simp [Layout.matching]
  | .alias n => by simp [Layout.matching]
theorem Members.matching_refl : ∀ a : Members, a.matching a = true
  | .nil => by simp [Members.matching]
  | .cons _ _ a r => by simp [Members.matching, a.matching_refl, r.matching_refl]
theorem OptTypeDef.matching_refl : ∀ a : OptTypeDef, a.matching a = true
  | .none => by simp [OptTypeDef.matching]
  | .some a => by simp [OptTypeDef.matching, a.matching_refl]
end

theorem locMatches_comm (a b : Option Nat) : locMatches a b = locMatches b a := by
  cases a <;> cases b <;> simp [locMatches, Bool.beq_comm]

mutual
theorem TypeDef.matching_comm : ∀ a b : TypeDef, a.matching b = b.matching a
  | .mk l a, .mk m b => by simp [TypeDef.matching, a.matching_comm b, locMatches_comm l m]
theorem Layout.matching_comm : ∀ a b : Layout, a.matching b = b.matching a
  | .array e n, b => by
    cases b <;> simp only [Layout.matching, e.matching_comm _]
  | .bool, b => by
    cases b <;> simp [Layout.matching, Bool.beq_comm]
  | .char, b => by
    cases b <;> simp [Layout.matching, Bool.beq_comm]
  | .float s, b => by
    cases b <;> simp [Layout.matching, Bool.beq_comm]
  | .function r as, b => by
    cases b <;> simp only [Layout.matching, r.matching_comm _, as.matching_comm _]
  | .int s, b => by
    cases b <;> simp [Layout.matching, Bool.beq_comm]
  | .never, b => by
    cases b <;> simp [Layout.matching, Bool.beq_comm]
  | .pointer m e, b => by
    cases b <;> simp only [Layout.matching, e.matching_comm _]
  | .reference m e, b => by
    cases b <;> simp only [Layout.matching, e.matching_comm _]
  | .slice e x y, b => by
    cases b <;> simp only [Layout.matching, e.matching_comm _]
  | .str, b => by
    cases b <;> simp [Layout.matching, Bool.beq_comm]
  | .strSlice x y, b => by
    cases b <;> simp [Layout.matching, Bool.beq_comm]
  | .tuple as s, b => by
    cases b <;> simp only [Layout.matching, as.matching_comm _]
  | .unit, b => by
    cases b <;> simp [Layout.matching, Bool.beq_comm]
  | .uint s, b => by
    cases b <;> simp [Layout.matching, Bool.beq_comm]
  | .smartPtr v e x y, b => by
    cases b <;> simp only [Layout.matching, e.matching_comm _]
    all_goals first | done | (congr 2; exact decide_eq_decide.2 eq_comm) | (congr 1; exact decide_eq_decide.2 eq_comm)
  | .map v e f, b => by
    cases b <;> simp only [Layout.matching, e.matching_comm _, f.matching_comm _]
    all_goals first | done | (congr 2; exact decide_eq_decide.2 eq_comm) | (congr 1; exact decide_eq_decide.2 eq_comm)
  | .option n d o e s, b => by
    cases b <;> simp only [Layout.matching, e.matching_comm _]
  | .result n d e o f p s, b => by
    cases b <;> simp only [Layout.matching, e.matching_comm _, f.matching_comm _]
  | .string x y z e, b => by
    cases b <;> simp [Layout.matching, Bool.beq_comm]
  | .vec x y z e, b => by
    cases b <;> simp only [Layout.matching, e.matching_comm _]
  | .struct n s a fs, b => by
    cases b <;> simp [Layout.matching, Bool.beq_comm]
  | .enum n d vs s, b => by
    cases b <;> simp [Layout.matching, Bool.beq_comm]
  | .cenum n d vs s, b => by
    cases b <;> simp [Layout.matching, Bool.beq_comm]
  | .alias n, b => by
    cases b <;> simp [Layout.matching, Bool.beq_comm]
theorem Members.matching_comm : ∀ a b : Members, a.matching b = b.matching a
  | .nil, b => by cases b <;> simp [Members.matching]
  | .cons _ _ a r, .nil => by simp [Members.matching]
  | .cons _ _ a r, .cons _ _ b s => by
    simp [Members.matching, a.matching_comm b, r.matching_comm s]
theorem OptTypeDef.matching_comm : ∀ a b : OptTypeDef, a.matching b = b.matching a
  | .none, b => by cases b <;> simp [OptTypeDef.matching]
  | .some a, .none => by simp [OptTypeDef.matching]
  | .some a, .some b => by simp [OptTypeDef.matching, a.matching_comm b]
end

/-! ### Specification: the shape of a type -/

mutual
/-- What `matching_type` can see of a type without aliases and locations: array lengths, mutability,
offsets, sizes and the contents of named types are erased. -/
def TypeDef.shape : TypeDef → TypeDef
  | .mk _ l => .mk none l.shape
def Layout.shape : Layout → Layout
  | .array e _ => .array e.shape 0
  | .function r as => .function r.shape as.shape
  | .pointer _ t => .pointer false t.shape
  | .reference _ t => .reference false t.shape
  | .slice t _ _ => .slice t.shape 0 0
  | .tuple es _ => .tuple es.shape 0
  | .smartPtr v t _ _ => .smartPtr v t.shape 0 0
  | .map v k w => .map v k.shape w.shape
  | .option _ _ _ t _ => .option [] ⟨.implicit, 0⟩ 0 t.shape 0
  | .result _ _ t _ e _ _ => .result [] ⟨.implicit, 0⟩ t.shape 0 e.shape 0 0
  | .string .. => .string 0 0 0 (.mk none .unit)
  | .vec _ _ _ t => .vec 0 0 0 t.shape
  | .struct n _ _ _ => .struct n 0 0 .nil
  | .enum n _ _ _ => .enum n ⟨.implicit, 0⟩ .nil 0
  | .cenum n _ _ _ => .cenum n .implicit [] 0
  | l => l
def Members.shape : Members → Members
  | .nil => .nil
  | .cons _ _ t r => .cons [] 0 t.shape r.shape
def OptTypeDef.shape : OptTypeDef → OptTypeDef
  | .none => .none
  | .some t => .some t.shape
end

mutual
/-- No alias and no debug-info location inside the type (named types are not entered: matching does
not look inside them). -/
def TypeDef.plain : TypeDef → Bool
  | .mk l t => l.isNone && t.plain
def Layout.plain : Layout → Bool
  | .array e _ => e.plain
  | .function r as => r.plain && as.plain
  | .pointer _ t => t.plain
  | .reference _ t => t.plain
  | .slice t _ _ => t.plain
  | .tuple es _ => es.plain
  | .smartPtr _ t _ _ => t.plain
  | .map _ k w => k.plain && w.plain
  | .option _ _ _ t _ => t.plain
  | .result _ _ t _ e _ _ => t.plain && e.plain
  | .vec _ _ _ t => t.plain
  | .alias _ => false
  | _ => true
def Members.plain : Members → Bool
  | .nil => true
  | .cons _ _ t r => t.plain && r.plain
def OptTypeDef.plain : OptTypeDef → Bool
  | .none => true
  | .some t => t.plain
end

mutual
theorem TypeDef.matching_iff_shape : ∀ a b : TypeDef, a.plain = true → b.plain = true →
    (a.matching b = true ↔ a.shape = b.shape)
  | .mk l a, .mk m b, ha, hb => by
    simp only [TypeDef.plain, Bool.and_eq_true, Option.isNone_iff_eq_none] at ha hb
    simp [TypeDef.matching, TypeDef.shape, ha.1, locMatches, a.matching_iff_shape b ha.2 hb.2]
theorem Layout.matching_iff_shape : ∀ a b : Layout, a.plain = true → b.plain = true →
    (a.matching b = true ↔ a.shape = b.shape)
  | .array e n, b, ha, hb => by
    cases b <;> simp only [Layout.matching, Layout.shape, Layout.plain, reduceCtorEq, Bool.false_eq_true] at ha hb ⊢
    simp [e.matching_iff_shape _ ha hb]
  | .bool, b, ha, hb => by
    cases b <;> simp_all [Layout.matching, Layout.shape, Layout.plain]
  | .char, b, ha, hb => by
    cases b <;> simp_all [Layout.matching, Layout.shape, Layout.plain]
  | .float s, b, ha, hb => by
    cases b <;> simp_all [Layout.matching, Layout.shape, Layout.plain]
  | .function r as, b, ha, hb => by
    cases b <;> simp only [Layout.matching, Layout.shape, Layout.plain, reduceCtorEq, Bool.false_eq_true, Bool.and_eq_true] at ha hb ⊢
    simp [r.matching_iff_shape _ ha.1 hb.1, as.matching_iff_shape _ ha.2 hb.2, and_assoc]
  | .int s, b, ha, hb => by
    cases b <;> simp_all [Layout.matching, Layout.shape, Layout.plain]
  | .never, b, ha, hb => by
    cases b <;> simp_all [Layout.matching, Layout.shape, Layout.plain]
  | .pointer m e, b, ha, hb => by
    cases b <;> simp only [Layout.matching, Layout.shape, Layout.plain, reduceCtorEq, Bool.false_eq_true] at ha hb ⊢
    simp [e.matching_iff_shape _ ha hb]
  | .reference m e, b, ha, hb => by
    cases b <;> simp only [Layout.matching, Layout.shape, Layout.plain, reduceCtorEq, Bool.false_eq_true] at ha hb ⊢
    simp [e.matching_iff_shape _ ha hb]
  | .slice e x y, b, ha, hb => by
    cases b <;> simp only [Layout.matching, Layout.shape, Layout.plain, reduceCtorEq, Bool.false_eq_true] at ha hb ⊢
    simp [e.matching_iff_shape _ ha hb]
  | .str, b, ha, hb => by
    cases b <;> simp_all [Layout.matching, Layout.shape, Layout.plain]
  | .strSlice x y, b, ha, hb => by
    cases b <;> simp_all [Layout.matching, Layout.shape, Layout.plain]
  | .tuple as s, b, ha, hb => by
    cases b <;> simp only [Layout.matching, Layout.shape, Layout.plain, reduceCtorEq, Bool.false_eq_true] at ha hb ⊢
    simp [as.matching_iff_shape _ ha hb]
  | .unit, b, ha, hb => by
    cases b <;> simp_all [Layout.matching, Layout.shape, Layout.plain]
  | .uint s, b, ha, hb => by
    cases b <;> simp_all [Layout.matching, Layout.shape, Layout.plain]
  | .smartPtr v e x y, b, ha, hb => by
    cases b <;> simp only [Layout.matching, Layout.shape, Layout.plain, reduceCtorEq, Bool.false_eq_true] at ha hb ⊢
    simp [e.matching_iff_shape _ ha hb]
  | .map v e f, b, ha, hb => by
    cases b <;> simp only [Layout.matching, Layout.shape, Layout.plain, reduceCtorEq, Bool.false_eq_true, Bool.and_eq_true] at ha hb ⊢
    simp [e.matching_iff_shape _ ha.1 hb.1, f.matching_iff_shape _ ha.2 hb.2, and_assoc]
  | .option n d o e s, b, ha, hb => by
    cases b <;> simp only [Layout.matching, Layout.shape, Layout.plain, reduceCtorEq, Bool.false_eq_true] at ha hb ⊢
    simp [e.matching_iff_shape _ ha hb]
  | .result n d e o f p s, b, ha, hb => by
    cases b <;> simp only [Layout.matching, Layout.shape, Layout.plain, reduceCtorEq, Bool.false_eq_true, Bool.and_eq_true] at ha hb ⊢
    simp [e.matching_iff_shape _ ha.1 hb.1, f.matching_iff_shape _ ha.2 hb.2, and_assoc]
  | .string x y z e, b, ha, hb => by
    cases b <;> simp_all [Layout.matching, Layout.shape, Layout.plain]
  | .vec x y z e, b, ha, hb => by
    cases b <;> simp only [Layout.matching, Layout.shape, Layout.plain, reduceCtorEq, Bool.false_eq_true] at ha hb ⊢
    simp [e.matching_iff_shape _ ha hb]
  | .struct n s a fs, b, ha, hb => by
    cases b <;> simp_all [Layout.matching, Layout.shape, Layout.plain]
  | .enum n d vs s, b, ha, hb => by
    cases b <;> simp_all [Layout.matching, Layout.shape, Layout.plain]
  | .cenum n d vs s, b, ha, hb => by
    cases b <;> simp_all [Layout.matching, Layout.shape, Layout.plain]
  | .alias n, b, ha, hb => by simp [Layout.plain] at ha
theorem Members.matching_iff_shape : ∀ a b : Members, a.plain = true → b.plain = true →
    (a.matching b = true ↔ a.shape = b.shape)
  | .nil, b, ha, hb => by cases b <;> simp [Members.matching, Members.shape]
  | .cons _ _ a r, .nil, ha, hb => by simp [Members.matching, Members.shape]
  | .cons _ _ a r, .cons _ _ b s, ha, hb => by
    simp only [Members.plain, Bool.and_eq_true] at ha hb
    simp [Members.matching, Members.shape, a.matching_iff_shape b ha.1 hb.1,
      r.matching_iff_shape s ha.2 hb.2]
theorem OptTypeDef.matching_iff_shape : ∀ a b : OptTypeDef, a.plain = true → b.plain = true →
    (a.matching b = true ↔ a.shape = b.shape)
  | .none, b, ha, hb => by cases b <;> simp [OptTypeDef.matching, OptTypeDef.shape]
  | .some a, .none, ha, hb => by simp [OptTypeDef.matching, OptTypeDef.shape]
  | .some a, .some b, ha, hb => by
    simp only [OptTypeDef.plain] at ha hb
    simp [OptTypeDef.matching, OptTypeDef.shape, a.matching_iff_shape b ha hb]
end

end Rudy.Layout
