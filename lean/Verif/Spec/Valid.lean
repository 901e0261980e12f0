import Verif.Model.Pattern
import Verif.Spec.Interior

/-! # The documented constraints (what `validate_folded` is supposed to decide) -/

namespace Paragami

namespace Spec

mutual
/-- The value has the pattern's structure and shapes.  Extra dictionary keys are allowed. -/
def ShapeOk {α : Type} : Pattern → Val α → Prop
  | .numeric _ s _ _ _ _, .arr a => a.atleast1d.shape = s
  | .simplex k s _ _, .arr a => a.shape = s ++ [k]
  | .psd n _ _ _, .arr a => a.shape = [n, n]
  | .array s base _, .arr a => a.shape = s ++ base.shape
  | .dict es _ _, .dict vs => ShapeOkEs es vs
  | _, _ => False
/-- Every key of the pattern is present with a value of the right structure. -/
def ShapeOkEs {α : Type} : Entries → List (String × Val α) → Prop
  | .nil, _ => True
  | .cons k p r, vs => (∃ v, vs.lookup k = some v ∧ ShapeOk p v) ∧ ShapeOkEs r vs
end

mutual
/-- The documented constraint: inclusive bounds; non-negative simplexes with sums within `1e-12` of one; symmetric
matrices with diagonal at least `diag_lb`; containers memberwise. -/
def Valid : Pattern → Val Flt → Prop
  | .numeric _ s lb ub _ _, .arr a =>
    a.atleast1d.shape = s ∧ ∀ x ∈ a.data, lb.toFlt.le x = true ∧ x.le ub.toFlt = true
  | .simplex k s _ _, .arr a =>
    a.shape = s ++ [k] ∧ (∀ x ∈ a.data, Flt.le 0 x = true) ∧
      ∀ i < s.prod, (Flt.sum (block k a.data i) - 1).abs.le (Flt.fin (1 / 10 ^ 12)) = true
  | .psd n lb _ _, .arr a =>
    a.shape = [n, n] ∧ (∀ i < n, ∃ x, a.data[i * n + i]? = some x ∧ lb.toFlt.le x = true) ∧
      ∀ i < n, ∀ j < n, a.data[i * n + j]? = a.data[j * n + i]?
  | .array s base _, .arr a =>
    a.shape = s ++ base.shape ∧ ∀ i < s.prod, Valid base (.arr ⟨base.shape, block base.shape.prod a.data i⟩)
  | .dict es _ _, .dict vs => ValidEs es vs
  | _, _ => False
/-- Every key of the pattern is present with a valid value. -/
def ValidEs : Entries → List (String × Val Flt) → Prop
  | .nil, _ => True
  | .cons k p r, vs => (∃ v, vs.lookup k = some v ∧ Valid p v) ∧ ValidEs r vs
end

mutual
/-- No NaN in the value. -/
def NoNaN : Val Flt → Prop
  | .arr a => ∀ x ∈ a.data, x.NotNaN
  | .dict vs => NoNaNEs vs
/-- `NoNaN` for every member. -/
def NoNaNEs : List (String × Val Flt) → Prop
  | [] => True
  | (_, v) :: r => NoNaN v ∧ NoNaNEs r
end

mutual
/-- Every entry anywhere in the value equals `b`. -/
def AllEq {α : Type} (b : α) : Val α → Prop
  | .arr a => ∀ x ∈ a.data, x = b
  | .dict vs => AllEqEs b vs
/-- `AllEq` for every member. -/
def AllEqEs {α : Type} (b : α) : List (String × Val α) → Prop
  | [] => True
  | (_, v) :: r => AllEq b v ∧ AllEqEs b r
end

mutual
/-- The value carries exactly the pattern's keys, in the pattern's order, at every level. -/
def KeysExact {α : Type} : Pattern → Val α → Prop
  | .dict es _ _, .dict vs => KeysExactEs es vs
  | _, .arr _ => True
  | _, _ => False
/-- `KeysExact` for the members. -/
def KeysExactEs {α : Type} : Entries → List (String × Val α) → Prop
  | .nil, vs => vs = []
  | .cons k p r, (k', v) :: vs => k' = k ∧ KeysExact p v ∧ KeysExactEs r vs
  | .cons _ _ _, [] => False
end

end Spec

end Paragami
