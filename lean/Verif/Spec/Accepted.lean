import Verif.Spec.Interior

/-! # What validation accepts, NaN and infinities included -/

namespace Paragami
namespace Spec

/-- A simplex that is accepted: nothing negative, and either a NaN somewhere or only real numbers with a sum within `1e-12` of one. -/
def RowAccepted (r : List Flt) : Prop :=
  (∀ x ∈ r, x = .nan ∨ Flt.le 0 x = true) ∧ (.nan ∈ r ∨ ∃ q : List ℝ, r = q.map .fin ∧ |q.sum - 1| ≤ 1 / 10 ^ 12)

mutual
/-- NaN passes everywhere but in matrices; numeric entries may be infinite if the bounds are; entries of matrices may be infinite. -/
def Accepted : Pattern → Val Flt → Prop
  | .numeric _ s lb ub _ _, .arr a =>
    a.atleast1d.shape = s ∧ ∀ x ∈ a.data, x = .nan ∨ (lb.toFlt.le x = true ∧ x.le ub.toFlt = true)
  | .simplex k s _ _, .arr a => a.shape = s ++ [k] ∧ ∀ i < s.prod, RowAccepted (block k a.data i)
  | .psd n lb _ _, .arr a =>
    a.shape = [n, n] ∧ (∀ x ∈ a.data, x ≠ .nan) ∧ (∀ i < n, ∃ x, a.data[i * n + i]? = some x ∧ lb.toFlt.le x = true) ∧
      ∀ i < n, ∀ j < n, a.data[i * n + j]? = a.data[j * n + i]?
  | .array s base _, .arr a =>
    a.shape = s ++ base.shape ∧ ∀ i < s.prod, Accepted base (.arr ⟨base.shape, block base.shape.prod a.data i⟩)
  | .dict es _ _, .dict vs => AcceptedEs es vs
  | _, _ => False
/-- Every key of the pattern is present with an accepted value. -/
def AcceptedEs : Entries → List (String × Val Flt) → Prop
  | .nil, _ => True
  | .cons k p r, vs => (∃ v, vs.lookup k = some v ∧ Accepted p v) ∧ AcceptedEs r vs
end

mutual
/-- The value has no NaN in the place of a matrix. -/
def NaNFreeMatrices : Pattern → Val Flt → Prop
  | .psd _ _ _ _, .arr a => ∀ x ∈ a.data, x ≠ .nan
  | .array s base _, .arr a => ∀ i < s.prod, NaNFreeMatrices base (.arr ⟨base.shape, block base.shape.prod a.data i⟩)
  | .dict es _ _, .dict vs => NaNFreeMatricesEs es vs
  | _, _ => True
/-- The same for the members. -/
def NaNFreeMatricesEs : Entries → List (String × Val Flt) → Prop
  | .nil, _ => True
  | .cons k p r, vs => (∀ v, vs.lookup k = some v → NaNFreeMatrices p v) ∧ NaNFreeMatricesEs r vs
end

end Spec
end Paragami
