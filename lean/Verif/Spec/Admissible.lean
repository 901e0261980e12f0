import Verif.Spec.Interior
import Verif.Spec.Densities

/-! # The constraint sets with their boundaries -/

namespace Paragami.Spec
open NDArray Pattern

mutual
/-- `v` satisfies the constraints, bounds included: numeric entries are numbers between the bounds; simplexes of numbers that are not negative, with sum
exactly one; symmetric matrices `M` with `M - diag_lb * I` positive semidefinite; containers memberwise (a dictionary may carry extra keys). -/
def Admissible : Pattern → Val Flt → Prop
  | .numeric _ s lb ub _ _, .arr a =>
    a.WF ∧ a.atleast1d.shape = s ∧ ∀ x ∈ a.data, (∃ r, x = .fin r) ∧ lb.toFlt.le x = true ∧ x.le ub.toFlt = true
  | .simplex k s _ _, .arr a =>
    a.WF ∧ a.shape = s ++ [k] ∧
      ∀ i < s.prod, ∃ r : List ℝ, block k a.data i = r.map .fin ∧ (∀ x ∈ r, 0 ≤ x) ∧ r.sum = 1
  | .psd n lb _ _, .arr a =>
    ∃ M : Matrix (Fin n) (Fin n) ℝ, a = ⟨[n, n], matData M⟩ ∧ (M - lb.toFlt.toReal • (1 : Matrix (Fin n) (Fin n) ℝ)).PosSemidef
  | .array s base _, .arr a =>
    a.WF ∧ a.shape = s ++ base.shape ∧
      ∀ i < s.prod, Admissible base (.arr ⟨base.shape, block base.shape.prod a.data i⟩)
  | .dict es _ _, .dict vs => AdmissibleEs es vs
  | _, _ => False
/-- Every member of the pattern is present and admissible. -/
def AdmissibleEs : Entries → List (String × Val Flt) → Prop
  | .nil, _ => True
  | .cons k p r, vs => (∃ v, vs.lookup k = some v ∧ Admissible p v) ∧ AdmissibleEs r vs
end

/-- The flat vectors of the admissible values. -/
def admitted (p : Pattern) (n : Nat) : Set (Fin n → ℝ) := {x | ∃ v, p.fold (realVec x) (some false) (some false) = .ok v ∧ Admissible p v}

end Paragami.Spec
