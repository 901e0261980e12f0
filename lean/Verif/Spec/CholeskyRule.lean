import Verif.Model.CholeskyRule
import Verif.Spec.Jacobian

/-! # The assumption on `autograd` for the freeing transform of positive definite matrices -/

namespace Paragami

namespace Spec

/-- The map from flat values to flat free values, through the public methods, with the checks that are on by default. -/
noncomputable def checkedFreeingMap (p : Pattern) (x : NDArray Flt) : Except Err (NDArray Flt) := do
  let v ← p.fold x (some false)
  p.flatten v (some true)

/-- What is assumed of `autograd.jacobian` for the map from flat positive definite matrices to free vectors: at a matrix `A` whose
bounded part has the Cholesky factor `L`, it returns what the reverse rules of the operations give (`Model/CholeskyRule.lean`).  This is
*not* that it returns the derivative of the map: it does not (`C90_not_derivative`). -/
def AutogradCholesky (ad : Pattern.AutogradJacobian) : Prop :=
  ∀ n (lb : PyNum) dv fd (l : ℝ) (A L : Matrix (Fin n) (Fin n) ℝ), 0 ≤ l → lb.toFlt = .fin l →
    (∀ i j, i < j → L i j = 0) → (∀ i, 0 < L i i) → L * L.transpose = A - l • 1 →
      ad (checkedFreeingMap (.psd n lb dv fd)) (NDArray.vec (matData A)) = .ok (CholeskyRule.jacobian L)

end Spec

end Paragami
