import Verif.Spec.Jacobian
import Mathlib.MeasureTheory.Measure.Lebesgue.Basic

/-! # Sets of flat vectors -/

namespace Paragami.Spec

/-- The array holding a real vector. -/
noncomputable def realVec {n : Nat} (x : Fin n → ℝ) : NDArray Flt := NDArray.vec (List.ofFn fun j => .fin (x j))

/-- The flat vectors of the values strictly inside the constraint set. -/
def inside (p : Pattern) (n : Nat) : Set (Fin n → ℝ) := {x | ∃ v, p.fold (realVec x) (some false) (some false) = .ok v ∧ Interior p v}

end Paragami.Spec
