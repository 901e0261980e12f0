import Verif.Model.RoundingFlatten
import Verif.Spec.Rounding

/-! # What is assumed of a machine's logarithm -/

namespace Paragami

/-- `np.log` is accurate to about one unit in the last place on all positive numbers, and is `-inf` at zero. -/
structure Arith.LogAccurate (A : Arith) : Prop where
  zero : A.log (.fin 0) = .ninf
  machine : ∀ x, A.Machine (A.log x)
  log : ∀ r, 2 ^ (-1074 : ℤ) ≤ r → r < overflow64 →
    ∃ v, A.log (.fin r) = .fin v ∧ |v - Real.log r| ≤ 2 ^ (-52 : ℤ) * |Real.log r| + 2 ^ (-1074 : ℤ)

end Paragami
