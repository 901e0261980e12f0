import Mathlib.Analysis.Calculus.Deriv.Basic
import Verif.Model.AutogradSupplement

/-! # What the derivative rules are supposed to compute -/

namespace Paragami

namespace Spec
open NDArray LinAlg Autograd

/-- An array of shape `(N, *t)`: row `i` holds `X i` in row-major order. -/
def rowsOf {N : Nat} (t : List Nat) (X : Matrix (Fin N) (Fin t.prod) ℝ) : NDArray ℝ := ⟨N :: t, (ofMatrix X).data⟩

/-- The inner product of two arrays, over all entries. -/
def inner {n m : Nat} (X Y : Matrix (Fin n) (Fin m) ℝ) : ℝ := ∑ i, ∑ j, X i j * Y i j

/-- `A` is a curve of matrices with velocity `G` at time `t`. -/
def Velocity {n m : Nat} (A : ℝ → Matrix (Fin n) (Fin m) ℝ) (G : Matrix (Fin n) (Fin m) ℝ) (t : ℝ) : Prop :=
  ∀ i j, HasDerivAt (fun s => A s i j) (G i j) t

/-- `v` is a curve of vectors with velocity `w` at time `t`. -/
def VelocityVec {n : Nat} (v : ℝ → Fin n → ℝ) (w : Fin n → ℝ) (t : ℝ) : Prop := ∀ i, HasDerivAt (fun s => v s i) (w i) t

/-- `r` is `x` with the entries at the positions `pos` replaced by `xs`, the last one for repeated positions. -/
def LastWrites {N D : Nat} (xs : Fin D → ℝ) (x : Fin N → ℝ) (pos : Fin D → Fin N) (r : Fin N → ℝ) : Prop :=
  (∀ k, (∀ k', k < k' → pos k' ≠ pos k) → r (pos k) = xs k) ∧ ∀ p, (∀ k, pos k ≠ p) → r p = x p

/-- The integer `i` denotes the position `p` of an axis of length `N`. -/
def Denotes {N : Nat} (i : ℤ) (p : Fin N) : Prop := i = p ∨ i = (p : ℤ) - N

/-- What cholmod promises for a matrix it accepts: a permutation matrix and `L Lᵀ = P H Pᵀ`. -/
def CholmodSpec (chol : CholmodFn) : Prop :=
  ∀ (n : Nat) (H : Matrix (Fin n) (Fin n) ℝ), H.transpose = H → (∀ v : Fin n → ℝ, v ≠ 0 → 0 < dotProduct v (H.mulVec v)) →
    ∃ c, chol n H = .ok c ∧ c.P.transpose * c.P = 1 ∧ c.L * c.L.transpose = c.P * H * c.P.transpose

end Spec

end Paragami
