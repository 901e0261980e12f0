import Verif.Spec.RoundingTrip

/-! # Matrices in floating point: what is assumed of the machine, and the sizes the errors are measured in -/

namespace Paragami

/-- One entry of a matrix product of machine numbers: the sum of the products, in any order and with or without fused operations.  The last term covers
underflow of the products. -/
structure Arith.DotAccurate (A : Arith) : Prop where
  dot : ∀ l : List (ℝ × ℝ), l.length ≤ 2 ^ 20 → (∀ p ∈ l, A.Machine (.fin p.1) ∧ A.Machine (.fin p.2)) →
    (l.map fun p => |p.1| * |p.2|).sum ≤ 2 ^ (1000 : ℤ) →
    ∃ v, A.dot (l.map fun p => (.fin p.1, .fin p.2)) = .fin v ∧ A.Machine (.fin v) ∧
      |v - (l.map fun p => p.1 * p.2).sum| ≤
        l.length * 2 ^ (-52 : ℤ) * (l.map fun p => |p.1| * |p.2|).sum + l.length * 2 ^ (-1074 : ℤ)

/-- `np.linalg.cholesky` is backward stable: if it returns a factor `L`, then `L` is lower triangular without negative numbers on the diagonal, and
`L @ L.T` is the lower triangle of the matrix up to `n * 2 ** -51` times `|L| @ |L.T|`.  The last term covers underflow. -/
structure Arith.CholAccurate (A : Arith) : Prop where
  chol : ∀ n ≤ 1000, ∀ (a : NDArray Flt) (M : ℕ → ℕ → ℝ) (C : NDArray Flt),
    (∀ i < n, ∀ j ≤ i, entry n a.data i j = .fin (M i j) ∧ A.Machine (.fin (M i j)) ∧ |M i j| ≤ 2 ^ (900 : ℤ)) → A.chol n a = .ok C →
    ∃ L : ℕ → ℕ → ℝ, (∀ i < n, ∀ j < n, entry n C.data i j = .fin (L i j) ∧ A.Machine (.fin (L i j))) ∧
      (∀ i < n, ∀ j < n, i < j → L i j = 0) ∧ (∀ i < n, 0 ≤ L i i) ∧
      ∀ i < n, ∀ j ≤ i, |∑ k ∈ Finset.range n, L i k * L j k - M i j| ≤
        n * 2 ^ (-51 : ℤ) * ∑ k ∈ Finset.range n, |L i k| * |L j k| + n * 2 ^ (-500 : ℤ)

namespace Spec

/-- The entry of a free vector that belongs to place `(i, j)` of the lower triangle. -/
def lower (y : List ℝ) (i j : ℕ) : ℝ := y.getD (i * (i + 1) / 2 + j) 0

/-- The size of the entry `(i, k)` of the factor made from a free vector: on the diagonal `exp y + |y|`, because the code computes `exp(y) + y - y`. -/
noncomputable def factorSize (y : List ℝ) (i k : ℕ) : ℝ :=
  if k < i then |lower y i k| else if k = i then Real.exp (lower y i i) + |lower y i i| else 0

/-- The same for a round trip, where also `log(x) + x - x` is computed. -/
noncomputable def tripSize (y : List ℝ) (i k : ℕ) : ℝ :=
  if k < i then |lower y i k|
  else if k = i then (1 + Real.exp (lower y i i)) * (Real.exp (lower y i i) + |lower y i i|) else 0

end Spec
end Paragami
