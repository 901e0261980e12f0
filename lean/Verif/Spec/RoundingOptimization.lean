import Verif.Model.RoundingOptimization
import Verif.Spec.RoundingMatrix

/-! # Preconditioners in floating point: vocabulary -/

namespace Paragami

/-- One entry of a matrix product in which all products but one are zero, and that one is a machine number: nothing is rounded, in whatever order the products are
added. -/
structure Arith.DotSparse (A : Arith) : Prop where
  dot : ∀ (l r : List (ℝ × ℝ)) (x y : ℝ), l.length + r.length < 2 ^ 20 → (∀ p ∈ l ++ r, p.1 * p.2 = 0) → A.Machine (.fin (x * y)) →
    A.dot ((l ++ (x, y) :: r).map fun p => (.fin p.1, .fin p.2)) = .fin (x * y)

namespace Spec
open NDArray

/-- A vector of finite floats. -/
def fvec (n : ℕ) (v : ℕ → ℝ) : NDArray Flt := vec ((List.range n).map fun i => .fin (v i))
/-- A matrix of finite floats. -/
def fmat (n k : ℕ) (U : ℕ → ℕ → ℝ) : NDArray Flt := ofFn2 n k fun i j => .fin (U i j)

/-- What multiplying by the identity with eigenvalues `d` on the columns of `U` means: `v + U @ ((d - 1) * (U.T @ v))`. -/
noncomputable def stretched (n k : ℕ) (U : ℕ → ℕ → ℝ) (d v : ℕ → ℝ) (i : ℕ) : ℝ :=
  v i + ∑ j ∈ Finset.range k, U i j * ((d j - 1) * ∑ l ∈ Finset.range n, U l j * v l)

/-- The sum of the sizes of everything that is added up for it. -/
noncomputable def stretchSize (n k : ℕ) (U : ℕ → ℕ → ℝ) (d v : ℕ → ℝ) (i : ℕ) : ℝ :=
  ∑ j ∈ Finset.range k, |U i j| * (|d j - 1| * ∑ l ∈ Finset.range n, |U l j| * |v l|)

/-- Machine numbers of size at most `b`. -/
def Sized (A : Arith) (n : ℕ) (b : ℝ) (v : ℕ → ℝ) : Prop := ∀ i < n, A.Machine (.fin (v i)) ∧ |v i| ≤ b

/-- The sizes of every row and of every column add up to at most `g`. -/
structure Narrow (n : ℕ) (U : ℕ → ℕ → ℝ) (g : ℝ) : Prop where
  rows : ∀ i < n, ∑ j ∈ Finset.range n, |U i j| ≤ g
  cols : ∀ j < n, ∑ i ∈ Finset.range n, |U i j| ≤ g

/-- Orthonormal columns up to `η`, entry by entry. -/
def NearOrthonormal (n : ℕ) (U : ℕ → ℕ → ℝ) (η : ℝ) : Prop :=
  ∀ j < n, ∀ q < n, |∑ l ∈ Finset.range n, U l j * U l q - if j = q then 1 else 0| ≤ η

/-- Column `j` of `U` is `± e_i`, and row `i` has no other entries. -/
structure Lone (n : ℕ) (U : ℕ → ℕ → ℝ) (i j : ℕ) : Prop where
  sign : U i j = 1 ∨ U i j = -1
  col : ∀ l < n, l ≠ i → U l j = 0
  row : ∀ q < n, q ≠ j → U i q = 0

/-- What is asked of `np.linalg.eigh`: for every finite matrix it returns finite eigenvalues, and a finite matrix whose columns are orthonormal up to `η`. -/
def EighSound (A : Arith) (eigh : Optimization.EighA) (n : ℕ) (g η : ℝ) : Prop :=
  ∀ S : ℕ → ℕ → ℝ, (∀ i < n, ∀ j < n, A.Machine (.fin (S i j))) → ∃ (r : ℕ → ℝ) (U : ℕ → ℕ → ℝ),
    eigh n (fmat n n S) = .ok ((List.range n).map fun j => .fin (r j), fmat n n U) ∧ (∀ j < n, A.Machine (.fin (r j))) ∧
    (∀ i < n, ∀ j < n, A.Machine (.fin (U i j))) ∧ NearOrthonormal n U η ∧ Narrow n U g

end Spec
end Paragami
