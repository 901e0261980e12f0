import Verif.Model.Jacobian
import Mathlib.LinearAlgebra.Matrix.NonsingularInverse

/-!
# What `autograd.jacobian` computes for the freeing transform of a matrix

`PSDSymmetricMatrixPattern` uses the Jacobians of base_patterns.py:26-27, made by `autograd`.  The freeing transform
(base_patterns.py:182-185) is, on a valid matrix, psdmatrix_patterns.py:141-146 `_pack_posdef_matrix`; row `c` of its Jacobian is the unit
vector `c` pulled back through the reverse rules of the operations in it, last operation first.  These are the rules of autograd 1.
-/

namespace Paragami

noncomputable section

namespace CholeskyRule
variable {n : Nat}

/-- `mat[np.tril_indices(n)]` (psdmatrix_patterns.py:63): the entries of the gradient go where they were taken from. -/
def takeVjp (n : Nat) (g : Nat → ℝ) : Matrix (Fin n) (Fin n) ℝ := Matrix.of fun i j => if j ≤ i then g (symIndex i j) else 0

/-- psdmatrix_patterns.py:132-138 `_log_matrix_diagonal(L)`: `make_diagonal(log(diag(L))) + L - make_diagonal(diag(L))`, each term with its
rule. -/
def logDiagVjp (L g : Matrix (Fin n) (Fin n) ℝ) : Matrix (Fin n) (Fin n) ℝ :=
  Matrix.of fun i j => (if i = j then g i i / L i i else 0) + g i j - (if i = j then g i i else 0)

/-- `phi = lambda X: anp.tril(X) / (1. + anp.eye(X.shape[-1]))` in autograd/numpy/linalg.py `grad_cholesky`. -/
def phi (X : Matrix (Fin n) (Fin n) ℝ) : Matrix (Fin n) (Fin n) ℝ :=
  Matrix.of fun i j => (if j ≤ i then X i j else 0) / (1 + if i = j then 1 else 0)

/-- autograd/numpy/linalg.py `grad_cholesky`, the rule of `np.linalg.cholesky` at a matrix with factor `L`:
`S = conj_solve(L, phi(L^T g))` with `conj_solve(L, X) = L^-T (L^-T X^T)^T`, and the result is `(S + S^T) / 2`. -/
def choleskyVjp (L g : Matrix (Fin n) (Fin n) ℝ) : Matrix (Fin n) (Fin n) ℝ :=
  let S := L.transpose⁻¹ * (L.transpose⁻¹ * (phi (L.transpose * g)).transpose).transpose
  (2 : ℝ)⁻¹ • (S + S.transpose)

/-- Row `c` of the Jacobian, as a matrix (`np.reshape` only renames the entries, and subtracting `diag_lb` has the identity as its rule). -/
def row (L : Matrix (Fin n) (Fin n) ℝ) (c : Nat) : Matrix (Fin n) (Fin n) ℝ :=
  choleskyVjp L (logDiagVjp L (takeVjp n fun k => if k = c then 1 else 0))

/-- The Jacobian at a matrix with (after `diag_lb` has been subtracted) factor `L`. -/
def jacobian (L : Matrix (Fin n) (Fin n) ℝ) : NDArray Flt :=
  ofFn2 (n * (n + 1) / 2) (n * n) fun c t =>
    if h : t / n < n ∧ t % n < n then .fin (row L c ⟨t / n, h.1⟩ ⟨t % n, h.2⟩) else .nan

end CholeskyRule

end

end Paragami
