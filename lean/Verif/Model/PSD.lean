import Verif.Model.NDArray
import Mathlib.Analysis.Real.Sqrt
import Mathlib.Algebra.Order.Floor.Semiring
import Mathlib.Algebra.BigOperators.Group.Finset.Basic

/-!
# `PSDSymmetricMatrixPattern` (paragami/psdmatrix_patterns.py)

Matrices are two-dimensional `NDArray`s; `entry` reads them and `ofFn2` builds them.
-/

namespace Paragami

noncomputable section

/-- `a[i, j]` of a two-dimensional array with `m` columns (NaN outside, never used outside). -/
def entry (m : Nat) (data : List Flt) (i j : Nat) : Flt := data.getD (i * m + j) .nan

/-- An `n × m` array from its entries. -/
def ofFn2 {α : Type} (n m : Nat) (f : Nat → Nat → α) : NDArray α :=
  ⟨[n, m], (List.range n).flatMap fun i => (List.range m).map (f i)⟩

/-- `np.tril_indices(n)`: `(0,0), (1,0), (1,1), (2,0), ...`. -/
def trilIndices (n : Nat) : List (Nat × Nat) :=
  (List.range n).flatMap fun i => (List.range (i + 1)).map fun j => (i, j)

/-- psdmatrix_patterns.py:11-32 `_sym_index`. -/
def symIndex (k1 k2 : Nat) : Nat :=
  let ldInd (k1 k2 : Nat) : Nat := k2 + k1 * (k1 + 1) / 2
  if k2 ≤ k1 then ldInd k1 k2 else ldInd k2 k1

/-- psdmatrix_patterns.py:35-63 `_vectorize_ld_matrix`. -/
def vectorizeLd (mat : NDArray Flt) : Except Err (NDArray Flt) :=
  match mat.shape with
  | [nrow, ncol] =>
    if nrow ≠ ncol then .error (.valueError "mat must be square")
    else .ok (NDArray.vec ((trilIndices nrow).map fun ij => entry ncol mat.data ij.1 ij.2))
  | _ => .error (.valueError "not enough values to unpack")

/-- psdmatrix_patterns.py:92 `int(0.5 * (math.sqrt(1 + 8 * vec.size) - 1))` over the exact reals. -/
def matSize (m : Nat) : Nat := ⌊(1 / 2 : ℝ) * (Real.sqrt (1 + 8 * (m : ℝ)) - 1)⌋₊

/-- psdmatrix_patterns.py:66-99 `_unvectorize_ld_matrix`: zeros above the diagonal.  The size test
`mat_size * (mat_size + 1) / 2 != vec.size` is stated without the division. -/
def unvectorizeLd (v : NDArray Flt) : Except Err (NDArray Flt) :=
  let n := matSize v.size
  if n * (n + 1) ≠ 2 * v.size then .error (.valueError "Vector is an impossible size")
  else .ok (ofFn2 n n fun k1 k2 => if k2 ≤ k1 then v.data.getD (symIndex k1 k2) .nan else 0)

/-- psdmatrix_patterns.py:107-109 `_unvectorize_ld_matrix_vjp`, the reverse rule of `_unvectorize_ld_matrix` (for two axes; an assertion
first). -/
def unvectorizeLdVjp (g : NDArray Flt) : Except Err (NDArray Flt) :=
  match g.shape with
  | [n, m] => if n = m then vectorizeLd g else .error .assertionError
  | _ => .error .unmodelled
/-- psdmatrix_patterns.py:116-117 `_unvectorize_ld_matrix_jvp`, the forward rule. -/
def unvectorizeLdJvp (g : NDArray Flt) : Except Err (NDArray Flt) := unvectorizeLd g

/-- psdmatrix_patterns.py:123-129 `_exp_matrix_diagonal` on a square matrix: `diag(exp d) + mat - diag d`. -/
def expDiag (n : Nat) (mat : NDArray Flt) : NDArray Flt :=
  ofFn2 n n fun i j =>
    (if i = j then (entry n mat.data i i).exp else 0) + entry n mat.data i j
      - (if i = j then entry n mat.data i i else 0)

/-- psdmatrix_patterns.py:132-138 `_log_matrix_diagonal` on a square matrix. -/
def logDiag (n : Nat) (mat : NDArray Flt) : NDArray Flt :=
  ofFn2 n n fun i j =>
    (if i = j then (entry n mat.data i i).log else 0) + entry n mat.data i j
      - (if i = j then entry n mat.data i i else 0)

/-- `L` is a Cholesky factor of the real matrix `A` (read from its lower triangle, as LAPACK does). -/
def IsChol (n : Nat) (A L : Nat → Nat → ℝ) : Prop :=
  (∀ i j, i < n → j < n → i < j → L i j = 0) ∧
  (∀ i, i < n → 0 < L i i) ∧
  (∀ i j, i < n → j ≤ i → ∑ k ∈ Finset.range n, L i k * L j k = A i j)

open Classical in
/-- `np.linalg.cholesky` of an `n × n` array, specified by what it computes: the lower-triangular factor with positive
diagonal if there is one, `LinAlgError` otherwise.  Only the lower triangle is read.  Non-finite entries in the lower
triangle are outside the model (`Err.unmodelled`). -/
def cholesky (n : Nat) (mat : NDArray Flt) : Except Err (NDArray Flt) :=
  if ∀ i j, i < n → j ≤ i → (entry n mat.data i j).IsFin then
    if h : ∃ L : Nat → Nat → ℝ, IsChol n (fun i j => (entry n mat.data i j).toReal) L then
      .ok (ofFn2 n n fun i j => .fin (h.choose i j))
    else .error .linAlgError
  else .error .unmodelled

/-- psdmatrix_patterns.py:141-146 `_pack_posdef_matrix`. -/
def packPosdef (n : Nat) (lb : Flt) (mat : NDArray Flt) : Except Err (NDArray Flt) := do
  let matLb := ofFn2 n n fun i j => entry n mat.data i j - (if i = j then lb else 0)
  let chol ← cholesky n matLb
  vectorizeLd (logDiag n chol)

/-- psdmatrix_patterns.py:149-154 `_unpack_posdef_matrix`. -/
def unpackPosdef (lb : Flt) (v : NDArray Flt) : Except Err (NDArray Flt) := do
  let ld ← unvectorizeLd v
  let n := matSize v.size
  let chol := expDiag n ld
  let mat := ofFn2 n n fun i j =>
    Flt.sum ((List.range n).map fun k => entry n chol.data i k * entry n chol.data j k)
  return ofFn2 n n fun i j => entry n mat.data i j + (if i = j then lb else 0)

/-- psdmatrix_patterns.py:161-169 `_unvectorize_symmetric_matrix`. -/
def unvectorizeSymmetric (v : NDArray Flt) : Except Err (NDArray Flt) := do
  let ld ← unvectorizeLd v
  let n := matSize v.size
  return ofFn2 n n fun i j =>
    entry n ld.data i j + entry n ld.data j i - (if i = j then entry n ld.data i i else 0)

namespace PSD
variable {α : Type} [Elem α]

/-- psdmatrix_patterns.py:238-244 `_validate_folded_shape`. -/
def validateShape (n : Nat) (a : NDArray α) : Bool × String :=
  if a.shape = [n, n] then (true, "") else (false, "The matrix is not of shape")

/-- psdmatrix_patterns.py:246-289 `validate_folded` (a wrong shape raises; positive definiteness is not checked). -/
def validate (n : Nat) (lb : Flt) (dv : Bool) (a : NDArray α) (vv : Option Bool) : Except Err (Bool × String) :=
  let (ok, msg) := validateShape n a
  if !ok then .error (.valueError msg)
  else if vv.getD dv then
    let d := a.data.map Elem.toFlt
    if (List.range n).any (fun i => (entry n d i i).lt lb) then
      .ok (false, "Diagonal is less than the lower bound.")
    else if !((List.range n).all fun i => (List.range n).all fun j => (entry n d j i).eq (entry n d i j)) then
      .ok (false, "Matrix is not symmetric.")
    else .ok (true, "")
  else .ok (true, "")

/-- psdmatrix_patterns.py:301-316 `fold(free=False)`. -/
def foldNF (n : Nat) (lb : Flt) (dv : Bool) (x : NDArray α) (vv : Option Bool) : Except Err (NDArray α) := do
  let x := x.atleast1d
  if x.ndim ≠ 1 then throw (.valueError "The argument to fold must be a 1d vector.")
  if x.size ≠ n ^ 2 then throw (.valueError "Wrong length for PSDSymmetricMatrix flat value.")
  let folded ← x.reshape [n, n]
  let (valid, msg) ← validate n lb dv folded vv
  if !valid then throw (.valueError msg)
  return folded

/-- psdmatrix_patterns.py:301-316 `fold(free=True)`. -/
def foldFree (n : Nat) (lb : Flt) (x : NDArray Flt) : Except Err (NDArray Flt) := do
  let x := x.atleast1d
  if x.ndim ≠ 1 then throw (.valueError "The argument to fold must be a 1d vector.")
  if x.size ≠ n * (n + 1) / 2 then throw (.valueError "Wrong length for PSDSymmetricMatrix flat value.")
  unpackPosdef lb x

/-- psdmatrix_patterns.py:291-299 `flatten(free=False)`. -/
def flattenNF (n : Nat) (lb : Flt) (dv : Bool) (a : NDArray α) (vv : Option Bool) : Except Err (NDArray α) := do
  let (valid, msg) ← validate n lb dv a vv
  if !valid then throw (.valueError msg)
  return a.flatten

/-- psdmatrix_patterns.py:291-299 `flatten(free=True)`. -/
def flattenFree (n : Nat) (lb : Flt) (dv : Bool) (a : NDArray Flt) (vv : Option Bool) :
    Except Err (NDArray Flt) := do
  let (valid, msg) ← validate n lb dv a vv
  if !valid then throw (.valueError msg)
  packPosdef n lb a

/-- psdmatrix_patterns.py:318-340 `flat_indices`. -/
def flatIndices (n : Nat) (lb : Flt) (mask : NDArray Bool) (free : Bool) : Except Err (List Nat) :=
  if !mask.data.any id then .ok []
  else
    let (ok, msg) := validateShape n mask
    if !ok then .error (.valueError msg)
    else if !free then do
      let folded ← foldNF n lb true (NDArray.vec (List.range (n ^ 2))) (some false)
      return NDArray.maskSelect folded.data mask.data
    else if mask.data.any id then .ok (List.range (n * (n + 1) / 2))
    else .ok []

end PSD

end

end Paragami
