import Verif.Model.Optimization
import Verif.Model.Rounding

/-!
# Preconditioners with rounded arithmetic

The counterpart of the first half of `Model/Optimization.lean`, for vectors and real thresholds: every operation is rounded by the machine `Arith`.
`np.sqrt` is correctly rounded, as IEEE 754 prescribes.  `np.linalg.eigh` and `np.linalg.inv` return whatever the library returns.
-/

namespace Paragami

noncomputable section

open Classical in
/-- The square root of a number, before rounding. -/
def Flt.sqrt : Flt → Flt
  | .fin r => if 0 ≤ r then .fin (Real.sqrt r) else .nan
  | .pinf => .pinf
  | _ => .nan

/-- `np.sqrt` of one number. -/
def Arith.sqrt (A : Arith) (x : Flt) : Flt := A.round x.sqrt

namespace Optimization
open NDArray

/-- A function between arrays of floats. -/
abbrev OpA := NDArray Flt → Except Err (NDArray Flt)

/-- `a @ v` for a matrix and a vector; other numbers of dimensions are not modelled. -/
def matvecA (A : Arith) (a : NDArray Flt) : OpA := fun v =>
  match a.shape, v.shape with
  | [n, m], [k] =>
    if m = k then .ok (vec ((List.range n).map fun i => A.dot ((List.range m).map fun j => (entry m a.data i j, v.data.getD j .nan))))
    else .error LinAlg.shapeErr
  | _, _ => .error .unmodelled

/-- `a.T` for a matrix. -/
def transposeA (a : NDArray Flt) : Except Err (NDArray Flt) :=
  match a.shape with
  | [n, m] => .ok (ofFn2 m n fun i j => entry m a.data j i)
  | _ => .error .unmodelled

/-- `a - b`, `a + b` and `a * b` for vectors of one length. -/
def zipA (f : Flt → Flt → Flt) (a b : NDArray Flt) : Except Err (NDArray Flt) :=
  if a.shape = b.shape then .ok ⟨a.shape, List.zipWith f a.data b.data⟩ else .error .unmodelled

/-- optimization_lib.py:16-45 `truncate_eigenvalues` of an array of floats with float thresholds; nothing is rounded. -/
def truncateA (evMin evMax : Option Flt) (v : List Flt) : List Flt :=
  let v := match evMin with
    | none => v
    | some t => v.map fun x => if x.le t then t else x
  match evMax with
  | none => v
  | some t => v.map fun x => if t.le x then t else x

/-- optimization_lib.py:48-95 `transform_eigenspace`. -/
def transformEigenspaceA (A : Arith) (eigvecs eigvals : NDArray Flt) (transform : Flt → Flt) : Except Err OpA := do
  if eigvecs.ndim ≠ 2 then throw (.valueError "``eigvecs`` must be 2d.")
  if eigvals.ndim ≠ 1 then throw (.valueError "``eigvals`` must be 1d.")
  if eigvecs.shape[1]? ≠ eigvals.shape[0]? then
    throw (.valueError "The columns of ``eigvecs`` and length of ``eigvals`` must match.")
  let newEigvals := eigvals.map transform
  return fun v => do
    let loadings ← matvecA A (← transposeA eigvecs) v
    let scaled ← zipA A.mul (newEigvals.map fun x => A.sub x 1) loadings
    zipA A.add v (← matvecA A eigvecs scaled)

/-- `0.5 * (mat + mat.T)` (optimization_lib.py:109) for a square matrix. -/
def symmetrizeA (A : Arith) (a : NDArray Flt) : Except Err (NDArray Flt) :=
  match a.shape with
  | [n, m] =>
    if n = m then .ok (ofFn2 n n fun i j => A.mul (.fin (1 / 2)) (A.add (entry n a.data i j) (entry n a.data j i)))
    else .error .unmodelled
  | _ => .error .unmodelled

/-- `np.linalg.eigh` of an `n × n` array: eigenvalues and a matrix whose columns are eigenvectors. -/
abbrev EighA := Nat → NDArray Flt → Except Err (List Flt × NDArray Flt)

/-- optimization_lib.py:98-119 `_get_sym_matrix_inv_sqrt_funcs` for a square matrix: (square root, inverse square root). -/
def symMatrixInvSqrtFuncsA (A : Arith) (eigh : EighA) (mat : NDArray Flt) (evMin evMax : Option Flt) : Except Err (OpA × OpA) := do
  let sym ← symmetrizeA A mat
  let n ← sym.len
  let (d, U) ← eigh n sym
  let d := truncateA evMin evMax d
  let sqrt ← transformEigenspaceA A U (vec d) A.sqrt
  let invSqrt ← transformEigenspaceA A U (vec d) fun x => A.div 1 (A.sqrt x)
  return (sqrt, invSqrt)

/-- The attributes of a `PreconditionedFunction`. -/
structure PrecondA where
  aTimes : OpA
  aInvTimes : OpA

/-- optimization_lib.py:205-221 `set_preconditioner_matrix` for a dense matrix; `inv` is `np.linalg.inv`. -/
def PrecondA.setMatrix (A : Arith) (inv : OpA) (a : NDArray Flt) (aInv : Option (NDArray Flt)) : Except Err PrecondA := do
  let ai ← match aInv with
    | none => inv a
    | some b => pure b
  return ⟨matvecA A a, matvecA A ai⟩

/-- optimization_lib.py:244-291 `set_preconditioner_with_hessian(hessian=...)` for a dense square matrix. -/
def PrecondA.withHessian (A : Arith) (eigh : EighA) (hessian : NDArray Flt) (evMin evMax : Option Flt) : Except Err PrecondA := do
  let (sqrt, invSqrt) ← symMatrixInvSqrtFuncsA A eigh hessian evMin evMax
  return ⟨invSqrt, sqrt⟩

/-- `np.linalg.norm` of a vector, which is the root of the product of the vector with itself. -/
def normA (A : Arith) (a : NDArray Flt) : Flt := A.sqrt (A.dot (a.data.map fun x => (x, x)))

/-- optimization_lib.py:230-235 `check_preconditioner`. -/
def PrecondA.check (A : Arith) (s : PrecondA) (v : NDArray Flt) (tol : Flt) : Except Err Unit := do
  let w ← s.aTimes (← s.aInvTimes v)
  let d ← zipA A.sub v w
  if (normA A d).gt tol then throw (.valueError "``a_times`` does not invert ``a_inv_times``.")

end Optimization

end

end Paragami
