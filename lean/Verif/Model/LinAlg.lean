import Mathlib.LinearAlgebra.Matrix.NonsingularInverse
import Mathlib.Analysis.Real.Sqrt
import Verif.Model.NDArray

/-!
# numpy linear algebra

Arrays of exact reals: the linear algebra of `optimization_lib.py`, `autograd_supplement_lib.py` and `sparse_preconditioners_lib.py`
is stated for finite numbers.  Sparse and dense matrices are the same arrays; stored entries are in `Model/Sparse.lean` (C132).
-/

namespace Paragami

namespace LinAlg
open NDArray

/-- The vector as numpy stores it. -/
def vecOf {n : Nat} (v : Fin n → ℝ) : NDArray ℝ := vec (List.ofFn v)
/-- The matrix as numpy stores it. -/
def ofMatrix {n m : Nat} (M : Matrix (Fin n) (Fin m) ℝ) : NDArray ℝ := ⟨[n, m], (List.ofFn fun i => List.ofFn (M i)).flatten⟩
/-- The entries of a vector of length `n`. -/
def toVec (n : Nat) (a : NDArray ℝ) : Fin n → ℝ := fun i => a.data.getD i 0
/-- The entries of an array of shape `(n, m)`. -/
def toMatrix (n m : Nat) (a : NDArray ℝ) : Matrix (Fin n) (Fin m) ℝ := fun i j => a.data.getD (i * m + j) 0

/-- numpy's message for incompatible shapes. -/
def shapeErr : Err := .valueError "shapes not aligned"

/-- `a @ b` for a matrix and a vector or a matrix (other numbers of dimensions are not modelled). -/
def matmul (a b : NDArray ℝ) : Except Err (NDArray ℝ) :=
  match a.shape, b.shape with
  | [n, m], [k] => if m = k then .ok (vecOf ((toMatrix n m a).mulVec (toVec m b))) else .error shapeErr
  | [n, m], [k, l] => if m = k then .ok (ofMatrix (toMatrix n m a * toMatrix m l b)) else .error shapeErr
  | _, _ => .error .unmodelled

/-- `a.T` (the identity for vectors). -/
def transpose (a : NDArray ℝ) : Except Err (NDArray ℝ) :=
  match a.shape with
  | [] => .ok a
  | [_] => .ok a
  | [n, m] => .ok (ofMatrix (toMatrix n m a).transpose)
  | _ => .error .unmodelled

noncomputable section

open Classical in
/-- `np.linalg.inv`: `LinAlgError` for anything but a square matrix and for a singular one; stacks of matrices are not modelled. -/
def inv (a : NDArray ℝ) : Except Err (NDArray ℝ) :=
  match a.shape with
  | [n, m] =>
    if n = m then
      if (toMatrix n n a).det = 0 then .error .linAlgError else .ok (ofMatrix (toMatrix n n a)⁻¹)
    else .error .linAlgError
  | [] => .error .linAlgError
  | [_] => .error .linAlgError
  | _ => .error .unmodelled

/-- `np.linalg.norm` of a vector. -/
def norm (a : NDArray ℝ) : ℝ := Real.sqrt (a.data.map (fun x => x * x)).sum

end

/-- `a - b` for arrays of one shape (broadcasting of vectors is not modelled). -/
def sub (a b : NDArray ℝ) : Except Err (NDArray ℝ) :=
  if a.shape = b.shape then .ok ⟨a.shape, List.zipWith (· - ·) a.data b.data⟩ else .error .unmodelled

/-- `a + b` for arrays of one shape. -/
def add (a b : NDArray ℝ) : Except Err (NDArray ℝ) :=
  if a.shape = b.shape then .ok ⟨a.shape, List.zipWith (· + ·) a.data b.data⟩ else .error .unmodelled

/-- `a * b` (elementwise) for arrays of one shape. -/
def mul (a b : NDArray ℝ) : Except Err (NDArray ℝ) :=
  if a.shape = b.shape then .ok ⟨a.shape, List.zipWith (· * ·) a.data b.data⟩ else .error .unmodelled

/-- `np.atleast_2d`. -/
def atleast2d (a : NDArray ℝ) : NDArray ℝ :=
  match a.shape with
  | [] => ⟨[1, 1], a.data⟩
  | [n] => ⟨[1, n], a.data⟩
  | _ => a

end LinAlg

end Paragami
