import Verif.Model.LinAlg

/-!
# Stacks of matrices

numpy's linear algebra for arrays with more than two axes: the last two are those of a matrix (the last one that of a vector), the
others number the matrices.  The leading shapes of two operands are broadcast.  Arrays with fewer than two axes, where `np.matmul`
adds some, do not occur in `autograd_supplement_lib.py`.
-/

namespace Paragami

namespace LinAlg
open NDArray

/-- Broadcasting of two shapes, last axis first. -/
def bshape : List Nat → List Nat → Option (List Nat)
  | [], t => some t
  | a :: s, [] => some (a :: s)
  | a :: s, b :: t =>
    if a = b then (bshape s t).map (a :: ·)
    else if a = 1 then (bshape s t).map (b :: ·)
    else if b = 1 then (bshape s t).map (a :: ·)
    else none

/-- Which entry of an array of shape `s` is used for entry `q` of the array of shape `t` that it is broadcast to; last axis first. -/
def bindex : List Nat → List Nat → Nat → Nat
  | a :: s, b :: t, q => (if a = 1 then 0 else q % b) + a * bindex s t (q / b)
  | _, _, _ => 0

/-- Matrix number `q` of a stack of matrices of shape `(n, m)`. -/
def stackMat (n m : Nat) (a : NDArray ℝ) (q : Nat) : Matrix (Fin n) (Fin m) ℝ := fun i j => a.data.getD (q * (n * m) + (i * m + j)) 0

/-- A stack of matrices as numpy stores it. -/
def stackOf (s : List Nat) {n m : Nat} (A : Nat → Matrix (Fin n) (Fin m) ℝ) : NDArray ℝ :=
  ⟨s ++ [n, m], (List.range s.prod).flatMap fun q => (ofMatrix (A q)).data⟩

/-- `np.matmul`, and `np.einsum('...ij,...jk->...ik', ...)`, for stacks. -/
def stackMul (a b : NDArray ℝ) : Except Err (NDArray ℝ) :=
  match a.shape.reverse, b.shape.reverse with
  | k :: n :: s, m :: k' :: t =>
    if k = k' then
      match bshape s t with
      | some r => .ok (stackOf r.reverse fun q => stackMat n k a (bindex s r q) * stackMat k m b (bindex t r q))
      | none => .error (.valueError "operands could not be broadcast together")
    else .error shapeErr
  | _, _ => .error .unmodelled

noncomputable section

open Classical in
/-- `np.linalg.inv` for stacks. -/
def stackInv (a : NDArray ℝ) : Except Err (NDArray ℝ) :=
  match a.shape.reverse with
  | m :: n :: s =>
    if n = m then
      if ∃ q < s.prod, (stackMat n n a q).det = 0 then .error .linAlgError else .ok (stackOf s.reverse fun q => (stackMat n n a q)⁻¹)
    else .error .linAlgError
  | _ => .error .linAlgError

/-- `b[..., None]`. -/
def newAxis (b : NDArray ℝ) : NDArray ℝ := ⟨b.shape ++ [1], b.data⟩

/-- `r[..., 0]` when the last axis has length one. -/
def dropAxis (r : NDArray ℝ) : Except Err (NDArray ℝ) :=
  match r.shape.reverse with
  | 1 :: s => .ok ⟨s.reverse, r.data⟩
  | _ => .error .unmodelled

/-- `np.linalg.solve` for stacks, as numpy 1 has it: `b` is a stack of vectors if it has one axis less than `a`, and of matrices
otherwise. -/
def stackSolve (a b : NDArray ℝ) : Except Err (NDArray ℝ) := do
  let ai ← stackInv a
  if b.ndim + 1 = a.ndim then dropAxis (← stackMul ai (newAxis b)) else stackMul ai b

end

end LinAlg

end Paragami
