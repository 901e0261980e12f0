import Mathlib.Analysis.SpecialFunctions.Gamma.Basic
import Mathlib.Analysis.Calculus.IteratedDeriv.Defs
import Mathlib.Analysis.SpecialFunctions.Log.Basic
import Verif.Model.Optimization
import Verif.Model.Stacks

/-!
# `autograd_supplement_lib.py` and `sparse_preconditioners_lib.py`

Exact real arithmetic.  A registered derivative rule is a function here; that autograd calls it at the right time is autograd's
business.  The theorems say what the rules compute.
-/

namespace Paragami

namespace Autograd
open NDArray LinAlg

/-! ### Indexing -/

/-- The position a Python index denotes in an axis of length `n`: negative ones count from the end; `IndexError` if out of range. -/
def wrap (n : Nat) (i : ℤ) : Except Err Nat :=
  if 0 ≤ i ∧ i < n then .ok i.toNat else if i < 0 ∧ -n ≤ i then .ok (n + i).toNat else .error .indexError

noncomputable section

/-! ### `grouped_sum` -/

/-- `result[k] += row`. -/
def addRow (result : List (List ℝ)) (k : Nat) (row : List ℝ) : List (List ℝ) := result.modify k fun r => List.zipWith (· + ·) r row

/-- The loop (autograd_supplement_lib.py:219-223). -/
def addRows (num : Nat) : List ℤ → List (List ℝ) → List (List ℝ) → Except Err (List (List ℝ))
  | i :: is, row :: rest, result =>
    match wrap num i with
    | .error e => .error e
    | .ok k => addRows num is rest (addRow result k row)
  | _, _, result => .ok result

/-- `np.max(groups)` (autograd_supplement_lib.py:209): `ValueError` for nothing. -/
def maxGroup (l : List ℤ) : Except Err ℤ :=
  match l.max? with
  | none => .error (.valueError "zero-size array to reduction operation maximum which has no identity")
  | some m => .ok m

/-- autograd_supplement_lib.py:210-215: the number of groups. -/
def groupCount (max : ℤ) : Option ℤ → Except Err ℤ
  | none => .ok (max + 1)
  | some k => if max ≥ k then .error (.valueError "The largest group is >= the number of groups.") else .ok k

/-- `np.zeros((num, ) + t)` as rows (autograd_supplement_lib.py:217). -/
def zeroRows (num : ℤ) (d : Nat) : Except Err (List (List ℝ)) :=
  if num < 0 then .error (.valueError "negative dimensions are not allowed") else .ok (List.replicate num.toNat (List.replicate d 0))

/-- autograd_supplement_lib.py:184-224 `grouped_sum`; a row is `x[n, ...]`.  `groups` already are integers (`astype('int64')` rounds
floats towards zero). -/
def groupedSum (x : NDArray ℝ) (groups : NDArray ℤ) (numGroups : Option ℤ) : Except Err (NDArray ℝ) :=
  let x := x.atleast1d
  let groups := groups.atleast1d
  if groups.ndim > 1 then .error (.valueError "groups must be a vector.")
  else do
    let n ← groups.len
    if x.shape.headD 0 ≠ n then .error (.valueError "The first dimension of x must match the length of groups")
    else do
      let max ← maxGroup groups.data
      let num ← groupCount max numGroups
      let zeros ← zeroRows num x.shape.tail.prod
      let result ← addRows num.toNat groups.data (rows n x.shape.tail.prod x.data) zeros
      return ⟨num.toNat :: x.shape.tail, result.flatten⟩

/-- autograd_supplement_lib.py:227-231 `_ungroup`: `v[groups, ...]` for a vector of integers. -/
def ungroup (v : NDArray ℝ) (groups : NDArray ℤ) : Except Err (NDArray ℝ) :=
  match v.shape, groups.shape with
  | n :: t, [k] => do
    let r ← mapE (fun i => do
      let j ← wrap n i
      return (v.data.drop (j * t.prod)).take t.prod) groups.data
    return ⟨k :: t, r.flatten⟩
  | _, _ => .error .unmodelled

/-- autograd_supplement_lib.py:233-236 `grouped_sum_vjp`. -/
def groupedSumVjp (_ans _x : NDArray ℝ) (groups : NDArray ℤ) (_numGroups : Option ℤ) (v : NDArray ℝ) : Except Err (NDArray ℝ) := ungroup v groups

/-- autograd_supplement_lib.py:239-240 `grouped_sum_jvp`. -/
def groupedSumJvp (v _ans _x : NDArray ℝ) (groups : NDArray ℤ) (numGroups : Option ℤ) : Except Err (NDArray ℝ) := groupedSum v groups numGroups

/-! ### `replace` -/

/-- `x_new[inds] = vals` after the checks: one entry after the other. -/
def assign : List ℝ → List Nat → List ℝ → List ℝ
  | x, k :: ks, v :: vs => assign (x.set k v) ks vs
  | x, _, _ => x

/-- autograd_supplement_lib.py:246-265 `replace` for a vector `x`, a list of integers `inds`, and `x_sub` with at most one axis, which
is broadcast.  If the index and the value are both bad it is not modelled which exception comes first. -/
def replace (xSub x : NDArray ℝ) (inds : List ℤ) : Except Err (NDArray ℝ) :=
  match x.shape, xSub.shape with
  | [n], s =>
    let vals : Option (List ℝ) := match s with
      | [] => some (List.replicate inds.length (xSub.data.headD 0))
      | [k] => if k = inds.length then some xSub.data else if k = 1 then some (List.replicate inds.length (xSub.data.headD 0)) else none
      | _ => none
    if s.length > 1 then .error .unmodelled
    else match mapE (wrap n) inds, vals with
      | .ok ks, some vs => .ok (vec (assign x.data ks vs))
      | .error e, some _ => .error e
      | .ok _, none => .error (.valueError "shape mismatch: value array could not be broadcast to indexing result")
      | .error _, none => .error .unmodelled
  | _, _ => .error .unmodelled

/-- autograd_supplement_lib.py:246-265 `replace` in memory, for vectors that exist there: a new array (two statements), a copy of `x`,
which then is written to. -/
def replaceIn (m : Optimization.Mem) (xSub x : Nat) (inds : List ℤ) : Except Err (Optimization.Mem × Nat) := do
  let (m, a) := m.alloc (m.read x)
  let r ← replace (vec (m.read xSub)) (vec (m.read a)) inds
  return (m.write a r.data, a)

/-- `g[inds]` for a vector and a list of integers. -/
def gather (g : NDArray ℝ) (inds : List ℤ) : Except Err (NDArray ℝ) :=
  match g.shape with
  | [n] => do
    let r ← mapE (fun i => do
      let j ← wrap n i
      return g.data.getD j 0) inds
    return vec r
  | _ => .error .unmodelled

/-- The scalar `0`. -/
def zeroScalar : NDArray ℝ := ⟨[], [0]⟩

/-- autograd_supplement_lib.py:268 the reverse rule for `x_sub`. -/
def replaceVjpSub (_ans _xSub _x : NDArray ℝ) (inds : List ℤ) (g : NDArray ℝ) : Except Err (NDArray ℝ) := gather g inds
/-- autograd_supplement_lib.py:269 the reverse rule for `x`. -/
def replaceVjpX (_ans _xSub _x : NDArray ℝ) (inds : List ℤ) (g : NDArray ℝ) : Except Err (NDArray ℝ) := replace zeroScalar g inds
/-- autograd_supplement_lib.py:273 the forward rule for `x_sub`. -/
def replaceJvpSub (g _ans _xSub x : NDArray ℝ) (inds : List ℤ) : Except Err (NDArray ℝ) := do
  let n ← x.len
  replace g (vec (List.replicate n 0)) inds
/-- autograd_supplement_lib.py:274 the forward rule for `x`. -/
def replaceJvpX (g _ans _xSub _x : NDArray ℝ) (inds : List ℤ) : Except Err (NDArray ℝ) := replace zeroScalar g inds

/-! ### Linear algebra -/

/-- `np.matmul(a, b)`; stacks are in `Model/Stacks.lean`. -/
def mulAny (a b : NDArray ℝ) : Except Err (NDArray ℝ) := if a.ndim ≤ 2 ∧ b.ndim ≤ 2 then matmul a b else stackMul a b

/-- `np.linalg.inv(a)`. -/
def invAny (a : NDArray ℝ) : Except Err (NDArray ℝ) := if a.ndim ≤ 2 then inv a else stackInv a

/-- `np.linalg.solve(a, b)`: a square matrix and a vector or matrix, or stacks. -/
def solve (a b : NDArray ℝ) : Except Err (NDArray ℝ) :=
  if a.ndim ≤ 2 ∧ b.ndim ≤ 2 then do
    let ai ← inv a
    matmul ai b
  else stackSolve a b

open Classical in
/-- `np.linalg.slogdet` of a square matrix with non-zero determinant (otherwise the logarithm is `-inf`): sign and log. -/
def slogdet (a : NDArray ℝ) : Except Err (ℝ × ℝ) :=
  match a.shape with
  | [n, m] =>
    if n = m then
      let d := (toMatrix n n a).det
      if d = 0 then .error .unmodelled else .ok (if d < 0 then -1 else 1, Real.log |d|)
    else .error .linAlgError
  | [] => .error .linAlgError
  | [_] => .error .linAlgError
  | _ => .error .unmodelled

/-- `-a`. -/
def neg (a : NDArray ℝ) : NDArray ℝ := a.map (- ·)

/-- autograd_supplement_lib.py:37-39 `inv_jvp`: `np.dot` for matrices, `einsum` otherwise. -/
def invJvp (g ans _x : NDArray ℝ) : Except Err (NDArray ℝ) := do
  let dot := if ans.ndim = 2 then matmul else stackMul
  return neg (← dot (← dot ans g) ans)

/-- autograd_supplement_lib.py:44-47 `broadcast_matmul`: `b[..., None]` and `[..., 0]` unless the numbers of axes agree. -/
def broadcastMatmul (a b : NDArray ℝ) : Except Err (NDArray ℝ) :=
  if b.ndim = a.ndim then mulAny a b
  else do
    let r ← mulAny a (newAxis b)
    dropAxis r

/-- autograd_supplement_lib.py:43-51 `jvp_solve` with `argnum == 0`. -/
def solveJvpA (g ans a _b : NDArray ℝ) : Except Err (NDArray ℝ) := do
  return neg (← broadcastMatmul (← solve a g) ans)
/-- autograd_supplement_lib.py:43-51 `jvp_solve` with `argnum == 1`. -/
def solveJvpB (g _ans a _b : NDArray ℝ) : Except Err (NDArray ℝ) := solve a g

/-- autograd_supplement_lib.py:56-63 `slogdet_jvp`. -/
def slogdetJvp (g : NDArray ℝ) (_ans : ℝ × ℝ) (x : NDArray ℝ) : Except Err (ℝ × ℝ) := do
  if x.shape.length > 2 then throw (.valueError "JVP is only supported for 2d input.")
  let r ← solve (← transpose x) (← transpose g)
  match r.shape with
  | [n, m] => return (0, if n = m then (toMatrix n n r).trace else 0)
  | _ => throw .unmodelled

/-! ### Sparse products and solvers -/

/-- The two functions that `get_sparse_product` or `get_differentiable_solver` returns. -/
inductive Prim where
  | fwd
  | tr

/-- autograd_supplement_lib.py:68-128 `get_sparse_product`: what the two primitives compute (`z_mat.T` is taken at each call there). -/
def getSparseProduct (z : NDArray ℝ) : Except Err (Prim → Optimization.Op) := do
  Optimization.checkSparse z
  let zt ← transpose z
  return fun
    | .fwd => Optimization.sparseTimes z
    | .tr => Optimization.sparseTimes zt

/-- autograd_supplement_lib.py:131-180 `get_differentiable_solver`: what the two primitives compute. -/
def getDifferentiableSolver (zSolve ztSolve : Optimization.Op) : Prim → Optimization.Op
  | .fwd => zSolve
  | .tr => ztSolve

/-- autograd_supplement_lib.py:109-111, 119-121 and 161-173 the primitive that the forward rule of a primitive calls, on the tangent. -/
def jvpPrim : Prim → Prim
  | .fwd => .fwd
  | .tr => .tr

/-- autograd_supplement_lib.py:113-117, 123-127 and 161-173 the primitive that the reverse rule of a primitive calls, on the cotangent. -/
def vjpPrim : Prim → Prim
  | .fwd => .tr
  | .tr => .fwd

/-- Forward or reverse mode. -/
inductive Mode where
  | forward
  | reverse

/-- Differentiating repeatedly: the derivative of a primitive is a call of a primitive, which can be differentiated again. -/
def diffPrim : List Mode → Prim → Prim
  | [], p => p
  | .forward :: l, p => diffPrim l (jvpPrim p)
  | .reverse :: l, p => diffPrim l (vjpPrim p)

/-! ### Special functions (external: scipy) -/

/-- `scipy.special.gammaln`: the logarithm of the absolute value (`Real.log` ignores the sign). -/
def gammaln (x : ℝ) : ℝ := Real.log (Real.Gamma x)
/-- `scipy.special.psi`, `scipy.special.digamma`. -/
def psi (x : ℝ) : ℝ := deriv gammaln x
/-- `scipy.special.polygamma`: the derivatives of `psi`. -/
def polygamma (n : Nat) (x : ℝ) : ℝ := iteratedDeriv n psi x
/-- `scipy.special.rgamma`. -/
def rgamma (x : ℝ) : ℝ := 1 / Real.Gamma x

/-- autograd_supplement_lib.py:20-21. -/
def polygammaJvp (g _ans : ℝ) (n : Nat) (x : ℝ) : ℝ := g * polygamma (n + 1) x
/-- autograd_supplement_lib.py:22-23 (`psi` and `digamma`). -/
def psiJvp (g _ans x : ℝ) : ℝ := g * polygamma 1 x
/-- autograd_supplement_lib.py:24. -/
def gammaJvp (g ans x : ℝ) : ℝ := g * ans * psi x
/-- autograd_supplement_lib.py:25. -/
def gammalnJvp (g _ans x : ℝ) : ℝ := g * psi x
/-- autograd_supplement_lib.py:26-27. -/
def rgammaJvp (g _ans x : ℝ) : ℝ := g * psi x / -Real.Gamma x

/-! ### `sparse_preconditioners_lib.py` -/

/-- What `sksparse.cholmod.cholesky` returns: the factor `L()` and the permutation `P` (`apply_Pt` multiplies by its transpose). -/
structure Cholmod (n : Nat) where
  L : Matrix (Fin n) (Fin n) ℝ
  P : Matrix (Fin n) (Fin n) ℝ

/-- `sksparse.cholmod.cholesky`, for each size; `LinAlgError` stands for `CholmodNotPositiveDefiniteError`. -/
abbrev CholmodFn := ∀ n : Nat, Matrix (Fin n) (Fin n) ℝ → Except Err (Cholmod n)

/-- sparse_preconditioners_lib.py:24-28 `_get_cholesky_sqrt_mat`. -/
def choleskySqrtMat {n : Nat} (c : Cholmod n) : NDArray ℝ := ofMatrix (c.P.transpose * c.L)

/-- sparse_preconditioners_lib.py:31-46 `_get_sparse_square_root_operators`: (solve with the transpose, multiply by the transpose).
`factorized(m)` is the function that solves with `m`. -/
def sparseSqrtOperators {n : Nat} (c : Cholmod n) : Except Err (Optimization.Op × Optimization.Op) := do
  let s := choleskySqrtMat c
  let st ← transpose s
  let product ← getSparseProduct s
  return (getDifferentiableSolver (solve s) (solve st) .tr, product .tr)

/-- sparse_preconditioners_lib.py:51-76 `get_sym_matrix_inv_sqrt_funcs`: (square root, inverse square root). -/
def sparseInvSqrtFuncs (chol : CholmodFn) (hessian : Optimization.MatArg) : Except Err (Optimization.Op × Optimization.Op) := do
  if !hessian.sparse then throw (.valueError "``hessian`` needs to be sparse.")
  match hessian.arr.shape with
  | [n, m] =>
    if n = m then do
      let c ← chol n (toMatrix n n hessian.arr)
      let (inv, mult) ← sparseSqrtOperators c
      return (mult, inv)
    else throw .unmodelled
  | _ => throw .unmodelled

end

end Autograd

end Paragami
