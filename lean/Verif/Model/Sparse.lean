import Verif.Model.AutogradSupplement
import Verif.Model.Jacobian

/-!
# The argument `sparse` of the Jacobians, and sparse storage

`Model/Jacobian.lean` identifies a sparse matrix with its entries.  Here the stored entries are modelled: what is stored for
`sparse=True`, the class of the result for either value of `sparse`, and products with stored entries.
-/

namespace Paragami

noncomputable section

namespace Sparse

/-- `scipy.sparse.coo_matrix`: the dimensions and the stored entries (row, column, number), in order.  A position may be stored more than
once, and zeros may be stored. -/
structure Coo (α : Type) where
  nrows : Nat
  ncols : Nat
  stored : List (Nat × Nat × α)

/-- What is at one position: the numbers stored for it, added up in order. -/
def atPos {α : Type} [Add α] [OfNat α 0] (l : List (Nat × Nat × α)) (i j : Nat) : α :=
  ((l.filter fun e => e.1 = i ∧ e.2.1 = j).map (·.2.2)).foldl (· + ·) 0

/-- `coo.toarray()`. -/
def Coo.toarray {α : Type} [Add α] [OfNat α 0] (c : Coo α) : NDArray α :=
  ofFn2 c.nrows c.ncols (atPos c.stored)

/-- The stored entries of a dense matrix, row by row: all of them, or those that are not zero (NaN is not zero). -/
def storedOf (all : Bool) (a : NDArray Flt) : List (Nat × Nat × Flt) :=
  (List.range (matDims a).1).flatMap fun i => (List.range (matDims a).2).filterMap fun j =>
    let x := entry (matDims a).2 a.data i j
    if all || !x.eq 0 then some (i, j, x) else none

/-- `scipy.sparse.coo_matrix(a)`: the entries that are not zero. -/
def cooOf (all : Bool) (a : NDArray Flt) : Coo Flt := ⟨(matDims a).1, (matDims a).2, storedOf all a⟩

/-- `scipy.sparse.diags(d).tocoo()`: the entries of the diagonal that are not zero. -/
def diagCoo (d : List Flt) : Coo Flt :=
  ⟨d.length, d.length, (List.range d.length).filterMap fun i => if (d.getD i .nan).eq 0 then none else some (i, i, d.getD i .nan)⟩

/-- The loop of `scipy.sparse.block_diag`: the entries of each block, with its first row and column added. -/
def blockStored : Nat → Nat → List (Coo Flt) → List (Nat × Nat × Flt)
  | _, _, [] => []
  | r, c, a :: rest => a.stored.map (fun e => (e.1 + r, e.2.1 + c, e.2.2)) ++ blockStored (r + a.nrows) (c + a.ncols) rest

/-- `scipy.sparse.block_diag(mats, format='coo')`; it raises on an empty list. -/
def blockDiag (mats : List (Coo Flt)) : Except Err (Coo Flt) :=
  match mats with
  | [] => .error (.valueError "need at least one array to concatenate")
  | _ => .ok ⟨(mats.map (·.nrows)).sum, (mats.map (·.ncols)).sum, blockStored 0 0 mats⟩

/-- The classes of the results. -/
inductive Cls where
  | ndarray | matrix | coo | dia
deriving DecidableEq, Repr

/-- A returned matrix: `np.ndarray`, `np.matrix`, `coo_matrix` or the `dia_matrix` that `scipy.sparse.diags` makes. -/
inductive Result where
  | ndarray (a : NDArray Flt)
  | matrix (a : NDArray Flt)
  | coo (c : Coo Flt)
  | dia (d : List Flt)

/-- The class of a result. -/
def Result.cls : Result → Cls
  | .ndarray _ => .ndarray
  | .matrix _ => .matrix
  | .coo _ => .coo
  | .dia _ => .dia

/-- The result as an array of two dimensions: itself, or `.toarray()`. -/
def Result.toarray : Result → NDArray Flt
  | .ndarray a => a
  | .matrix a => a
  | .coo c => c.toarray
  | .dia d => diagMat d

/-- What `block_diag` takes of a block: `tocoo` of a sparse one, and for a dense one all entries (scipy 1.9 and later) or those
that are not zero. -/
def Result.tocoo (all : Bool) : Result → Coo Flt
  | .ndarray a => cooOf all a
  | .matrix a => cooOf all a
  | .coo c => c
  | .dia d => diagCoo d

/-- The end of the methods of `SimplexArrayPattern` (simplex_patterns.py:192-197 and 205-210): `todense` makes an `np.matrix`. -/
def simplexResult (all sparse : Bool) (jacs : List (NDArray Flt)) : Except Err Result := do
  let sp ← blockDiag (jacs.map (cooOf all))
  return if sparse then .coo sp else .matrix sp.toarray

/-- The end of the methods of the containers (pattern_containers.py:335-340, 349-353, 607-612 and 623-628): `np.array` of the
`np.matrix`. -/
def containerResult (all sparse : Bool) (jacs : List Result) : Except Err Result := do
  let sp ← blockDiag (jacs.map (·.tocoo all))
  return if sparse then .coo sp else .ndarray sp.toarray

/-- The loops of simplex_patterns.py:186-197 and 199-210. -/
def simplexJacobian (all : Bool) (f : List Flt → NDArray Flt) (ashape : List Nat) (sparse : Bool) (a : NDArray Flt) :
    Except Err Result := do
  let jacs ← mapE (fun item => do
      let sub ← a.getItem item
      if sub.shape.length = 1 ∧ sub.data ≠ [] then .ok (f sub.data) else .error .unmodelled)
    (NDArray.productRanges ashape)
  simplexResult all sparse jacs

end Sparse

namespace Pattern
open Sparse

mutual
/-- `freeing_jacobian(folded_val, sparse)`: numeric_array_patterns.py:276-283, simplex_patterns.py:186-197,
base_patterns.py:271-277, pattern_containers.py:614-628 and 342-353.  `all` is the version of scipy (`Result.tocoo`). -/
def freeingSparse (ad : AutogradJacobian) (all : Bool) : Pattern → Bool → Val Flt → Except Err Result
  | numeric _ _ lb ub _ _, sparse, v => do
    let a ← v.asArr
    let d := a.data.map (unconstrainJac1 lb.toFlt ub.toFlt)
    return if sparse then .dia d else .ndarray (diagMat d)
  | simplex _ s _ _, sparse, v => do
    let a ← v.asArr
    simplexJacobian all Simplex.unconstrainJacobian s sparse a
  | psd n lb dv fd, sparse, v => do
    let x ← (psd n lb dv fd).flatten v (some false)
    let jac ← ad (psd n lb dv fd).freeingTransform x
    return if sparse then .coo (cooOf false jac) else .ndarray jac
  | array s base _, sparse, v => do
    let a ← v.asArr
    let jacs ← mapE (fun item => do
        let sub ← a.getItem item
        freeingSparse ad all base true (.arr sub)) (NDArray.productRanges s)
    containerResult all sparse jacs
  | dict es _ _, sparse, v => do
    let vs ← v.asDict
    let jacs ← freeingSparseEs ad all es vs
    containerResult all sparse jacs
/-- The loop of pattern_containers.py:343-347 over the members of a `PatternDict`. -/
def freeingSparseEs (ad : AutogradJacobian) (all : Bool) : Entries → List (String × Val Flt) → Except Err (List Result)
  | .nil, _ => .ok []
  | .cons k p r, vs =>
    match vs.lookup k with
    | none => .error (.keyError k)
    | some v => do
      let j ← freeingSparse ad all p true v
      let js ← freeingSparseEs ad all r vs
      return j :: js
end

mutual
/-- `unfreeing_jacobian(folded_val, sparse)`: numeric_array_patterns.py:285-294, simplex_patterns.py:199-210,
base_patterns.py:308-313, pattern_containers.py:598-612 and 328-340. -/
def unfreeingSparse (ad : AutogradJacobian) (all : Bool) : Pattern → Bool → Val Flt → Except Err Result
  | numeric _ _ lb ub _ _, sparse, v => do
    let a ← v.asArr
    let d := (a.data.map (unconstrain1 lb.toFlt ub.toFlt)).map (constrainJac1 lb.toFlt ub.toFlt)
    return if sparse then .dia d else .ndarray (diagMat d)
  | simplex _ s _ _, sparse, v => do
    let a ← v.asArr
    simplexJacobian all Simplex.constrainJacobian s sparse a
  | psd n lb dv fd, sparse, v => do
    let x ← (psd n lb dv fd).flatten v (some true)
    let jac ← ad (psd n lb dv fd).unfreeingTransform x
    return if sparse then .coo (cooOf false jac) else .ndarray jac
  | array s base _, sparse, v => do
    let a ← v.asArr
    let jacs ← mapE (fun item => do
        let sub ← a.getItem item
        unfreeingSparse ad all base true (.arr sub)) (NDArray.productRanges s)
    containerResult all sparse jacs
  | dict es _ _, sparse, v => do
    let vs ← v.asDict
    let jacs ← unfreeingSparseEs ad all es vs
    containerResult all sparse jacs
/-- The loop of pattern_containers.py:329-333 over the members of a `PatternDict`. -/
def unfreeingSparseEs (ad : AutogradJacobian) (all : Bool) : Entries → List (String × Val Flt) → Except Err (List Result)
  | .nil, _ => .ok []
  | .cons k p r, vs =>
    match vs.lookup k with
    | none => .error (.keyError k)
    | some v => do
      let j ← unfreeingSparse ad all p true v
      let js ← unfreeingSparseEs ad all r vs
      return j :: js
end

end Pattern

namespace Sparse

/-- `z.T`. -/
def Coo.transpose {α : Type} (z : Coo α) : Coo α := ⟨z.ncols, z.nrows, z.stored.map fun e => (e.2.1, e.1, e.2.2)⟩

/-- One entry of a product: the entries stored for row `i`, in order, each times what `b` has in the row that is their column. -/
def rowTimes (z : Coo ℝ) (b : Nat → ℝ) (i : Nat) : ℝ :=
  ((z.stored.filter fun e => e.1 = i).map fun e => e.2.2 * b e.2.1).foldl (· + ·) 0

/-- `z @ b` for a sparse matrix and a vector or a matrix. -/
def Coo.matmul (z : Coo ℝ) (b : NDArray ℝ) : Except Err (NDArray ℝ) :=
  match b.shape with
  | [k] => if z.ncols = k then .ok (NDArray.vec ((List.range z.nrows).map (rowTimes z fun j => b.data.getD j 0)))
    else .error LinAlg.shapeErr
  | [k, l] => if z.ncols = k then .ok (ofFn2 z.nrows l fun i t => rowTimes z (fun j => b.data.getD (j * l + t) 0) i)
    else .error LinAlg.shapeErr
  | _ => .error .unmodelled

/-- autograd_supplement_lib.py:94-106 one of the functions `get_sparse_product` returns. -/
def Coo.times (z : Coo ℝ) : Optimization.Op := fun b =>
  let b := b.atleast1d
  if b.ndim > 2 then .error (.valueError "The argument must be at most two dimensional.") else z.matmul b

/-- autograd_supplement_lib.py:68-128 `get_sparse_product` of a sparse matrix: what the two primitives compute. -/
def sparseProduct (z : Coo ℝ) : Autograd.Prim → Optimization.Op
  | .fwd => z.times
  | .tr => z.transpose.times

end Sparse

end

end Paragami
