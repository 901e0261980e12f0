import Verif.Model.Pattern

/-!
# Jacobians (`freeing_jacobian`, `unfreeing_jacobian` and their log determinants)

A matrix is a two-dimensional `NDArray`.  The argument `sparse` only chooses the class of the returned object
(`coo_matrix`, `dia_matrix`, `ndarray` or `np.matrix`), not its entries, so it is not a parameter here; it is one in `Model/Sparse.lean`, where
C132 shows this.  scipy's handling of
`0 × 0` diagonal matrices differs between versions; here they are ordinary matrices.

`autograd.jacobian` (base_patterns.py:26-27) is an external function; it is the parameter `ad`.
-/

namespace Paragami

noncomputable section

/-- Number of rows and columns of a two-dimensional array (`0, 0` for other arrays, never used for those). -/
def matDims (a : NDArray Flt) : Nat × Nat :=
  match a.shape with
  | [m, n] => (m, n)
  | _ => (0, 0)

/-- The entries of `scipy.sparse.block_diag(mats)`. -/
def blockEntry : List (NDArray Flt) → Nat → Nat → Flt
  | [], _, _ => 0
  | a :: rest, i, j =>
    let m := (matDims a).1
    let n := (matDims a).2
    if i < m then
      if j < n then entry n a.data i j else 0
    else if j < n then 0
    else blockEntry rest (i - m) (j - n)

/-- `scipy.sparse.block_diag(mats, format='coo')`; it raises on an empty list. -/
def blockDiag (mats : List (NDArray Flt)) : Except Err (NDArray Flt) :=
  match mats with
  | [] => .error (.valueError "need at least one array to concatenate")
  | _ => .ok (ofFn2 (mats.map fun a => (matDims a).1).sum (mats.map fun a => (matDims a).2).sum (blockEntry mats))

/-- `np.diag(v)` and `scipy.sparse.diags(v)` of a vector. -/
def diagMat (d : List Flt) : NDArray Flt :=
  ofFn2 d.length d.length fun i j => if i = j then d.getD i .nan else 0

namespace Numeric

/-- numeric_array_patterns.py:276-283 `freeing_jacobian`: the argument is not validated. -/
def freeingJacobian (lb ub : Flt) (a : NDArray Flt) : NDArray Flt :=
  diagMat (a.data.map (unconstrainJac1 lb ub))

/-- numeric_array_patterns.py:285-294 `unfreeing_jacobian`. -/
def unfreeingJacobian (lb ub : Flt) (a : NDArray Flt) : NDArray Flt :=
  diagMat ((a.data.map (unconstrain1 lb ub)).map (constrainJac1 lb ub))

/-- numeric_array_patterns.py:296-299 `log_abs_det_freeing_jacobian`. -/
def logAbsDetFreeing (lb ub : Flt) (a : NDArray Flt) : Flt :=
  Flt.sum ((a.data.map (unconstrainJac1 lb ub)).map fun x => x.abs.log)

/-- numeric_array_patterns.py:301-306 `log_abs_det_unfreeing_jacobian`. -/
def logAbsDetUnfreeing (lb ub : Flt) (a : NDArray Flt) : Flt :=
  Flt.sum (((a.data.map (unconstrain1 lb ub)).map (constrainJac1 lb ub)).map fun x => x.abs.log)

end Numeric

namespace Simplex

/-- simplex_patterns.py:39-43 `_constrain_simplex_jacobian`: `(-outer(p, p) + diag(p))[:, 1:]`. -/
def constrainJacobian (p : List Flt) : NDArray Flt :=
  ofFn2 p.length (p.length - 1) fun i j =>
    Flt.fin (-1) * (p.getD i .nan * p.getD (j + 1) .nan) + if i = j + 1 then p.getD i .nan else 0

/-- simplex_patterns.py:51-56 `_unconstrain_simplex_jacobian`: the first column is `-1 / p[0]`, the others are
`diag(1 / p[1:])`. -/
def unconstrainJacobian (p : List Flt) : NDArray Flt :=
  ofFn2 (p.length - 1) p.length fun i j =>
    if j = 0 then Flt.fin (-1) / p.getD 0 .nan else if j = i + 1 then 1 / p.getD j .nan else 0

/-- The loops of simplex_patterns.py:186-198 and 200-212: one block for every item of the array.  Items that are not
vectors (the value has more axes than the pattern) and empty ones are left open. -/
def jacobian (f : List Flt → NDArray Flt) (ashape : List Nat) (a : NDArray Flt) : Except Err (NDArray Flt) := do
  let jacs ← mapE (fun item => do
      let sub ← a.getItem item
      if sub.shape.length = 1 ∧ sub.data ≠ [] then .ok (f sub.data) else .error .unmodelled)
    (NDArray.productRanges ashape)
  blockDiag jacs

end Simplex

namespace Pattern

/-- The type of `autograd.jacobian`: from a function of a vector to its matrix of derivatives at a vector. -/
abbrev AutogradJacobian := (NDArray Flt → Except Err (NDArray Flt)) → NDArray Flt → Except Err (NDArray Flt)

/-- The loop of pattern_containers.py:598-612 and 614-629 over the items of a `PatternArray`. -/
def jacobianItems (f : Val Flt → Except Err (NDArray Flt)) (a : NDArray Flt) (ashape : List Nat) :
    Except Err (NDArray Flt) := do
  let jacs ← mapE (fun item => do
      let sub ← a.getItem item
      f (.arr sub)) (NDArray.productRanges ashape)
  blockDiag jacs

mutual
/-- `freeing_jacobian(folded_val)`: numeric_array_patterns.py:276-283, simplex_patterns.py:186-198,
base_patterns.py:243-277 (used by `PSDSymmetricMatrixPattern`), pattern_containers.py:614-629 and 342-353. -/
def freeingJacobian (ad : AutogradJacobian) : Pattern → Val Flt → Except Err (NDArray Flt)
  | numeric _ _ lb ub _ _, v => do
    let a ← v.asArr
    return Numeric.freeingJacobian lb.toFlt ub.toFlt a
  | simplex _ s _ _, v => do
    let a ← v.asArr
    Simplex.jacobian Simplex.unconstrainJacobian s a
  | psd n lb dv fd, v => do
    let x ← (psd n lb dv fd).flatten v (some false)
    ad (psd n lb dv fd).freeingTransform x
  | array s base _, v => do
    let a ← v.asArr
    jacobianItems (fun sub => freeingJacobian ad base sub) a s
  | dict es _ _, v => do
    let vs ← v.asDict
    let jacs ← freeingJacobianEs ad es vs
    blockDiag jacs
/-- The loop of pattern_containers.py:342-347 over the members of a `PatternDict`. -/
def freeingJacobianEs (ad : AutogradJacobian) : Entries → List (String × Val Flt) → Except Err (List (NDArray Flt))
  | .nil, _ => .ok []
  | .cons k p r, vs =>
    match vs.lookup k with
    | none => .error (.keyError k)
    | some v => do
      let j ← freeingJacobian ad p v
      let js ← freeingJacobianEs ad r vs
      return j :: js
end

mutual
/-- `unfreeing_jacobian(folded_val)`: numeric_array_patterns.py:285-294, simplex_patterns.py:200-212,
base_patterns.py:279-313 (used by `PSDSymmetricMatrixPattern`), pattern_containers.py:598-612 and 328-340. -/
def unfreeingJacobian (ad : AutogradJacobian) : Pattern → Val Flt → Except Err (NDArray Flt)
  | numeric _ _ lb ub _ _, v => do
    let a ← v.asArr
    return Numeric.unfreeingJacobian lb.toFlt ub.toFlt a
  | simplex _ s _ _, v => do
    let a ← v.asArr
    Simplex.jacobian Simplex.constrainJacobian s a
  | psd n lb dv fd, v => do
    let x ← (psd n lb dv fd).flatten v (some true)
    ad (psd n lb dv fd).unfreeingTransform x
  | array s base _, v => do
    let a ← v.asArr
    jacobianItems (fun sub => unfreeingJacobian ad base sub) a s
  | dict es _ _, v => do
    let vs ← v.asDict
    let jacs ← unfreeingJacobianEs ad es vs
    blockDiag jacs
/-- The loop of pattern_containers.py:328-333 over the members of a `PatternDict`. -/
def unfreeingJacobianEs (ad : AutogradJacobian) : Entries → List (String × Val Flt) → Except Err (List (NDArray Flt))
  | .nil, _ => .ok []
  | .cons k p r, vs =>
    match vs.lookup k with
    | none => .error (.keyError k)
    | some v => do
      let j ← unfreeingJacobian ad p v
      let js ← unfreeingJacobianEs ad r vs
      return j :: js
end

mutual
/-- `log_abs_det_freeing_jacobian(folded_val)`: numeric_array_patterns.py:296-299, pattern_containers.py:362-367 and,
for every other class, base_patterns.py:315-337, which raises. -/
def logAbsDetFreeing : Pattern → Val Flt → Except Err Flt
  | numeric _ _ lb ub _ _, v => do
    let a ← v.asArr
    return Numeric.logAbsDetFreeing lb.toFlt ub.toFlt a
  | dict es _ _, v => do
    let vs ← v.asDict
    logAbsDetFreeingEs es vs 0
  | _, _ => .error (.notImplementedError "Still thinking about the default.")
/-- The accumulating loop over the members. -/
def logAbsDetFreeingEs : Entries → List (String × Val Flt) → Flt → Except Err Flt
  | .nil, _, acc => .ok acc
  | .cons k p r, vs, acc =>
    match vs.lookup k with
    | none => .error (.keyError k)
    | some v => do
      let d ← logAbsDetFreeing p v
      logAbsDetFreeingEs r vs (acc + d)
end

mutual
/-- `log_abs_det_unfreeing_jacobian(folded_val)`: numeric_array_patterns.py:301-306, pattern_containers.py:355-360
and, for every other class, base_patterns.py:339-361, which raises. -/
def logAbsDetUnfreeing : Pattern → Val Flt → Except Err Flt
  | numeric _ _ lb ub _ _, v => do
    let a ← v.asArr
    return Numeric.logAbsDetUnfreeing lb.toFlt ub.toFlt a
  | dict es _ _, v => do
    let vs ← v.asDict
    logAbsDetUnfreeingEs es vs 0
  | _, _ => .error (.notImplementedError "Still thinking about the default.")
/-- The accumulating loop over the members. -/
def logAbsDetUnfreeingEs : Entries → List (String × Val Flt) → Flt → Except Err Flt
  | .nil, _, acc => .ok acc
  | .cons k p r, vs, acc =>
    match vs.lookup k with
    | none => .error (.keyError k)
    | some v => do
      let d ← logAbsDetUnfreeing p v
      logAbsDetUnfreeingEs r vs (acc + d)
end

end Pattern

end

end Paragami
