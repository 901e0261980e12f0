import Verif.Model.Jacobian
import Verif.Model.RoundingFlatten

/-!
# Jacobians with rounded arithmetic

The counterpart of `Model/Jacobian.lean`: the entries of the Jacobians of numeric and simplex patterns, and their log determinants, with
every arithmetic operation rounded.  `np.abs` and building block matrices round nothing.
-/

namespace Paragami

noncomputable section

/-- numeric_array_patterns.py:28-40 `_unconstrain_array_jacobian`, one entry. -/
def unconstrainJac1A (A : Arith) (lb ub x : Flt) : Flt :=
  if ub.eq .pinf then
    if lb.eq .ninf then 1
    else A.div 1 (A.sub x lb)
  else
    if lb.eq .ninf then A.div 1 (A.sub ub x)
    else A.add (A.div 1 (A.sub x lb)) (A.div 1 (A.sub ub x))

/-- numeric_array_patterns.py:61-77 `_constrain_array_jacobian`, one entry. -/
def constrainJac1A (A : Arith) (lb ub y : Flt) : Flt :=
  if ub.eq .pinf then
    if lb.eq .ninf then 1
    else A.exp y
  else
    if lb.eq .ninf then A.exp (A.mul (Flt.fin (-1)) y)
    else
      let ratio := A.div (A.exp y) (A.add 1 (A.exp y))
      A.mul (A.mul (A.sub ub lb) ratio) (A.sub 1 ratio)

namespace Numeric

/-- numeric_array_patterns.py:276-283 `freeing_jacobian`. -/
def freeingJacobianA (A : Arith) (lb ub : Flt) (a : NDArray Flt) : NDArray Flt :=
  diagMat (a.data.map (unconstrainJac1A A lb ub))

/-- numeric_array_patterns.py:285-294 `unfreeing_jacobian`. -/
def unfreeingJacobianA (A : Arith) (lb ub : Flt) (a : NDArray Flt) : NDArray Flt :=
  diagMat ((a.data.map (unconstrain1A A lb ub)).map (constrainJac1A A lb ub))

/-- numeric_array_patterns.py:296-299 `log_abs_det_freeing_jacobian`. -/
def logAbsDetFreeingA (A : Arith) (lb ub : Flt) (a : NDArray Flt) : Flt :=
  A.sum ((a.data.map (unconstrainJac1A A lb ub)).map fun x => A.log x.abs)

/-- numeric_array_patterns.py:301-306 `log_abs_det_unfreeing_jacobian`. -/
def logAbsDetUnfreeingA (A : Arith) (lb ub : Flt) (a : NDArray Flt) : Flt :=
  A.sum (((a.data.map (unconstrain1A A lb ub)).map (constrainJac1A A lb ub)).map fun x => A.log x.abs)

end Numeric

namespace Simplex

/-- simplex_patterns.py:39-43 `_constrain_simplex_jacobian`. -/
def constrainJacobianA (A : Arith) (p : List Flt) : NDArray Flt :=
  ofFn2 p.length (p.length - 1) fun i j =>
    A.add (A.mul (Flt.fin (-1)) (A.mul (p.getD i .nan) (p.getD (j + 1) .nan))) (if i = j + 1 then p.getD i .nan else 0)

/-- simplex_patterns.py:51-56 `_unconstrain_simplex_jacobian`. -/
def unconstrainJacobianA (A : Arith) (p : List Flt) : NDArray Flt :=
  ofFn2 (p.length - 1) p.length fun i j =>
    if j = 0 then A.div (Flt.fin (-1)) (p.getD 0 .nan) else if j = i + 1 then A.div 1 (p.getD j .nan) else 0

end Simplex

namespace Pattern

mutual
/-- `freeing_jacobian(folded_val)` in rounded arithmetic, same source lines as `freeingJacobian`; `ad` is what autograd computes with the
machine's arithmetic for positive definite matrices. -/
def freeingJacobianA (A : Arith) (ad : Pattern → Val Flt → Except Err (NDArray Flt)) : Pattern → Val Flt → Except Err (NDArray Flt)
  | numeric _ _ lb ub _ _, v => do
    let a ← v.asArr
    return Numeric.freeingJacobianA A lb.toFlt ub.toFlt a
  | simplex _ s _ _, v => do
    let a ← v.asArr
    Simplex.jacobian (Simplex.unconstrainJacobianA A) s a
  | psd n lb dv fd, v => ad (psd n lb dv fd) v
  | array s base _, v => do
    let a ← v.asArr
    jacobianItems (fun sub => freeingJacobianA A ad base sub) a s
  | dict es _ _, v => do
    let vs ← v.asDict
    let jacs ← freeingJacobianAEs A ad es vs
    blockDiag jacs
/-- The loop of pattern_containers.py:342-347 over the members of a `PatternDict`. -/
def freeingJacobianAEs (A : Arith) (ad : Pattern → Val Flt → Except Err (NDArray Flt)) :
    Entries → List (String × Val Flt) → Except Err (List (NDArray Flt))
  | .nil, _ => .ok []
  | .cons k p r, vs =>
    match vs.lookup k with
    | none => .error (.keyError k)
    | some v => do
      let j ← freeingJacobianA A ad p v
      let js ← freeingJacobianAEs A ad r vs
      return j :: js
end

mutual
/-- `unfreeing_jacobian(folded_val)` in rounded arithmetic, same source lines as `unfreeingJacobian`. -/
def unfreeingJacobianA (A : Arith) (ad : Pattern → Val Flt → Except Err (NDArray Flt)) : Pattern → Val Flt → Except Err (NDArray Flt)
  | numeric _ _ lb ub _ _, v => do
    let a ← v.asArr
    return Numeric.unfreeingJacobianA A lb.toFlt ub.toFlt a
  | simplex _ s _ _, v => do
    let a ← v.asArr
    Simplex.jacobian (Simplex.constrainJacobianA A) s a
  | psd n lb dv fd, v => ad (psd n lb dv fd) v
  | array s base _, v => do
    let a ← v.asArr
    jacobianItems (fun sub => unfreeingJacobianA A ad base sub) a s
  | dict es _ _, v => do
    let vs ← v.asDict
    let jacs ← unfreeingJacobianAEs A ad es vs
    blockDiag jacs
/-- The loop of pattern_containers.py:328-333 over the members of a `PatternDict`. -/
def unfreeingJacobianAEs (A : Arith) (ad : Pattern → Val Flt → Except Err (NDArray Flt)) :
    Entries → List (String × Val Flt) → Except Err (List (NDArray Flt))
  | .nil, _ => .ok []
  | .cons k p r, vs =>
    match vs.lookup k with
    | none => .error (.keyError k)
    | some v => do
      let j ← unfreeingJacobianA A ad p v
      let js ← unfreeingJacobianAEs A ad r vs
      return j :: js
end

mutual
/-- `log_abs_det_freeing_jacobian(folded_val)` in rounded arithmetic, same source lines as `logAbsDetFreeing`. -/
def logAbsDetFreeingA (A : Arith) : Pattern → Val Flt → Except Err Flt
  | numeric _ _ lb ub _ _, v => do
    let a ← v.asArr
    return Numeric.logAbsDetFreeingA A lb.toFlt ub.toFlt a
  | dict es _ _, v => do
    let vs ← v.asDict
    logAbsDetFreeingAEs A es vs 0
  | _, _ => .error (.notImplementedError "Still thinking about the default.")
/-- The accumulating loop over the members. -/
def logAbsDetFreeingAEs (A : Arith) : Entries → List (String × Val Flt) → Flt → Except Err Flt
  | .nil, _, acc => .ok acc
  | .cons k p r, vs, acc =>
    match vs.lookup k with
    | none => .error (.keyError k)
    | some v => do
      let d ← logAbsDetFreeingA A p v
      logAbsDetFreeingAEs A r vs (A.add acc d)
end

mutual
/-- `log_abs_det_unfreeing_jacobian(folded_val)` in rounded arithmetic, same source lines as `logAbsDetUnfreeing`. -/
def logAbsDetUnfreeingA (A : Arith) : Pattern → Val Flt → Except Err Flt
  | numeric _ _ lb ub _ _, v => do
    let a ← v.asArr
    return Numeric.logAbsDetUnfreeingA A lb.toFlt ub.toFlt a
  | dict es _ _, v => do
    let vs ← v.asDict
    logAbsDetUnfreeingAEs A es vs 0
  | _, _ => .error (.notImplementedError "Still thinking about the default.")
/-- The accumulating loop over the members. -/
def logAbsDetUnfreeingAEs (A : Arith) : Entries → List (String × Val Flt) → Flt → Except Err Flt
  | .nil, _, acc => .ok acc
  | .cons k p r, vs, acc =>
    match vs.lookup k with
    | none => .error (.keyError k)
    | some v => do
      let d ← logAbsDetUnfreeingA A p v
      logAbsDetUnfreeingAEs A r vs (A.add acc d)
end

end Pattern

end

end Paragami
