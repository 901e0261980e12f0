import Verif.Model.Rounding

/-!
# Flattening to free vectors with rounded arithmetic

The counterpart of `Model/Rounding.lean` for `flatten(free=True)`: `_unconstrain_array`, `_unconstrain_simplex_matrix`,
validation and the methods, with every arithmetic operation rounded.
-/

namespace Paragami

noncomputable section

/-- numeric_array_patterns.py:11-25 `_unconstrain_array`, one entry. -/
def unconstrain1A (A : Arith) (lb ub x : Flt) : Flt :=
  if ub.eq .pinf then
    if lb.eq .ninf then x
    else A.log (A.sub x lb)
  else
    if lb.eq .ninf then A.mul (Flt.fin (-1)) (A.log (A.sub ub x))
    else A.sub (A.log (A.sub x lb)) (A.log (A.sub ub x))

/-- simplex_patterns.py:46-48 `_unconstrain_simplex_matrix`, one row. -/
def unconstrainSimplexRowA (A : Arith) : List Flt → List Flt
  | [] => []
  | r0 :: rest => rest.map fun x => A.sub (A.log x) (A.log r0)

/-- numeric_array_patterns.py:236-246 `NumericArrayPattern.flatten(free=True)`.  Validation only compares, so nothing in it is
rounded. -/
def Numeric.flattenFreeA (A : Arith) (shape : List Nat) (lb ub : Flt) (dv : Bool) (a : NDArray Flt) (vv : Option Bool) :
    Except Err (NDArray Flt) := do
  let a := a.atleast1d
  let (valid, msg) := Numeric.validate shape lb ub dv a vv
  if !valid then throw (.valueError msg)
  return (a.map (unconstrain1A A lb ub)).flatten

/-- simplex_patterns.py:176-184 `SimplexArrayPattern.flatten(free=True)`. -/
def Simplex.flattenFreeA (A : Arith) (k : Nat) (ashape : List Nat) (dv : Bool) (a : NDArray Flt) (vv : Option Bool) :
    Except Err (NDArray Flt) := do
  let (valid, msg) ← Simplex.validateA A k ashape dv a vv
  if !valid then throw (.valueError msg)
  return NDArray.vec ((NDArray.rows ashape.prod k a.data).flatMap (unconstrainSimplexRowA A))

namespace Pattern

mutual
/-- `validate_folded(folded_val, validate_value)` in rounded arithmetic, same source lines as `validate`; only simplexes compute. -/
def validateA (A : Arith) : Pattern → Val Flt → Option Bool → Except Err (Bool × String)
  | numeric _ s lb ub dv _, v, vv => do
    let a ← v.asArr
    return Numeric.validate s lb.toFlt ub.toFlt dv a vv
  | simplex k s dv _, v, vv => do
    let a ← v.asArr
    Simplex.validateA A k s dv a vv
  | psd n lb dv _, v, vv => do
    let a ← v.asArr
    PSD.validate n lb.toFlt dv a vv
  | array s base _, v, vv => do
    let a ← v.asArr
    if a.ndim ≠ (s ++ base.shape).length then return (false, "Wrong number of dimensions.")
    if a.shape ≠ s ++ base.shape then return (false, "Wrong shape.")
    validateItems (fun sub => base.validateA A (.arr sub) vv) a (NDArray.productRanges s)
  | dict es _ _, v, vv => do
    let vs ← v.asDict
    validateAEs A es vs vv
/-- The loop of `PatternDict.validate_folded` (pattern_containers.py:252-263). -/
def validateAEs (A : Arith) : Entries → List (String × Val Flt) → Option Bool → Except Err (Bool × String)
  | .nil, _, _ => .ok (true, "")
  | .cons k p r, vs, vv =>
    match vs.lookup k with
    | none => .ok (false, k ++ " not in folded_val dictionary.")
    | some v => do
      let (valid, msg) ← p.validateA A v vv
      if !valid then return (false, msg ++ " is not valid.")
      validateAEs A r vs vv
end

mutual
/-- `flatten(folded_val, free=True, validate_value)` in rounded arithmetic, same source lines as `flattenFree`. -/
def flattenFreeA (A : Arith) : Pattern → Val Flt → Option Bool → Except Err (NDArray Flt)
  | numeric _ s lb ub dv _, v, vv => do
    let a ← v.asArr
    Numeric.flattenFreeA A s lb.toFlt ub.toFlt dv a vv
  | simplex k s dv _, v, vv => do
    let a ← v.asArr
    Simplex.flattenFreeA A k s dv a vv
  | psd n lb dv _, v, vv => do
    let a ← v.asArr
    PSD.flattenFreeA A n lb.toFlt dv a vv
  | array s base fd, v, vv => do
    requireValid ((array s base fd).validateA A v vv)
    let a ← v.asArr
    flattenItems (fun sub => base.flattenFreeA A sub vv) a s
  | dict es l fd, v, vv => do
    requireValid ((dict es l fd).validateA A v vv)
    let vs ← v.asDict
    let parts ← flattenFreeAEs A es vs vv
    NDArray.hstack parts
/-- The loop of `PatternDict.flatten` with `free=True` (pattern_containers.py:308-319). -/
def flattenFreeAEs (A : Arith) : Entries → List (String × Val Flt) → Option Bool → Except Err (List (NDArray Flt))
  | .nil, _, _ => .ok []
  | .cons k p r, vs, vv =>
    match vs.lookup k with
    | none => .error (.keyError k)
    | some v => do
      let x ← p.flattenFreeA A v vv
      let xs ← flattenFreeAEs A r vs vv
      return x :: xs
end

end Pattern

end

end Paragami
