import Verif.Model.NDArray

/-!
# `NumericArrayPattern` (paragami/numeric_array_patterns.py)

The elementwise transforms and the methods of the class, as functions of the constructor parameters.
-/

namespace Paragami

noncomputable section

/-- numeric_array_patterns.py:11-25 `_unconstrain_array`, one entry. -/
def unconstrain1 (lb ub x : Flt) : Flt :=
  if ub.eq .pinf then
    if lb.eq .ninf then x
    else (x - lb).log
  else
    if lb.eq .ninf then Flt.fin (-1) * (ub - x).log
    else (x - lb).log - (ub - x).log

/-- numeric_array_patterns.py:28-40 `_unconstrain_array_jacobian`, one entry. -/
def unconstrainJac1 (lb ub x : Flt) : Flt :=
  if ub.eq .pinf then
    if lb.eq .ninf then 1
    else 1 / (x - lb)
  else
    if lb.eq .ninf then 1 / (ub - x)
    else 1 / (x - lb) + 1 / (ub - x)

/-- numeric_array_patterns.py:43-58, redefined identically at 96-111 `_constrain_array`, one entry. -/
def constrain1 (lb ub y : Flt) : Flt :=
  if ub.eq .pinf then
    if lb.eq .ninf then y
    else y.exp + lb
  else
    if lb.eq .ninf then ub - (Flt.fin (-1) * y).exp
    else (ub - lb) * y.exp / (1 + y.exp) + lb

/-- numeric_array_patterns.py:61-77 `_constrain_array_jacobian`, one entry. -/
def constrainJac1 (lb ub y : Flt) : Flt :=
  if ub.eq .pinf then
    if lb.eq .ninf then 1
    else y.exp
  else
    if lb.eq .ninf then (Flt.fin (-1) * y).exp
    else
      let ratio := y.exp / (1 + y.exp)
      (ub - lb) * ratio * (1 - ratio)

/-- numeric_array_patterns.py:80-93 `_get_inbounds_value` (`assert lb < ub` first). -/
def inboundsValue (lb ub : Flt) : Except Err Flt :=
  if lb.lt ub then
    .ok (if lb.gt .ninf && ub.lt .pinf then Flt.fin (1/2) * (ub - lb) + lb
      else if lb.gt .ninf then lb + 1
      else if ub.lt .pinf then ub - 1
      else 0)
  else .error .assertionError

namespace Numeric
variable {α : Type} [Elem α]

/-- numeric_array_patterns.py:187-194 `_validate_folded_shape`. -/
def validateShape (shape : List Nat) (a : NDArray α) : Bool × String :=
  if a.shape = shape then (true, "") else (false, "Wrong size for array.")

/-- numeric_array_patterns.py:196-208 `validate_folded`.  `vv` is `validate_value`, `dv` is `default_validate`. -/
def validate (shape : List Nat) (lb ub : Flt) (dv : Bool) (a : NDArray α) (vv : Option Bool) : Bool × String :=
  let a := a.atleast1d
  let (shapeOk, msg) := validateShape shape a
  if !shapeOk then (shapeOk, msg)
  else if vv.getD dv then
    if a.data.any (fun x => (Elem.toFlt x).lt lb) then (false, "Value beneath lower bound.")
    else if a.data.any (fun x => (Elem.toFlt x).gt ub) then (false, "Value above upper bound.")
    else (true, "")
  else (true, "")

/-- numeric_array_patterns.py:210-234 `fold(free=False)`. -/
def foldNF (shape : List Nat) (lb ub : Flt) (dv : Bool) (x : NDArray α) (vv : Option Bool) :
    Except Err (NDArray α) := do
  let x := x.atleast1d
  if x.ndim ≠ 1 then throw (.valueError "The argument to fold must be a 1d vector.")
  if x.size ≠ shape.prod then throw (.valueError "Wrong size for array.")
  let folded ← x.reshape shape
  let (valid, msg) := validate shape lb ub dv folded vv
  if !valid then throw (.valueError msg)
  return folded

/-- numeric_array_patterns.py:210-234 `fold(free=True)` (the result is not validated). -/
def foldFree (shape : List Nat) (lb ub : Flt) (x : NDArray Flt) : Except Err (NDArray Flt) := do
  let x := x.atleast1d
  if x.ndim ≠ 1 then throw (.valueError "The argument to fold must be a 1d vector.")
  if x.size ≠ shape.prod then throw (.valueError "Wrong size for array.")
  (x.map (constrain1 lb ub)).reshape shape

/-- numeric_array_patterns.py:236-246 `flatten(free=False)`. -/
def flattenNF (shape : List Nat) (lb ub : Flt) (dv : Bool) (a : NDArray α) (vv : Option Bool) :
    Except Err (NDArray α) := do
  let a := a.atleast1d
  let (valid, msg) := validate shape lb ub dv a vv
  if !valid then throw (.valueError msg)
  return a.flatten

/-- numeric_array_patterns.py:236-246 `flatten(free=True)`. -/
def flattenFree (shape : List Nat) (lb ub : Flt) (dv : Bool) (a : NDArray Flt) (vv : Option Bool) :
    Except Err (NDArray Flt) := do
  let a := a.atleast1d
  let (valid, msg) := validate shape lb ub dv a vv
  if !valid then throw (.valueError msg)
  return (a.map (unconstrain1 lb ub)).flatten

/-- numeric_array_patterns.py:261-274 `flat_indices`.  The cached index arrays (numeric_array_patterns.py:156-162) are
both `arange(length)` in the pattern's shape, so `free` does not matter. -/
def flatIndices (shape : List Nat) (mask : NDArray Bool) : Except Err (List Nat) :=
  if !mask.data.any id then .ok []
  else
    let mask := mask.atleast1d
    let (ok, msg) := validateShape shape mask
    if !ok then .error (.valueError msg)
    else .ok (NDArray.maskSelect (List.range shape.prod) mask.data)

/-- numeric_array_patterns.py:308-314 `flat_names`: `'[i,j,...]'` in row-major order. -/
def flatNames (shape : List Nat) : List String :=
  (NDArray.productRanges shape).map fun item => "[" ++ ",".intercalate (item.map toString) ++ "]"

end Numeric

end

end Paragami
