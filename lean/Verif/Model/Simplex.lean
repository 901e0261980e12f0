import Verif.Model.NDArray

/-!
# `SimplexArrayPattern` (paragami/simplex_patterns.py)
-/

namespace Paragami

noncomputable section

/-- simplex_patterns.py:20-21 the argument of `np.exp` in `logsumexp`, for one slice `a :: l` along the axis:
`mat - mat_max`. -/
def lseShift (a : Flt) (l : List Flt) : List Flt := (a :: l).map fun x => x - Flt.maxOf a l

/-- simplex_patterns.py:21-22 the sum of exponentials whose log is taken, for one slice. -/
def lseSum (a : Flt) (l : List Flt) : Flt := Flt.sum ((lseShift a l).map Flt.exp)

/-- simplex_patterns.py:14-22 `logsumexp`, one slice along the axis.  `np.max` of an empty slice raises; the slices
here are never empty, so the head is an explicit argument. -/
def logsumexp1 (a : Flt) (l : List Flt) : Flt := (lseSum a l).log + Flt.maxOf a l

/-- simplex_patterns.py:14-22 `logsumexp(mat, axis)` for an integer axis (negative axes count from the end; the axis is
kept with length one).  An empty slice raises `ValueError`, as `np.max` does; an axis out of range raises numpy's
`AxisError`, a `ValueError`. -/
def logsumexp (mat : NDArray Flt) (axis : Int) : Except Err (NDArray Flt) := do
  let ax := if axis < 0 then axis + mat.shape.length else axis
  if ax < 0 ∨ (mat.shape.length : Int) ≤ ax then throw (.valueError "axis is out of bounds")
  let pre := mat.shape.take ax.toNat
  let k := mat.shape.getD ax.toNat 0
  let post := mat.shape.drop (ax.toNat + 1)
  let d ← mapE (fun o => mapE (fun i =>
      match (List.range k).map fun j => mat.data.getD ((o * k + j) * post.prod + i) .nan with
      | [] => .error (.valueError "zero-size array to reduction operation maximum")
      | a :: l => .ok (logsumexp1 a l)) (List.range post.prod)) (List.range pre.prod)
  return ⟨pre ++ 1 :: post, d.flatten⟩

/-- simplex_patterns.py:25-36 `_constrain_simplex_matrix`, one row (the reference entry `0` is prepended). -/
def constrainSimplexRow (row : List Flt) : List Flt :=
  let logNorm := logsumexp1 0 row
  ((0 : Flt) :: row).map fun x => (x - logNorm).exp

/-- simplex_patterns.py:46-48 `_unconstrain_simplex_matrix`, one row.  The empty row (impossible: the last axis has
length `simplex_size ≥ 2`) is mapped to the empty row. -/
def unconstrainSimplexRow : List Flt → List Flt
  | [] => []
  | r0 :: rest => rest.map fun x => x.log - r0.log

namespace Simplex
variable {α : Type} [Elem α]

/-- simplex_patterns.py:141-145 `_validate_folded_shape`. -/
def validateShape (k : Nat) (ashape : List Nat) (a : NDArray α) : Bool × String :=
  if a.shape = ashape ++ [k] then (true, "") else (false, "The folded value has the wrong shape.")

/-- simplex_patterns.py:147-159 `validate_folded` (a wrong shape raises rather than returning `False`).  The row sums
run over the last axis. -/
def validate (k : Nat) (ashape : List Nat) (dv : Bool) (a : NDArray α) (vv : Option Bool) :
    Except Err (Bool × String) :=
  let (ok, msg) := validateShape k ashape a
  if !ok then .error (.valueError msg)
  else if vv.getD dv then
    let d := a.data.map Elem.toFlt
    if d.any (fun x => x.lt 0) then .ok (false, "Some values are negative.")
    else if (NDArray.rows ashape.prod k d).any
        (fun row => (Flt.sum row - 1).abs.gt (Flt.fin (1 / 10 ^ 12))) then
      .ok (false, "The simplexes do not sum to one.")
    else .ok (true, "")
  else .ok (true, "")

/-- simplex_patterns.py:161-174 `fold(free=False)`: only `len(flat_val)` is checked, then the value is reshaped. -/
def foldNF (k : Nat) (ashape : List Nat) (dv : Bool) (x : NDArray α) (vv : Option Bool) :
    Except Err (NDArray α) := do
  let n ← x.len
  if n ≠ (ashape ++ [k]).prod then throw (.valueError "flat_val is the wrong length.")
  let folded ← x.reshape (ashape ++ [k])
  let (valid, msg) ← validate k ashape dv folded vv
  if !valid then throw (.valueError msg)
  return folded

/-- simplex_patterns.py:161-174 `fold(free=True)`. -/
def foldFree (k : Nat) (ashape : List Nat) (x : NDArray Flt) : Except Err (NDArray Flt) := do
  let n ← x.len
  if n ≠ (ashape ++ [k - 1]).prod then throw (.valueError "flat_val is the wrong length.")
  let mat ← x.reshape (ashape ++ [k - 1])
  return ⟨ashape ++ [k], (NDArray.rows ashape.prod (k - 1) mat.data).flatMap constrainSimplexRow⟩

/-- simplex_patterns.py:176-184 `flatten(free=False)`. -/
def flattenNF (k : Nat) (ashape : List Nat) (dv : Bool) (a : NDArray α) (vv : Option Bool) :
    Except Err (NDArray α) := do
  let (valid, msg) ← validate k ashape dv a vv
  if !valid then throw (.valueError msg)
  return a.flatten

/-- simplex_patterns.py:176-184 `flatten(free=True)`. -/
def flattenFree (k : Nat) (ashape : List Nat) (dv : Bool) (a : NDArray Flt) (vv : Option Bool) :
    Except Err (NDArray Flt) := do
  let (valid, msg) ← validate k ashape dv a vv
  if !valid then throw (.valueError msg)
  return NDArray.vec ((NDArray.rows ashape.prod k a.data).flatMap unconstrainSimplexRow)

/-- simplex_patterns.py:243-258, the loop of `flat_indices(free=True)`: `offset` counts simplexes. -/
def freeIndexLoop (kfree : Nat) : (offset : Nat) → List (List Bool) → List Nat
  | _, [] => []
  | offset, row :: rest =>
    (if row.any id then (List.range kfree).map (offset * kfree + ·) else [])
      ++ freeIndexLoop kfree (offset + 1) rest

/-- simplex_patterns.py:224-258 `flat_indices`. -/
def flatIndices (k : Nat) (ashape : List Nat) (mask : NDArray Bool) (free : Bool) : Except Err (List Nat) :=
  if !mask.data.any id then .ok []
  else
    let (ok, msg) := validateShape k ashape mask
    if !ok then .error (.valueError msg)
    else if !free then do
      let n := (ashape ++ [k]).prod
      let folded ← foldNF k ashape true (NDArray.vec (List.range n)) (some false)
      return NDArray.maskSelect folded.data mask.data
    else .ok (freeIndexLoop (k - 1) 0 (NDArray.rows ashape.prod k mask.data))

end Simplex

end

end Paragami
