import Verif.Model.Memory
import Verif.Model.Jacobian

/-!
# The sign of zero

`Flt` has one zero, numpy has two, `0.0` and `-0.0`, which are equal but divide differently.  Here the transforms and the
methods that use them are transcribed once more, for numbers that know the sign of a zero.  As in `Flt` the arithmetic is
exact.
-/

namespace Paragami

/-- A float that may be `-0.0`; `val (fin 0)` is `0.0`. -/
inductive SFlt where
  | negZero
  | val (f : Flt)

namespace SFlt

noncomputable section

/-- Forget the sign of zero. -/
def erase : SFlt → Flt
  | negZero => .fin 0
  | val f => f

/-- `np.signbit` (of NaN: no). -/
def signbit : SFlt → Bool
  | negZero => true
  | val (.fin r) => decide (r < 0)
  | val .ninf => true
  | val _ => false

open Classical in
/-- The result `f` of an operation; if it is zero, its sign. -/
def signed (neg : Bool) (f : Flt) : SFlt := if f = .fin 0 ∧ neg = true then negZero else val f

/-- IEEE negation: also of zeros. -/
protected def neg (x : SFlt) : SFlt := signed (!x.signbit) (-x.erase)
/-- IEEE addition, rounding to nearest: a sum is `-0.0` only if both terms are. -/
protected def add (x y : SFlt) : SFlt := signed (x.signbit && y.signbit) (x.erase + y.erase)
/-- IEEE multiplication: zeros have the sign of the product. -/
protected def mul (x y : SFlt) : SFlt := signed (x.signbit ^^ y.signbit) (x.erase * y.erase)
/-- IEEE division: dividing by `-0.0` gives the other infinity. -/
protected def div (x : SFlt) : SFlt → SFlt
  | negZero => val (-(x.erase / .fin 0))
  | val y => signed (x.signbit ^^ (val y).signbit) (x.erase / y)

instance : Neg SFlt := ⟨SFlt.neg⟩
instance : Add SFlt := ⟨SFlt.add⟩
instance : Sub SFlt := ⟨fun a b => SFlt.add a (SFlt.neg b)⟩
instance : Mul SFlt := ⟨SFlt.mul⟩
instance : Div SFlt := ⟨SFlt.div⟩
instance instOfNat (n : ℕ) : OfNat SFlt n := ⟨val (.fin (n : ℝ))⟩

/-- `np.exp`: never `-0.0`. -/
def exp (x : SFlt) : SFlt := val x.erase.exp
/-- `np.log`: `-inf` for both zeros, and `log(1.0)` is `0.0`. -/
def log (x : SFlt) : SFlt := val x.erase.log
/-- `np.abs`. -/
def abs (x : SFlt) : SFlt := val x.erase.abs
/-- `a == b`: the zeros are equal. -/
def eq (x y : SFlt) : Bool := x.erase.eq y.erase
/-- `np.sum` of a vector. -/
def sum (l : List SFlt) : SFlt := l.foldl (· + ·) 0

end

/-- Comparisons are by value. -/
noncomputable instance : Elem SFlt := ⟨erase⟩

end SFlt

/-- The choice that `np.max` makes between `0.0` and `-0.0`, which differs between platforms. -/
structure MaxChoice where
  max2 : SFlt → SFlt → SFlt
  erase_max2 : ∀ x y, (max2 x y).erase = Flt.max2 x.erase y.erase

noncomputable section

namespace Signed

/-- numeric_array_patterns.py:11-25 `_unconstrain_array`, one entry. -/
def unconstrain1 (lb ub x : SFlt) : SFlt :=
  if ub.eq (.val .pinf) then
    if lb.eq (.val .ninf) then x
    else (x - lb).log
  else
    if lb.eq (.val .ninf) then SFlt.val (.fin (-1)) * (ub - x).log
    else (x - lb).log - (ub - x).log

/-- numeric_array_patterns.py:28-40 `_unconstrain_array_jacobian`, one entry. -/
def unconstrainJac1 (lb ub x : SFlt) : SFlt :=
  if ub.eq (.val .pinf) then
    if lb.eq (.val .ninf) then 1
    else 1 / (x - lb)
  else
    if lb.eq (.val .ninf) then 1 / (ub - x)
    else 1 / (x - lb) + 1 / (ub - x)

/-- numeric_array_patterns.py:96-111 `_constrain_array`, one entry. -/
def constrain1 (lb ub y : SFlt) : SFlt :=
  if ub.eq (.val .pinf) then
    if lb.eq (.val .ninf) then y
    else y.exp + lb
  else
    if lb.eq (.val .ninf) then ub - (SFlt.val (.fin (-1)) * y).exp
    else (ub - lb) * y.exp / (1 + y.exp) + lb

/-- numeric_array_patterns.py:61-77 `_constrain_array_jacobian`, one entry. -/
def constrainJac1 (lb ub y : SFlt) : SFlt :=
  if ub.eq (.val .pinf) then
    if lb.eq (.val .ninf) then 1
    else y.exp
  else
    if lb.eq (.val .ninf) then (SFlt.val (.fin (-1)) * y).exp
    else
      let ratio := y.exp / (1 + y.exp)
      (ub - lb) * ratio * (1 - ratio)

/-- numeric_array_patterns.py:210-234 `fold(free=True)`. -/
def numericFold (shape : List Nat) (lb ub : SFlt) (x : NDArray SFlt) : Except Err (NDArray SFlt) := do
  let x := x.atleast1d
  if x.ndim ≠ 1 then throw (.valueError "The argument to fold must be a 1d vector.")
  if x.size ≠ shape.prod then throw (.valueError "Wrong size for array.")
  (x.map (constrain1 lb ub)).reshape shape

/-- numeric_array_patterns.py:236-246 `flatten(free=True)`. -/
def numericFlatten (shape : List Nat) (lb ub : SFlt) (dv : Bool) (a : NDArray SFlt) (vv : Option Bool) : Except Err (NDArray SFlt) := do
  let a := a.atleast1d
  let (valid, msg) := Numeric.validate shape lb.erase ub.erase dv a vv
  if !valid then throw (.valueError msg)
  return (a.map (unconstrain1 lb ub)).flatten

/-- numeric_array_patterns.py:276-283: the diagonal of `freeing_jacobian` (the other entries are `0.0`). -/
def freeingDiagonal (lb ub : SFlt) (a : NDArray SFlt) : List SFlt := a.data.map (unconstrainJac1 lb ub)
/-- numeric_array_patterns.py:285-294: the diagonal of `unfreeing_jacobian`. -/
def unfreeingDiagonal (lb ub : SFlt) (a : NDArray SFlt) : List SFlt := (a.data.map (unconstrain1 lb ub)).map (constrainJac1 lb ub)
/-- numeric_array_patterns.py:296-299 `log_abs_det_freeing_jacobian`. -/
def logAbsDetFreeing (lb ub : SFlt) (a : NDArray SFlt) : SFlt := SFlt.sum ((freeingDiagonal lb ub a).map fun x => x.abs.log)
/-- numeric_array_patterns.py:301-306 `log_abs_det_unfreeing_jacobian`. -/
def logAbsDetUnfreeing (lb ub : SFlt) (a : NDArray SFlt) : SFlt := SFlt.sum ((unfreeingDiagonal lb ub a).map fun x => x.abs.log)

/-- simplex_patterns.py:14-22 `logsumexp` of `a :: l`. -/
def logsumexp1 (M : MaxChoice) (a : SFlt) (l : List SFlt) : SFlt :=
  let m := l.foldl M.max2 a
  (SFlt.sum (((a :: l).map fun x => x - m).map SFlt.exp)).log + m

/-- simplex_patterns.py:25-36 `_constrain_simplex_matrix`, one row. -/
def constrainSimplexRow (M : MaxChoice) (row : List SFlt) : List SFlt :=
  let logNorm := logsumexp1 M 0 row
  ((0 : SFlt) :: row).map fun x => (x - logNorm).exp

/-- simplex_patterns.py:46-48 `_unconstrain_simplex_matrix`, one row. -/
def unconstrainSimplexRow : List SFlt → List SFlt
  | [] => []
  | r0 :: rest => rest.map fun x => x.log - r0.log

/-- simplex_patterns.py:51-56 `_unconstrain_simplex_jacobian`, as in `Simplex.unconstrainJacobian`. -/
def unconstrainSimplexJacobian (p : List SFlt) : NDArray SFlt :=
  ofFn2 (p.length - 1) p.length fun i j =>
    if j = 0 then SFlt.val (.fin (-1)) / p.getD 0 (.val .nan) else if j = i + 1 then 1 / p.getD j (.val .nan) else 0

/-- simplex_patterns.py:39-43 `_constrain_simplex_jacobian`, as in `Simplex.constrainJacobian`. -/
def constrainSimplexJacobian (p : List SFlt) : NDArray SFlt :=
  ofFn2 p.length (p.length - 1) fun i j =>
    SFlt.val (.fin (-1)) * (p.getD i (.val .nan) * p.getD (j + 1) (.val .nan)) + if i = j + 1 then p.getD i (.val .nan) else 0

/-- simplex_patterns.py:161-174 `fold(free=True)`. -/
def simplexFold (M : MaxChoice) (k : Nat) (ashape : List Nat) (x : NDArray SFlt) : Except Err (NDArray SFlt) := do
  let n ← x.len
  if n ≠ (ashape ++ [k - 1]).prod then throw (.valueError "flat_val is the wrong length.")
  let mat ← x.reshape (ashape ++ [k - 1])
  return ⟨ashape ++ [k], (NDArray.rows ashape.prod (k - 1) mat.data).flatMap (constrainSimplexRow M)⟩

/-- simplex_patterns.py:176-184 `flatten(free=True)`. -/
def simplexFlatten (k : Nat) (ashape : List Nat) (dv : Bool) (a : NDArray SFlt) (vv : Option Bool) : Except Err (NDArray SFlt) := do
  let (valid, msg) ← Simplex.validate k ashape dv a vv
  if !valid then throw (.valueError msg)
  return NDArray.vec ((NDArray.rows ashape.prod k a.data).flatMap unconstrainSimplexRow)

/-- `a[i, j]`. -/
def entry (m : Nat) (data : List SFlt) (i j : Nat) : SFlt := data.getD (i * m + j) (.val .nan)

/-- psdmatrix_patterns.py:66-99 `_unvectorize_ld_matrix`. -/
def unvectorizeLd (v : NDArray SFlt) : Except Err (NDArray SFlt) :=
  let n := matSize v.size
  if n * (n + 1) ≠ 2 * v.size then .error (.valueError "Vector is an impossible size")
  else .ok (ofFn2 n n fun k1 k2 => if k2 ≤ k1 then v.data.getD (symIndex k1 k2) (.val .nan) else 0)

/-- psdmatrix_patterns.py:123-129 `_exp_matrix_diagonal`. -/
def expDiag (n : Nat) (mat : NDArray SFlt) : NDArray SFlt :=
  ofFn2 n n fun i j =>
    (if i = j then (entry n mat.data i i).exp else 0) + entry n mat.data i j
      - (if i = j then entry n mat.data i i else 0)

/-- psdmatrix_patterns.py:149-154 `_unpack_posdef_matrix`. -/
def unpackPosdef (lb : SFlt) (v : NDArray SFlt) : Except Err (NDArray SFlt) := do
  let ld ← unvectorizeLd v
  let n := matSize v.size
  let chol := expDiag n ld
  let mat := ofFn2 n n fun i j =>
    SFlt.sum ((List.range n).map fun k => entry n chol.data i k * entry n chol.data j k)
  return ofFn2 n n fun i j => entry n mat.data i j + (if i = j then lb else 0)

/-- psdmatrix_patterns.py:301-316 `fold(free=True)`. -/
def psdFold (n : Nat) (lb : SFlt) (x : NDArray SFlt) : Except Err (NDArray SFlt) := do
  let x := x.atleast1d
  if x.ndim ≠ 1 then throw (.valueError "The argument to fold must be a 1d vector.")
  if x.size ≠ n * (n + 1) / 2 then throw (.valueError "Wrong length for PSDSymmetricMatrix flat value.")
  unpackPosdef lb x

/-- psdmatrix_patterns.py:291-299 `flatten(free=True)`.  The factor is a function of the values of the entries; the signs
of its zeros do not matter, because `_log_matrix_diagonal` adds `0.0` to every entry off the diagonal. -/
def psdFlatten (n : Nat) (lb : SFlt) (dv : Bool) (a : NDArray SFlt) (vv : Option Bool) : Except Err (NDArray SFlt) := do
  let (valid, msg) ← PSD.validate n lb.erase dv a vv
  if !valid then throw (.valueError msg)
  let matLb := ofFn2 n n fun i j => entry n a.data i j - (if i = j then lb else 0)
  let chol ← cholesky n (matLb.map SFlt.erase)
  let flat ← vectorizeLd (logDiag n chol)
  return flat.map SFlt.val

end Signed

namespace Pattern

mutual
/-- `fold(flat_val, free=True)`, the same lines as `Pattern.foldFree`; the bounds are not `-0.0`. -/
def foldFreeSigned (M : MaxChoice) : Pattern → NDArray SFlt → Except Err (Val SFlt)
  | numeric _ s lb ub _ _, x => do
    let a ← Signed.numericFold s (.val lb.toFlt) (.val ub.toFlt) x
    return .arr a
  | simplex k s _ _, x => do
    let a ← Signed.simplexFold M k s x
    return .arr a
  | psd n lb _ _, x => do
    let a ← Signed.psdFold n (.val lb.toFlt) x
    return .arr a
  | array s base _, x => do
    let x ← checkFlat x (s.prod * base.flatLen true)
    let a ← foldItems (fun sub => foldFreeSigned M base sub) x s (s ++ base.shape) (base.flatLen true)
    return .arr a
  | dict es _ _, x => do
    let x ← checkFlat x (flatLenEs es true)
    let vs ← foldFreeSignedEs M es x 0
    return .dict vs
/-- The loop of `PatternDict.fold` (pattern_containers.py:280-291). -/
def foldFreeSignedEs (M : MaxChoice) : Entries → NDArray SFlt → Nat → Except Err (List (String × Val SFlt))
  | .nil, _, _ => .ok []
  | .cons k p r, x, offset => do
    let v ← foldFreeSigned M p (x.slice offset (p.flatLen true))
    let vs ← foldFreeSignedEs M r x (offset + p.flatLen true)
    return (k, v) :: vs
end

mutual
/-- `flatten(folded_val, free=True, validate_value)`, the same lines as `Pattern.flattenFree`. -/
def flattenFreeSigned : Pattern → Val SFlt → Option Bool → Except Err (NDArray SFlt)
  | numeric _ s lb ub dv _, v, vv => do
    let a ← v.asArr
    Signed.numericFlatten s (.val lb.toFlt) (.val ub.toFlt) dv a vv
  | simplex k s dv _, v, vv => do
    let a ← v.asArr
    Signed.simplexFlatten k s dv a vv
  | psd n lb dv _, v, vv => do
    let a ← v.asArr
    Signed.psdFlatten n (.val lb.toFlt) dv a vv
  | array s base fd, v, vv => do
    requireValid ((array s base fd).validate v vv)
    let a ← v.asArr
    flattenItems (fun sub => flattenFreeSigned base sub vv) a s
  | dict es l fd, v, vv => do
    requireValid ((dict es l fd).validate v vv)
    let vs ← v.asDict
    let parts ← flattenFreeSignedEs es vs vv
    NDArray.hstack parts
/-- The loop of `PatternDict.flatten` (pattern_containers.py:308-319). -/
def flattenFreeSignedEs : Entries → List (String × Val SFlt) → Option Bool → Except Err (List (NDArray SFlt))
  | .nil, _, _ => .ok []
  | .cons k p r, vs, vv =>
    match vs.lookup k with
    | none => .error (.keyError k)
    | some v => do
      let x ← flattenFreeSigned p v vv
      let xs ← flattenFreeSignedEs r vs vv
      return x :: xs
end

/-- `pattern.fold(flat_val, free=None, validate_value=None)`. -/
def foldSigned (M : MaxChoice) (p : Pattern) (x : NDArray SFlt) (free vv : Option Bool := none) : Except Err (Val SFlt) := do
  let free ← freeWithDefault p.freeDefault free
  if free then foldFreeSigned M p x else p.foldNF x vv

/-- `pattern.flatten(folded_val, free=None, validate_value=None)`. -/
def flattenSigned (p : Pattern) (v : Val SFlt) (free vv : Option Bool := none) : Except Err (NDArray SFlt) := do
  let free ← freeWithDefault p.freeDefault free
  if free then flattenFreeSigned p v vv else p.flattenNF v vv

end Pattern

end

end Paragami
