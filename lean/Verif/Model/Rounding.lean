import Verif.Model.Pattern
import Mathlib.Data.Int.Log

/-!
# Folding free vectors with rounded arithmetic

`Model/Pattern.lean` computes with exact reals.  Here the free folds of `numeric_array_patterns.py`, `simplex_patterns.py`,
`psdmatrix_patterns.py` and `pattern_containers.py`, and the free flattening of a matrix, are transcribed again with every
arithmetic operation rounded.  The machine is a parameter: an `Arith` says how one exact result is rounded and what the
library functions return.  `Arith.exact` gives back the functions of the exact model (`Proofs/Rounding.lean`), and `rnd64` is
IEEE 754 binary64 rounding to nearest, ties to even.
-/

namespace Paragami

noncomputable section

/-- The arithmetic of one machine.  `+`, `-`, `*` and `/` return the rounded exact result, as IEEE 754 prescribes; `np.exp`,
`np.log`, `np.sum` of one slice, one entry of a matrix product and `np.linalg.cholesky` are whatever the libraries return. -/
structure Arith where
  /-- Rounding of an exact real result. -/
  rnd : ℝ → Flt
  /-- `np.exp` of one number. -/
  exp : Flt → Flt
  /-- `np.log` of one number. -/
  log : Flt → Flt
  /-- `np.sum` of one slice. -/
  sum : List Flt → Flt
  /-- One entry of a matrix product: the sum of the products of the pairs. -/
  dot : List (Flt × Flt) → Flt
  /-- `np.linalg.cholesky` of an `n × n` array. -/
  chol : Nat → NDArray Flt → Except Err (NDArray Flt)

namespace Arith

/-- Round a finite result; infinities and NaN need no rounding. -/
def round (A : Arith) : Flt → Flt
  | .fin r => A.rnd r
  | x => x
/-- `a + b`. -/
def add (A : Arith) (a b : Flt) : Flt := A.round (a + b)
/-- `a - b`. -/
def sub (A : Arith) (a b : Flt) : Flt := A.round (a - b)
/-- `a * b`. -/
def mul (A : Arith) (a b : Flt) : Flt := A.round (a * b)
/-- `a / b`. -/
def div (A : Arith) (a b : Flt) : Flt := A.round (a / b)

/-- No rounding: the arithmetic of the rest of the model. -/
def exact : Arith where
  rnd := .fin
  exp := Flt.exp
  log := Flt.log
  sum := Flt.sum
  dot l := Flt.sum (l.map fun p => p.1 * p.2)
  chol := cholesky

end Arith

/-! ### Binary64 -/

/-- Round to an integer, ties to even. -/
def roundEven (x : ℝ) : ℤ :=
  if Int.fract x < 1 / 2 then ⌊x⌋
  else if 1 / 2 < Int.fract x then ⌊x⌋ + 1
  else if Even ⌊x⌋ then ⌊x⌋ else ⌊x⌋ + 1

/-- The exponent of the last place of a binary64 number of the size of `x` (subnormal numbers share `-1074`). -/
def lastPlace (x : ℝ) : ℤ := max (Int.log 2 |x| - 52) (-1074)

/-- Rounding to 53 binary digits with an unbounded exponent above. -/
def rndReal (x : ℝ) : ℝ := roundEven (x / 2 ^ lastPlace x) * 2 ^ lastPlace x

/-- Rounded results of this size and more overflow. -/
def overflow64 : ℝ := 2 ^ (1024 : ℤ)

/-- IEEE 754 binary64 rounding to nearest, ties to even, with overflow to infinity.  There is a single zero. -/
def rnd64 (x : ℝ) : Flt :=
  if overflow64 ≤ rndReal x then .pinf else if rndReal x ≤ -overflow64 then .ninf else .fin (rndReal x)

/-- `rnd64` on every number. -/
def round64 : Flt → Flt
  | .fin r => rnd64 r
  | x => x

/-- One machine: binary64, correctly rounded `exp`, `log` and Cholesky factors, sums from left to right. -/
def binary64 : Arith where
  rnd := rnd64
  exp x := round64 x.exp
  log x := round64 x.log
  sum l := l.foldl (fun a x => round64 (a + x)) (.fin 0)
  dot l := l.foldl (fun a p => round64 (a + round64 (p.1 * p.2))) (.fin 0)
  chol n a :=
    if (entry n a.data 0 0).le (.fin 0) ∧ 0 < n then .error .linAlgError
    else do
      let l ← cholesky n a
      return l.map round64

/-! ### The transforms -/

/-- numeric_array_patterns.py:96-111 `_constrain_array`, one entry. -/
def constrain1A (A : Arith) (lb ub y : Flt) : Flt :=
  if ub.eq .pinf then
    if lb.eq .ninf then y
    else A.add (A.exp y) lb
  else
    if lb.eq .ninf then A.sub ub (A.exp (A.mul (Flt.fin (-1)) y))
    else A.add (A.div (A.mul (A.sub ub lb) (A.exp y)) (A.add 1 (A.exp y))) lb

/-- simplex_patterns.py:14-22 `logsumexp`, one slice `a :: l`. -/
def logsumexp1A (A : Arith) (a : Flt) (l : List Flt) : Flt :=
  let m := Flt.maxOf a l
  A.add (A.log (A.sum ((a :: l).map fun x => A.exp (A.sub x m)))) m

/-- simplex_patterns.py:25-36 `_constrain_simplex_matrix`, one row. -/
def constrainSimplexRowA (A : Arith) (row : List Flt) : List Flt :=
  let logNorm := logsumexp1A A 0 row
  ((0 : Flt) :: row).map fun x => A.exp (A.sub x logNorm)

/-- psdmatrix_patterns.py:123-129 `_exp_matrix_diagonal`: `diag(exp d) + mat - diag d`, the sum first. -/
def expDiagA (A : Arith) (n : Nat) (mat : NDArray Flt) : NDArray Flt :=
  ofFn2 n n fun i j =>
    A.sub (A.add (if i = j then A.exp (entry n mat.data i i) else 0) (entry n mat.data i j))
      (if i = j then entry n mat.data i i else 0)

/-- psdmatrix_patterns.py:132-138 `_log_matrix_diagonal`. -/
def logDiagA (A : Arith) (n : Nat) (mat : NDArray Flt) : NDArray Flt :=
  ofFn2 n n fun i j =>
    A.sub (A.add (if i = j then A.log (entry n mat.data i i) else 0) (entry n mat.data i j))
      (if i = j then entry n mat.data i i else 0)

/-- psdmatrix_patterns.py:141-146 `_pack_posdef_matrix`. -/
def packPosdefA (A : Arith) (n : Nat) (lb : Flt) (mat : NDArray Flt) : Except Err (NDArray Flt) := do
  let matLb := ofFn2 n n fun i j => A.sub (entry n mat.data i j) (if i = j then lb else 0)
  let chol ← A.chol n matLb
  vectorizeLd (logDiagA A n chol)

/-- psdmatrix_patterns.py:149-154 `_unpack_posdef_matrix`. -/
def unpackPosdefA (A : Arith) (lb : Flt) (v : NDArray Flt) : Except Err (NDArray Flt) := do
  let ld ← unvectorizeLd v
  let n := matSize v.size
  let chol := expDiagA A n ld
  let mat := ofFn2 n n fun i j => A.dot ((List.range n).map fun k => (entry n chol.data i k, entry n chol.data j k))
  return ofFn2 n n fun i j => A.add (entry n mat.data i j) (if i = j then lb else 0)

/-! ### The methods -/

/-- numeric_array_patterns.py:210-234 `NumericArrayPattern.fold(free=True)`. -/
def Numeric.foldFreeA (A : Arith) (shape : List Nat) (lb ub : Flt) (x : NDArray Flt) : Except Err (NDArray Flt) := do
  let x := x.atleast1d
  if x.ndim ≠ 1 then throw (.valueError "The argument to fold must be a 1d vector.")
  if x.size ≠ shape.prod then throw (.valueError "Wrong size for array.")
  (x.map (constrain1A A lb ub)).reshape shape

/-- simplex_patterns.py:161-174 `SimplexArrayPattern.fold(free=True)`. -/
def Simplex.foldFreeA (A : Arith) (k : Nat) (ashape : List Nat) (x : NDArray Flt) : Except Err (NDArray Flt) := do
  let n ← x.len
  if n ≠ (ashape ++ [k - 1]).prod then throw (.valueError "flat_val is the wrong length.")
  let mat ← x.reshape (ashape ++ [k - 1])
  return ⟨ashape ++ [k], (NDArray.rows ashape.prod (k - 1) mat.data).flatMap (constrainSimplexRowA A)⟩

/-- simplex_patterns.py:147-159 `SimplexArrayPattern.validate_folded`, where the sums and differences are rounded and `1e-12`
is the number the parser rounds it to. -/
def Simplex.validateA (A : Arith) (k : Nat) (ashape : List Nat) (dv : Bool) (a : NDArray Flt) (vv : Option Bool) :
    Except Err (Bool × String) :=
  let (ok, msg) := Simplex.validateShape k ashape a
  if !ok then .error (.valueError msg)
  else if vv.getD dv then
    if a.data.any (fun x => x.lt 0) then .ok (false, "Some values are negative.")
    else if (NDArray.rows ashape.prod k a.data).any
        (fun row => (A.sub (A.sum row) 1).abs.gt (A.rnd (1 / 10 ^ 12))) then
      .ok (false, "The simplexes do not sum to one.")
    else .ok (true, "")
  else .ok (true, "")

/-- psdmatrix_patterns.py:301-316 `PSDSymmetricMatrixPattern.fold(free=True)`. -/
def PSD.foldFreeA (A : Arith) (n : Nat) (lb : Flt) (x : NDArray Flt) : Except Err (NDArray Flt) := do
  let x := x.atleast1d
  if x.ndim ≠ 1 then throw (.valueError "The argument to fold must be a 1d vector.")
  if x.size ≠ n * (n + 1) / 2 then throw (.valueError "Wrong length for PSDSymmetricMatrix flat value.")
  unpackPosdefA A lb x

/-- psdmatrix_patterns.py:291-299 `PSDSymmetricMatrixPattern.flatten(free=True)`.  Validation only compares, so nothing in it
is rounded. -/
def PSD.flattenFreeA (A : Arith) (n : Nat) (lb : Flt) (dv : Bool) (a : NDArray Flt) (vv : Option Bool) :
    Except Err (NDArray Flt) := do
  let (valid, msg) ← PSD.validate n lb dv a vv
  if !valid then throw (.valueError msg)
  packPosdefA A n lb a

namespace Pattern

mutual
/-- `fold(flat_val, free=True)` in rounded arithmetic; the containers (pattern_containers.py:269-293 and 513-537) only cut
and copy. -/
def foldFreeA (A : Arith) : Pattern → NDArray Flt → Except Err (Val Flt)
  | numeric _ s lb ub _ _, x => do
    let a ← Numeric.foldFreeA A s lb.toFlt ub.toFlt x
    return .arr a
  | simplex k s _ _, x => do
    let a ← Simplex.foldFreeA A k s x
    return .arr a
  | psd n lb _ _, x => do
    let a ← PSD.foldFreeA A n lb.toFlt x
    return .arr a
  | array s base _, x => do
    let x ← checkFlat x (s.prod * base.flatLen true)
    let a ← foldItems (fun sub => base.foldFreeA A sub) x s (s ++ base.shape) (base.flatLen true)
    return .arr a
  | dict es _ _, x => do
    let x ← checkFlat x (flatLenEs es true)
    let vs ← foldFreeAEs A es x 0
    return .dict vs
/-- The loop of `PatternDict.fold` with `free=True` (pattern_containers.py:280-291). -/
def foldFreeAEs (A : Arith) : Entries → NDArray Flt → Nat → Except Err (List (String × Val Flt))
  | .nil, _, _ => .ok []
  | .cons k p r, x, offset => do
    let v ← p.foldFreeA A (x.slice offset (p.flatLen true))
    let vs ← foldFreeAEs A r x (offset + p.flatLen true)
    return (k, v) :: vs
end

end Pattern

end

end Paragami
