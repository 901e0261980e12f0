import Verif.Model.Pattern

/-!
# Sizes and shapes that are not natural numbers

The constructors do not check that sizes and shapes are natural numbers.  `Model/Pattern.lean` has natural numbers only; here `size` of
`PSDSymmetricMatrixPattern` and `simplex_size` are any numbers, and the entries of shapes are any integers.  Arithmetic on sizes is exact.
-/

namespace Paragami

open NDArray

namespace Sizes

noncomputable section

variable {α : Type} [Elem α]

/-- `int(x)` for a real `x`: towards zero. -/
def trunc (x : ℝ) : ℤ := if 0 ≤ x then ⌊x⌋ else ⌈x⌉

/-- `int(x)`. -/
def pyInt : PyNum → Except Err ℤ
  | .int i => .ok i
  | .flt (.fin r) => .ok (trunc r)
  | .flt .nan => .error (.valueError "cannot convert float NaN to integer")
  | .flt _ => .error .overflowError

/-- `np.reshape(a, s)` (`_fix_unknown_dimension` of numpy): any negative entry is the unknown dimension, and there may be one. -/
def reshapeZ (a : NDArray α) (s : List ℤ) : Except Err (NDArray α) :=
  match s.filter (· < 0) with
  | [] => a.reshape (s.map Int.toNat)
  | [_] =>
    let known := ((s.filter (0 ≤ ·)).map Int.toNat).prod
    if known = 0 ∨ a.data.length % known ≠ 0 then .error (.valueError "cannot reshape array")
    else .ok ⟨s.map fun d => if d < 0 then a.data.length / known else d.toNat, a.data⟩
  | _ => .error (.valueError "can only specify one unknown dimension")

/-- `a.shape == s`. -/
def sameShape (a : NDArray α) (s : List ℤ) : Prop := a.shape.map Int.ofNat = s

instance (a : NDArray α) (s : List ℤ) : Decidable (sameShape a s) := inferInstanceAs (Decidable (_ = _))

/-! ### `PSDSymmetricMatrixPattern` -/

/-- The attributes of a `PSDSymmetricMatrixPattern`; `_flat_length` is the square of `size`. -/
structure PSDPat where
  size : ℤ
  /-- `_free_flat_length` -/
  freeLen : ℤ
  lb : PyNum
  dv : Bool
  fd : Option Bool

/-- psdmatrix_patterns.py:181-204 `PSDSymmetricMatrixPattern.__init__`.  `__size` is `int(size)`, but the free length is
`int(size * (size + 1) / 2)`. -/
def mkPSD (size lb : PyNum) (dv : Bool) (fd : Option Bool) : Except Err PSDPat := do
  let n ← pyInt size
  if lb.toFlt.lt 0 then throw (.valueError "The diagonal lower bound diag_lb must be >-= 0.")
  let f ← pyInt (.flt (size.toFlt * (size.toFlt + 1) / 2))
  return ⟨n, f, lb, dv, fd⟩

namespace PSDPat

/-- base_patterns.py:192-210 `flat_length`. -/
def flatLen (p : PSDPat) (free : Bool) : ℤ := if free then p.freeLen else p.size ^ 2

/-- psdmatrix_patterns.py:246-289 `validate_folded`. -/
def validate (p : PSDPat) (a : NDArray α) (vv : Option Bool) : Except Err (Bool × String) :=
  if sameShape a [p.size, p.size] then PSD.validate p.size.toNat p.lb.toFlt p.dv a vv
  else .error (.valueError "The matrix is not of shape")

/-- psdmatrix_patterns.py:301-316 `fold(free=False)`. -/
def foldNF (p : PSDPat) (x : NDArray α) (vv : Option Bool) : Except Err (NDArray α) := do
  let x := x.atleast1d
  if x.ndim ≠ 1 then throw (.valueError "The argument to fold must be a 1d vector.")
  if (x.size : ℤ) ≠ p.flatLen false then throw (.valueError "Wrong length for PSDSymmetricMatrix flat value.")
  let folded ← reshapeZ x [p.size, p.size]
  let (valid, msg) ← p.validate folded vv
  if !valid then throw (.valueError msg)
  return folded

/-- psdmatrix_patterns.py:301-316 `fold(free=True)`. -/
def foldFree (p : PSDPat) (x : NDArray Flt) : Except Err (NDArray Flt) := do
  let x := x.atleast1d
  if x.ndim ≠ 1 then throw (.valueError "The argument to fold must be a 1d vector.")
  if (x.size : ℤ) ≠ p.flatLen true then throw (.valueError "Wrong length for PSDSymmetricMatrix flat value.")
  unpackPosdef p.lb.toFlt x

/-- psdmatrix_patterns.py:291-299 `flatten(free=False)`. -/
def flattenNF (p : PSDPat) (a : NDArray α) (vv : Option Bool) : Except Err (NDArray α) := do
  let (valid, msg) ← p.validate a vv
  if !valid then throw (.valueError msg)
  return a.flatten

/-- psdmatrix_patterns.py:291-299 `flatten(free=True)`. -/
def flattenFree (p : PSDPat) (a : NDArray Flt) (vv : Option Bool) : Except Err (NDArray Flt) := do
  let (valid, msg) ← p.validate a vv
  if !valid then throw (.valueError msg)
  packPosdef p.size.toNat p.lb.toFlt a

/-- `pattern.fold(flat_val, free=None, validate_value=None)`. -/
def fold (p : PSDPat) (x : NDArray Flt) (free vv : Option Bool := none) : Except Err (NDArray Flt) := do
  let free ← Pattern.freeWithDefault p.fd free
  if free then p.foldFree x else p.foldNF x vv

/-- `pattern.flatten(folded_val, free=None, validate_value=None)`. -/
def flatten (p : PSDPat) (a : NDArray Flt) (free vv : Option Bool := none) : Except Err (NDArray Flt) := do
  let free ← Pattern.freeWithDefault p.fd free
  if free then p.flattenFree a vv else p.flattenNF a vv

/-- psdmatrix_patterns.py:318-340 `flat_indices`. -/
def flatIndices (p : PSDPat) (mask : NDArray Bool) (free : Option Bool := none) : Except Err (List Nat) :=
  if !mask.data.any id then .ok []
  else do
    let free ← Pattern.freeWithDefault p.fd free
    if ¬ sameShape mask [p.size, p.size] then throw (.valueError "The matrix is not of shape")
    if !free then
      let folded ← p.foldNF (vec (List.range (p.flatLen false).toNat)) (some false)
      return maskSelect folded.data mask.data
    else return List.range (p.flatLen true).toNat

/-- base_patterns.py:372-375 `flat_names`. -/
def flatNames (p : PSDPat) (free : Option Bool) : Except Err (List String) := do
  let free ← Pattern.freeWithDefault p.fd free
  return (List.range (p.flatLen free).toNat).map toString

/-- psdmatrix_patterns.py:232-236 `empty(valid=True)`: `np.eye` of a negative number raises `ValueError`. -/
def empty (p : PSDPat) : Except Err (NDArray Flt) :=
  if p.size < 0 then .error (.valueError "negative dimensions are not allowed")
  else .ok (ofFn2 p.size.toNat p.size.toNat fun i j => (if i = j then 1 else 0) * (p.lb.toFlt + 1))

/-- base_patterns.py:173-176 `__eq__`: `as_dict` (psdmatrix_patterns.py:210-215) has the size, the bound and `default_validate`.
The two patterns do not hold the same NaN object. -/
def EqPy (p q : PSDPat) : Prop := p.size = q.size ∧ p.lb.toFlt.eq q.lb.toFlt = true ∧ p.dv = q.dv

/-- `get_pattern_from_json(p.to_json())`: the constructor called with what `as_dict` has. -/
def reload (p : PSDPat) : Except Err PSDPat := mkPSD (.int p.size) p.lb p.dv none

end PSDPat

/-! ### `NumericArrayPattern` -/

/-- numeric_array_patterns.py:124-165 `NumericArrayPattern.__init__` for a shape of integers: `np.arange(n)` of a negative `n` is empty, and is
folded (twice) to make the cached arrays of indices. -/
def mkNumeric (cls : NumCls) (shape : List ℤ) (lb ub : PyNum) (dv : Bool) (fd : Option Bool) : Except Err Pattern := do
  if !(lb.toFlt.ge .ninf) then throw .assertionError
  if !(ub.toFlt.le .pinf) then throw .assertionError
  if lb.toFlt.ge ub.toFlt then throw (.valueError "Upper bound ub must strictly exceed lower bound lb")
  let x : NDArray Nat := vec (List.range shape.prod.toNat)
  if (x.size : ℤ) ≠ shape.prod then throw (.valueError "Wrong size for array.")
  let folded ← reshapeZ x shape
  if ¬ sameShape folded.atleast1d shape then throw (.valueError "Wrong size for array.")
  return .numeric cls (shape.map Int.toNat) lb ub dv fd

/-! ### `SimplexArrayPattern` -/

/-- The attributes of a `SimplexArrayPattern`. -/
structure SimplexPat where
  k : ℕ
  ashape : List ℤ
  dv : Bool
  fd : Option Bool

/-- simplex_patterns.py:88-113 `SimplexArrayPattern.__init__`; all uses of `simplex_size` are of `int(simplex_size)`. -/
def mkSimplex (size : PyNum) (ashape : List ℤ) (dv : Bool) (fd : Option Bool) : Except Err SimplexPat := do
  let k ← pyInt size
  if k ≤ 1 then throw (.valueError "simplex_size must be >= 2.")
  return ⟨k.toNat, ashape, dv, fd⟩

namespace SimplexPat

/-- The attributes `__shape` and `__free_shape` (simplex_patterns.py:108-109). -/
def shape (p : SimplexPat) (free : Bool) : List ℤ := p.ashape ++ [if free then (p.k : ℤ) - 1 else p.k]

/-- simplex_patterns.py:111-112. -/
def flatLen (p : SimplexPat) (free : Bool) : ℤ := (p.shape free).prod

/-- simplex_patterns.py:147-159 `validate_folded`. -/
def validate (p : SimplexPat) (a : NDArray α) (vv : Option Bool) : Except Err (Bool × String) :=
  if sameShape a (p.shape false) then Simplex.validate p.k (p.ashape.map Int.toNat) p.dv a vv
  else .error (.valueError "The folded value has the wrong shape.")

/-- simplex_patterns.py:161-174 `fold(free=False)`. -/
def foldNF (p : SimplexPat) (x : NDArray α) (vv : Option Bool) : Except Err (NDArray α) := do
  let n ← x.len
  if (n : ℤ) ≠ p.flatLen false then throw (.valueError "flat_val is the wrong length.")
  let folded ← reshapeZ x (p.shape false)
  let (valid, msg) ← p.validate folded vv
  if !valid then throw (.valueError msg)
  return folded

/-- simplex_patterns.py:161-174 `fold(free=True)`. -/
def foldFree (p : SimplexPat) (x : NDArray Flt) : Except Err (NDArray Flt) := do
  let n ← x.len
  if (n : ℤ) ≠ p.flatLen true then throw (.valueError "flat_val is the wrong length.")
  let mat ← reshapeZ x (p.shape true)
  let s := mat.shape.dropLast
  return ⟨s ++ [p.k], (rows s.prod (p.k - 1) mat.data).flatMap constrainSimplexRow⟩

/-- simplex_patterns.py:176-184 `flatten(free=False)`. -/
def flattenNF (p : SimplexPat) (a : NDArray α) (vv : Option Bool) : Except Err (NDArray α) := do
  let (valid, msg) ← p.validate a vv
  if !valid then throw (.valueError msg)
  return a.flatten

/-- simplex_patterns.py:176-184 `flatten(free=True)`. -/
def flattenFree (p : SimplexPat) (a : NDArray Flt) (vv : Option Bool) : Except Err (NDArray Flt) := do
  let (valid, msg) ← p.validate a vv
  if !valid then throw (.valueError msg)
  return vec ((rows (p.ashape.map Int.toNat).prod p.k a.data).flatMap unconstrainSimplexRow)

/-- simplex_patterns.py:135-139 `empty(valid=True)`: `np.full` of a shape with a negative entry raises `ValueError`. -/
def empty (p : SimplexPat) : Except Err (NDArray Flt) :=
  if ∃ d ∈ p.shape false, d < 0 then .error (.valueError "negative dimensions are not allowed")
  else .ok ⟨(p.shape false).map Int.toNat, List.replicate ((p.shape false).map Int.toNat).prod (1 / Flt.fin (p.k : ℝ))⟩

/-- `pattern.fold(flat_val, free=None, validate_value=None)`. -/
def fold (p : SimplexPat) (x : NDArray Flt) (free vv : Option Bool := none) : Except Err (NDArray Flt) := do
  let free ← Pattern.freeWithDefault p.fd free
  if free then p.foldFree x else p.foldNF x vv

/-- `pattern.flatten(folded_val, free=None, validate_value=None)`. -/
def flatten (p : SimplexPat) (a : NDArray Flt) (free vv : Option Bool := none) : Except Err (NDArray Flt) := do
  let free ← Pattern.freeWithDefault p.fd free
  if free then p.flattenFree a vv else p.flattenNF a vv

end SimplexPat

/-! ### `PatternArray` -/

/-- The attributes of a `PatternArray`. -/
structure ArrayPat where
  ashape : List ℤ
  base : Pattern
  fd : Option Bool

/-- pattern_containers.py:437-479 `PatternArray.__init__`, `()` excepted as in `Pattern.mkArray`. -/
def mkArray (ashape : List ℤ) (base : Pattern) (fd : Option Bool) : Except Err ArrayPat :=
  if base.isDict then
    .error (.notImplementedError
      "PatternArray does not support patterns whose folded values are not numpy.ndarray types.")
  else if ashape = [] then .error .unmodelled
  else .ok ⟨ashape, base, fd⟩

namespace ArrayPat

/-- The attribute `__shape` (pattern_containers.py:474). -/
def shape (p : ArrayPat) : List ℤ := p.ashape ++ p.base.shape.map Int.ofNat

/-- pattern_containers.py:476-479. -/
def flatLen (p : ArrayPat) (free : Bool) : ℤ := p.ashape.prod * p.base.flatLen free

/-- `itertools.product(*self.__array_ranges)` (pattern_containers.py:450): `range(0, t)` is empty for a negative `t`. -/
def items (p : ArrayPat) : List (List Nat) := productRanges (p.ashape.map Int.toNat)

/-- pattern_containers.py:507-524 `validate_folded`. -/
def validate (p : ArrayPat) (a : NDArray α) (vv : Option Bool) : Except Err (Bool × String) := do
  if a.ndim ≠ p.shape.length then return (false, "Wrong number of dimensions.")
  if ¬ sameShape a p.shape then return (false, "Wrong shape.")
  Pattern.validateItems (fun sub => p.base.validate (.arr sub) vv) a p.items

/-- pattern_containers.py:556-573, the first part of `fold` (the message as in `Pattern.checkFlat`). -/
def foldItems (p : ArrayPat) (f : NDArray α → Except Err (Val α)) (x : NDArray α) (free : Bool) : Except Err (NDArray α) := do
  let x := x.atleast1d
  if x.ndim ≠ 1 then throw (.valueError "The argument to fold must be a 1d vector.")
  if (x.size : ℤ) ≠ p.flatLen free then throw (.valueError "Wrong size.")
  let len := p.base.flatLen free
  let parts ← mapE (fun item => do
      let v ← f (x.slice (ravel (p.ashape.map Int.toNat) item * len) len)
      v.asArr) p.items
  let stacked ← stack parts
  reshapeZ stacked p.shape

/-- pattern_containers.py:555-580 `fold`. -/
def fold (p : ArrayPat) (x : NDArray Flt) (free vv : Option Bool := none) : Except Err (NDArray Flt) := do
  let free ← Pattern.freeWithDefault p.fd free
  if free then p.foldItems p.base.foldFree x true
  else
    let a ← p.foldItems (fun sub => p.base.foldNF sub vv) x false
    Pattern.requireValid (p.validate a vv)
    return a

/-- pattern_containers.py:526-531 `empty(valid=True)`. -/
def empty (p : ArrayPat) : Except Err (NDArray Flt) := do
  let v ← p.base.empty
  let a ← v.asArr
  let stacked ← stack (p.items.map fun _ => a)
  reshapeZ stacked p.shape

/-- pattern_containers.py:582-592 `flatten`. -/
def flatten (p : ArrayPat) (a : NDArray Flt) (free vv : Option Bool := none) : Except Err (NDArray Flt) := do
  let free ← Pattern.freeWithDefault p.fd free
  Pattern.requireValid (p.validate a vv)
  Pattern.flattenItems (fun sub => if free then p.base.flattenFree sub vv else p.base.flattenNF sub vv) a (p.ashape.map Int.toNat)

end ArrayPat

end

end Sizes

end Paragami
