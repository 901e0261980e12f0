import Verif.Model.Pattern
import Verif.Model.Memory
import Verif.Model.Rounding

/-!
# Data types of arrays

In the other files a value has entries but no data type.  Here every array of a value has one of three: Booleans, 64-bit integers and 64-bit floats.
`np.hstack` converts its arguments to the largest type among them, and an integer that is converted to a float is rounded.  Integers are unbounded
(no wrap-around), and integers are compared with bounds by their exact values (numpy converts them to floats first if the bound is a Python float).
-/

namespace Paragami

noncomputable section

/-- The data type of an array. -/
inductive DType where
  | bool | int | float
deriving DecidableEq, Repr

/-- `np.promote_types`: the larger of two types. -/
def DType.sup : DType → DType → DType
  | .float, _ => .float
  | _, .float => .float
  | .int, _ => .int
  | _, .int => .int
  | .bool, .bool => .bool

/-- One entry of an array. -/
inductive Num where
  | b (v : Bool)
  | i (n : ℤ)
  | f (x : Flt)

/-- The number that an entry stands for. -/
def Num.toFlt : Num → Flt
  | .b v => .fin (if v then 1 else 0)
  | .i n => .fin n
  | .f x => x

instance : Elem Num := ⟨Num.toFlt⟩

/-- `a.astype(d)` for one entry, where `d` is not smaller than the type of the array. -/
def Num.cast (A : Arith) : DType → Num → Num
  | .float, .b v => .f (.fin (if v then 1 else 0))
  | .float, .i n => .f (A.round (.fin n))
  | .int, .b v => .i (if v then 1 else 0)
  | _, x => x

/-- A folded value whose arrays have data types. -/
inductive TVal where
  | arr (d : DType) (a : NDArray Num)
  | dict (entries : List (String × TVal))

namespace TVal

mutual
/-- The value without the data types. -/
def erase : TVal → Val Num
  | .arr _ a => .arr a
  | .dict es => .dict (eraseEs es)
/-- `erase` for every member. -/
def eraseEs : List (String × TVal) → List (String × Val Num)
  | [] => []
  | (k, v) :: r => (k, v.erase) :: eraseEs r
end

/-- Use a value where the code requires an array. -/
def asArr : TVal → Except Err (DType × NDArray Num)
  | arr d a => .ok (d, a)
  | dict _ => .error .typeError

/-- Use a value where the code requires a dictionary. -/
def asDict : TVal → Except Err (List (String × TVal))
  | dict es => .ok es
  | arr _ _ => .error .typeError

end TVal

namespace Pattern

/-- `np.hstack` of vectors: the parts are converted to the largest type. -/
def hstackT (A : Arith) (parts : List (DType × NDArray Num)) : Except Err (DType × NDArray Num) := do
  let d := (parts.map (·.1)).foldr DType.sup .bool
  let x ← NDArray.hstack (parts.map fun q => q.2.map (Num.cast A d))
  return (d, x)

/-- `flatten` of an array that has one data type: `.flatten()`, and in a `PatternArray` `np.array` and `np.hstack` of vectors of this type, keep the
type. -/
def flattenArr (p : Pattern) (v : TVal) (vv : Option Bool) : Except Err (DType × NDArray Num) := do
  let (d, a) ← v.asArr
  let x ← p.flattenNF (.arr a) vv
  return (d, x)

mutual
/-- `flatten(folded_val, free=False, validate_value)` of a value with data types, same source lines as `flattenNF`. -/
def flattenT (A : Arith) : Pattern → TVal → Option Bool → Except Err (DType × NDArray Num)
  | numeric c s lb ub dv fd, v, vv => flattenArr (numeric c s lb ub dv fd) v vv
  | simplex k s dv fd, v, vv => flattenArr (simplex k s dv fd) v vv
  | psd n lb dv fd, v, vv => flattenArr (psd n lb dv fd) v vv
  | array s base fd, v, vv => flattenArr (array s base fd) v vv
  | dict es l fd, v, vv => do
    requireValid ((dict es l fd).validate v.erase vv)
    let vs ← v.asDict
    let parts ← flattenTEs A es vs vv
    hstackT A parts
/-- The loop of `PatternDict.flatten` (pattern_containers.py:308-319). -/
def flattenTEs (A : Arith) : Entries → List (String × TVal) → Option Bool → Except Err (List (DType × NDArray Num))
  | .nil, _, _ => .ok []
  | .cons k p r, vs, vv =>
    match vs.lookup k with
    | none => .error (.keyError k)
    | some v => do
      let x ← flattenT A p v vv
      let xs ← flattenTEs A r vs vv
      return x :: xs
end

/-- Does `np.array([])`, a float array, replace the items (pattern_containers.py:567-571)? -/
def noItems : Pattern → Bool
  | array s base _ => s.prod = 0 || base.noItems
  | _ => false

mutual
/-- The data types of a value that was folded from a vector of type `d`: slices and `reshape` keep it, and so does `np.array` of a list of arrays
(pattern_containers.py:567-571), unless the list is empty. -/
def withType (d : DType) : Pattern → Val Num → TVal
  | dict es _ _, .dict vs => .dict (withTypeEs d es vs)
  | p, .arr a => .arr (if p.noItems then .float else d) a
  | _, .dict _ => .dict []
/-- `withType` for every member; both lists are in the order of the pattern. -/
def withTypeEs (d : DType) : Entries → List (String × Val Num) → List (String × TVal)
  | .cons _ p r, (k, v) :: vs => (k, withType d p v) :: withTypeEs d r vs
  | _, _ => []
end

/-- `fold(flat_val, free=False, validate_value)` of a vector with a data type, same source lines as `foldNF`. -/
def foldT (p : Pattern) (x : DType × NDArray Num) (vv : Option Bool) : Except Err TVal := do
  let v ← p.foldNF x.2 vv
  return withType x.1 p v

/-- Is `_unconstrain_array` (numeric_array_patterns.py:11-24) a copy, for all entries? -/
def copies : Pattern → Bool
  | numeric _ _ lb ub _ _ => lb.toFlt.eq .ninf && ub.toFlt.eq .pinf
  | array _ base _ => base.copies
  | _ => false

/-- Does the pattern take logarithms of the entries themselves (simplex_patterns.py:45-47)?  For Booleans numpy computes these in half precision, which is
not modelled. -/
def logsEntries : Pattern → Bool
  | simplex _ _ _ _ => true
  | array _ base _ => base.logsEntries
  | _ => false

/-- `flatten(free=True)` of an array: without bounds the entries are copied with their type; otherwise they are subtracted from Python floats or go
through `np.log` or `np.linalg.cholesky`, which give floats (bounds that are Python integers are taken as floats here).  The logarithms are exact here,
only the conversion of the integers rounds. -/
def flattenArrFree (A : Arith) (p : Pattern) (v : TVal) (vv : Option Bool) : Except Err (DType × NDArray Num) := do
  let (d, a) ← v.asArr
  requireValid (p.validate (.arr a) vv)
  if p.copies then
    let x ← p.flattenNF (.arr a) vv
    return (d, x)
  if d = .bool ∧ p.logsEntries then throw .unmodelled
  let x ← p.flattenFree (.arr (a.map fun e => (e.cast A .float).toFlt)) vv
  return (.float, x.map Num.f)

mutual
/-- `flatten(folded_val, free=True, validate_value)` of a value with data types, same source lines as `flattenFree`. -/
def flattenFreeT (A : Arith) : Pattern → TVal → Option Bool → Except Err (DType × NDArray Num)
  | numeric c s lb ub dv fd, v, vv => flattenArrFree A (numeric c s lb ub dv fd) v vv
  | simplex k s dv fd, v, vv => flattenArrFree A (simplex k s dv fd) v vv
  | psd n lb dv fd, v, vv => flattenArrFree A (psd n lb dv fd) v vv
  | array s base fd, v, vv => flattenArrFree A (array s base fd) v vv
  | dict es l fd, v, vv => do
    requireValid ((dict es l fd).validate v.erase vv)
    let vs ← v.asDict
    let parts ← flattenFreeTEs A es vs vv
    hstackT A parts
/-- The loop of `PatternDict.flatten` with `free=True` (pattern_containers.py:308-319). -/
def flattenFreeTEs (A : Arith) : Entries → List (String × TVal) → Option Bool → Except Err (List (DType × NDArray Num))
  | .nil, _, _ => .ok []
  | .cons k p r, vs, vv =>
    match vs.lookup k with
    | none => .error (.keyError k)
    | some v => do
      let x ← flattenFreeT A p v vv
      let xs ← flattenFreeTEs A r vs vv
      return x :: xs
end

end Pattern

end

end Paragami
