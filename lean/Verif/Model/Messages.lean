import Verif.Model.FunctionPatterns
import Verif.Model.Str

/-!
# The texts of exceptions and of `validate_folded`

`Model/Pattern.lean` drops the values that are formatted into messages.  Here the messages are as in the source.  The text of a float is
the parameter `fmt` (Python's `repr`).
-/

namespace Paragami

/-- `'…{}…{}…'.format(a, b, …)`: the pieces of the format between the fields, and the texts of the arguments.  The texts put in are not
looked at again.  Arguments that are left over are ignored.  With too few arguments Python raises `IndexError`; that does not happen in
this library. -/
def pyFormat : List String → List String → String
  | [], _ => ""
  | [s], _ => s
  | s :: _ :: _, [] => s
  | s :: t :: r, a :: as => s ++ a ++ pyFormat (t :: r) as

namespace Pattern
noncomputable section
variable {α : Type} [Elem α]

/-- numeric_array_patterns.py:196-208 `validate_folded` with the message of lines 187-194. -/
def numericText (s : List Nat) (lb ub : Flt) (dv : Bool) (a : NDArray α) (vv : Option Bool) : Bool × String :=
  let a := a.atleast1d
  if a.shape ≠ s then (false, "Wrong size for array." ++ " Expected shape: " ++ tupleStr s ++ " Got shape: " ++ tupleStr a.shape)
  else if vv.getD dv then
    if a.data.any (fun x => (Elem.toFlt x).lt lb) then (false, "Value beneath lower bound.")
    else if a.data.any (fun x => (Elem.toFlt x).gt ub) then (false, "Value above upper bound.")
    else (true, "")
  else (true, "")

/-- psdmatrix_patterns.py:246-289 `validate_folded` with the messages of lines 238-244 and 282-285. -/
def psdText (fmt : Flt → String) (n : Nat) (lb : PyNum) (dv : Bool) (a : NDArray α) (vv : Option Bool) : Except Err (Bool × String) :=
  if a.shape ≠ [n, n] then .error (.valueError (pyFormat ["The matrix is not of shape ", ""] [tupleStr [n, n]]))
  else if vv.getD dv then
    let d := a.data.map Elem.toFlt
    if (List.range n).any (fun i => (entry n d i i).lt lb.toFlt) then
      .ok (false, pyFormat ["Diagonal is less than the lower bound ", "."] [lb.str fmt])
    else if !((List.range n).all fun i => (List.range n).all fun j => (entry n d j i).eq (entry n d i j)) then
      .ok (false, "Matrix is not symmetric.")
    else .ok (true, "")
  else .ok (true, "")

/-- The loop of `PatternArray.validate_folded` (pattern_containers.py:518-524) over the array items. -/
def itemsText (f : NDArray α → Except Err (Bool × String)) (a : NDArray α) : List (List Nat) → Except Err (Bool × String)
  | [] => .ok (true, "")
  | item :: rest => do
    let sub ← a.getItem item
    let (valid, msg) ← f sub
    if !valid then return (false, pyFormat ["Bad value in location ", ": ", ""] [tupleStr item, msg])
    itemsText f a rest

mutual
/-- `validate_folded` with its messages: simplex_patterns.py:147-159, pattern_containers.py:507-524 (`PatternArray`; the value's
dimensions are given first), 252-263 (`PatternDict`), and the two functions above. -/
def validateText (fmt : Flt → String) : Pattern → Val α → Option Bool → Except Err (Bool × String)
  | numeric _ s lb ub dv _, v, vv => do
    let a ← v.asArr
    return numericText s lb.toFlt ub.toFlt dv a vv
  | simplex k s dv _, v, vv => do
    let a ← v.asArr
    Simplex.validate k s dv a vv
  | psd n lb dv _, v, vv => do
    let a ← v.asArr
    psdText fmt n lb dv a vv
  | array s base _, v, vv => do
    let a ← v.asArr
    let shape := s ++ base.shape
    if a.ndim ≠ shape.length then
      return (false, pyFormat ["Wrong number of dimensions.  Expected ", ", got ", "."] [toString a.ndim, toString shape.length])
    if a.shape ≠ shape then
      return (false, pyFormat ["Wrong shape.  Expected ", ", got ", "."] [tupleStr a.shape, tupleStr shape])
    itemsText (fun sub => base.validateText fmt (.arr sub) vv) a (NDArray.productRanges s)
  | dict es _ _, v, vv => do
    let vs ← v.asDict
    validateTextEs fmt es vs vv
/-- The loop of `PatternDict.validate_folded` (pattern_containers.py:252-263). -/
def validateTextEs (fmt : Flt → String) : Entries → List (String × Val α) → Option Bool → Except Err (Bool × String)
  | .nil, _, _ => .ok (true, "")
  | .cons k p r, vs, vv =>
    match vs.lookup k with
    | none => .ok (false, pyFormat ["", " not in folded_val dictionary."] [k])
    | some v => do
      let (valid, err_msg) ← p.validateText fmt v vv
      if !valid then return (false, pyFormat ["", " is not valid."] [err_msg])
      validateTextEs fmt r vs vv
end

/-- The message for a flat value of the wrong size: numeric_array_patterns.py:219-223, simplex_patterns.py:165,
psdmatrix_patterns.py:307-308, pattern_containers.py:561-563 and 272-276.  (The expected length of a dictionary that has lost its
members prints as `0.0`; that is not modelled.) -/
def sizeText (fmt : Flt → String) (p : Pattern) (expected got : Nat) : String :=
  match p with
  | numeric .. => pyFormat ["Wrong size for array.  Expected ", ", got ", ""] [toString expected, toString got]
  | simplex .. => "flat_val is the wrong length."
  | psd .. => "Wrong length for PSDSymmetricMatrix flat value."
  | array .. => pyFormat ["Wrong size for parameter.  Expected ", ", got ", ""] [toString expected, toString got]
  | dict .. => pyFormat ["Wrong size for pattern dictionary ", ".\n" ++ "Expected ", ", got ", "."] [p.str fmt, toString expected, toString got]

/-- The checks of the argument at the start of `fold`, in the classes that use `np.atleast_1d`. -/
def checkText (fmt : Flt → String) (p : Pattern) (x : NDArray α) (n : Nat) : Except Err (NDArray α) := do
  let x := x.atleast1d
  if x.ndim ≠ 1 then throw (.valueError "The argument to fold must be a 1d vector.")
  if x.size ≠ n then throw (.valueError (sizeText fmt p n x.size))
  return x

mutual
/-- `fold(flat_val, free=False, validate_value)` with its messages: numeric_array_patterns.py:210-234, simplex_patterns.py:161-174,
psdmatrix_patterns.py:301-316, pattern_containers.py:555-580 and 265-296. -/
def foldText (fmt : Flt → String) : Pattern → NDArray α → Option Bool → Except Err (Val α)
  | numeric c s lb ub dv fd, x, vv => do
    let x ← checkText fmt (numeric c s lb ub dv fd) x s.prod
    let a ← x.reshape s
    requireValid (validateText fmt (numeric c s lb ub dv fd) (.arr a) vv)
    return .arr a
  | simplex k s dv fd, x, vv => do
    let n ← x.len
    if n ≠ (s ++ [k]).prod then throw (.valueError (sizeText fmt (simplex k s dv fd) (s ++ [k]).prod n))
    let a ← x.reshape (s ++ [k])
    requireValid (validateText fmt (simplex k s dv fd) (.arr a) vv)
    return .arr a
  | psd n lb dv fd, x, vv => do
    let x ← checkText fmt (psd n lb dv fd) x (n ^ 2)
    let a ← x.reshape [n, n]
    requireValid (validateText fmt (psd n lb dv fd) (.arr a) vv)
    return .arr a
  | array s base fd, x, vv => do
    let x ← checkText fmt (array s base fd) x (s.prod * base.flatLen false)
    let a ← foldItems (fun sub => base.foldText fmt sub vv) x s (s ++ base.shape) (base.flatLen false)
    requireValid (validateText fmt (array s base fd) (.arr a) vv)
    return .arr a
  | dict es l fd, x, vv => do
    let x ← checkText fmt (dict es l fd) x (flatLenEs es false)
    let vs ← foldTextEs fmt es x vv 0
    requireValid (validateText fmt (dict es l fd) (.dict vs) vv)
    return .dict vs
/-- The loop of `PatternDict.fold` (pattern_containers.py:280-291). -/
def foldTextEs (fmt : Flt → String) : Entries → NDArray α → Option Bool → Nat → Except Err (List (String × Val α))
  | .nil, _, _, _ => .ok []
  | .cons k p r, x, vv, offset => do
    let v ← p.foldText fmt (x.slice offset (p.flatLen false)) vv
    let vs ← foldTextEs fmt r x vv (offset + p.flatLen false)
    return (k, v) :: vs
end

mutual
/-- `flatten(folded_val, free=False, validate_value)` with its messages: numeric_array_patterns.py:236-246,
simplex_patterns.py:176-184, psdmatrix_patterns.py:291-299, pattern_containers.py:582-592 and 298-320. -/
def flattenText (fmt : Flt → String) : Pattern → Val α → Option Bool → Except Err (NDArray α)
  | numeric c s lb ub dv fd, v, vv => do
    let a ← v.asArr
    requireValid (validateText fmt (numeric c s lb ub dv fd) (.arr a.atleast1d) vv)
    return a.atleast1d.flatten
  | simplex k s dv fd, v, vv => do
    let a ← v.asArr
    requireValid (validateText fmt (simplex k s dv fd) (.arr a) vv)
    return a.flatten
  | psd n lb dv fd, v, vv => do
    let a ← v.asArr
    requireValid (validateText fmt (psd n lb dv fd) (.arr a) vv)
    return a.flatten
  | array s base fd, v, vv => do
    requireValid (validateText fmt (array s base fd) v vv)
    let a ← v.asArr
    flattenItems (fun sub => base.flattenText fmt sub vv) a s
  | dict es l fd, v, vv => do
    requireValid (validateText fmt (dict es l fd) v vv)
    let vs ← v.asDict
    let parts ← flattenTextEs fmt es vs vv
    NDArray.hstack parts
/-- The loop of `PatternDict.flatten` (pattern_containers.py:308-319). -/
def flattenTextEs (fmt : Flt → String) : Entries → List (String × Val α) → Option Bool → Except Err (List (NDArray α))
  | .nil, _, _ => .ok []
  | .cons k p r, vs, vv =>
    match vs.lookup k with
    | none => .error (.keyError k)
    | some v => do
      let x ← p.flattenText fmt v vv
      let xs ← flattenTextEs fmt r vs vv
      return x :: xs
end

end

end Pattern

namespace FunctionPatterns
noncomputable section
variable {X : Type}

/-- The text of an array of integers is left open (`texts`); `name` is the `__name__` of the wrapped function, if it has one: without
one, evaluating the message raises `AttributeError`. -/
def raiseText (name : Option String) (msg : String → String) : Err :=
  match name with
  | none => .attributeError
  | some n => .valueError (msg n)

/-- function_patterns.py:223-226: `.format` belongs to the second of the two literals that are added. -/
def singleText (texts : List ℤ → String) (s : Wrapper) (n : String) : String :=
  "{} returned only one value, but multiple" ++ pyFormat ["retnums were specified: ", ""] [n, texts s.nums]

/-- function_patterns.py:238-243: the same. -/
def fewText (texts : List ℤ → String) (s : Wrapper) (got : Nat) (n : String) : String :=
  "Not enough return values in {} ({}) for" ++ pyFormat ["specified retnums ", "."] [n, toString got, texts s.nums]

/-- The loop of `TransformFunctionOutput.__call__` (function_patterns.py:233-252), with its message. -/
def outputLoopText (texts : List ℤ → String) (s : Wrapper) (name : Option String)
    (tr : Pattern → Option Bool → Arg X → Except Err (Arg X)) (rets : List (Arg X)) :
    List (ℤ × Pattern × Option Bool) → ℤ → List (Arg X) → Except Err (List (Arg X))
  | [], last, acc => .ok (acc ++ pySlice rets last rets.length)
  | (k, p, f) :: items, last, acc => do
    if (rets.length : ℤ) ≤ k then throw (raiseText name (fewText texts s rets.length))
    let a ← pyGet rets k
    let v ← tr p f a
    outputLoopText texts s name tr rets items (k + 1) (acc ++ pySlice rets last k ++ [v])

/-- What happens to the returned value (function_patterns.py:221-254), with the messages. -/
def transformRetText (texts : List ℤ → String) (s : Wrapper) (name : Option String) : Ret X → Except Err (Ret X)
  | .single a =>
    match s.nums with
    | [] => .error (raiseText name (singleText texts s))
    | [k] =>
      if k ≠ 0 then .error (raiseText name (singleText texts s))
      else
        match s.patterns[0]?, s.free[0]? with
        | some p, some f => do return .single (← (if s.originalIsFlat then foldArg else flattenArg) p f a)
        | _, _ => .error .indexError
    | _ => .error (.valueError "The truth value of an array with more than one element is ambiguous.")
  | .tuple rets => do
    return .tuple (← outputLoopText texts s name (if s.originalIsFlat then foldArg else flattenArg) rets s.sorted 0 [])

end
end FunctionPatterns

end Paragami
