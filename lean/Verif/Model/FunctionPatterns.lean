import Mathlib.Data.List.Dedup
import Verif.Model.Pattern

/-!
# `function_patterns.py`

The wrapped function is any function from positional and keyword arguments to an outcome.  Arguments are folded or flat values (`Val`: a flat value is an array) or any other object.
`np.atleast_1d` of one pattern is taken to be a length-one object array (`PatternDict` has `__getitem__` but no `__len__`, so numpy
does not take it apart).
-/

namespace Paragami

namespace FunctionPatterns

/-- A positional argument or a return value. -/
inductive Arg (X : Type) where
  | val (v : Val Flt)
  | other (x : X)

/-- What a function returns: a tuple, or something that is not a tuple. -/
inductive Ret (X : Type) where
  | single (a : Arg X)
  | tuple (l : List (Arg X))

/-- Keyword arguments, by name. -/
abbrev Kwargs (X : Type) := List (String × Arg X)

/-- A callable: what it does with positional and keyword arguments, and whether it has a `__name__` (a wrapper object has none). -/
structure Fn (X : Type) where
  call : List (Arg X) → Kwargs X → Except Err (Ret X)
  named : Bool

/-! ### Python sequences -/

/-- `l[i]` for an integer `i`. -/
def pyGet {α : Type} (l : List α) (i : ℤ) : Except Err α :=
  let j := if i < 0 then i + l.length else i
  if j < 0 then .error .indexError
  else
    match l[j.toNat]? with
    | some a => .ok a
    | none => .error .indexError

/-- A slice bound: negative ones count from the end, then clipped to the list. -/
def clip (n : Nat) (i : ℤ) : Nat :=
  if i < 0 then (i + n).toNat else min i.toNat n

/-- `l[a:b]`. -/
def pySlice {α : Type} (l : List α) (a b : ℤ) : List α :=
  (l.take (clip l.length b)).drop (clip l.length a)

/-- `np.argsort` of a vector (the positions in increasing order of the value; which one comes first among equal values does not
matter here because duplicates are rejected). -/
def argsort (l : List ℤ) : List Nat :=
  (List.range l.length).mergeSort (fun i j => decide (l.getD i 0 ≤ l.getD j 0))

/-- Does a shape broadcast to another one: aligned at the end, each dimension is equal or 1? -/
def broadcasts (s t : List Nat) : Bool :=
  s.length ≤ t.length && (s.reverse.zip t.reverse).all (fun d => d.1 == d.2 || d.1 == 1)

/-- The data of `np.broadcast_to(a, t)`. -/
def broadcastData {α : Type} (a : NDArray α) (t : List Nat) : List α :=
  (NDArray.productRanges t).filterMap fun idx =>
    a.data[NDArray.ravel a.shape ((a.shape.zip (idx.drop (t.length - a.shape.length))).map fun d => if d.1 == 1 then 0 else d.2)]?

/-- `np.broadcast_to(a, t)`. -/
def broadcastTo {α : Type} (a : NDArray α) (t : List Nat) : Except Err (NDArray α) :=
  if broadcasts a.shape t then .ok ⟨t, broadcastData a t⟩
  else .error (.valueError "could not broadcast")

/-! ### Construction -/

/-- The attributes shared by both transformers, after `__init__`: patterns, `free` and positions as vectors. -/
structure Wrapper where
  patterns : List Pattern
  free : List (Option Bool)
  nums : List ℤ
  originalIsFlat : Bool

/-- function_patterns.py:64-65 and 183-184: `np.arange(0, n)` when no positions are given. -/
def numArray (n : Nat) : Option (NDArray ℤ) → NDArray ℤ
  | none => NDArray.vec ((List.range n).map Int.ofNat)
  | some a => a

/-- function_patterns.py:62-89 and 181-208 `__init__` and `_validate_args` of `TransformFunctionInput` and
`TransformFunctionOutput` (`argnums` is called `retnums` in the latter).  `patterns`, `free` and `argnums` are given as numpy would
see them: a single object is a 0-d array. -/
def construct (patterns : NDArray Pattern) (free : NDArray (Option Bool)) (originalIsFlat : Bool) (nums : Option (NDArray ℤ)) :
    Except Err Wrapper := do
  let patterns := patterns.atleast1d
  let n ← patterns.len
  let nums := (numArray n nums).atleast1d
  let free ← broadcastTo free patterns.shape
  if patterns.ndim ≠ 1 then throw (.valueError "patterns must be a 1d vector.")
  if nums.ndim ≠ 1 then throw (.valueError "argnums must be a 1d vector.")
  let m ← nums.len
  if m ≠ nums.data.dedup.length then throw (.valueError "argnums must not contain duplicated values.")
  if m ≠ n then throw (.valueError "argnums must be the same length as patterns.")
  if free.ndim ≠ 1 then throw (.valueError "free must be a single boolean or a 1d vector of booleans.")
  let k ← free.len
  if k ≠ n then throw (.valueError "free must broadcast to the same shape as patterns.")
  return ⟨patterns.data, free.data, nums.data, originalIsFlat⟩

/-! ### Calls -/

noncomputable section
variable {X : Type}

/-- `pattern.fold(a, free=free)`.  Anything that is not an array is outside the model. -/
def foldArg (p : Pattern) (free : Option Bool) : Arg X → Except Err (Arg X)
  | .val (.arr x) => do return .val (← p.fold x free none)
  | _ => .error .unmodelled

/-- `pattern.flatten(a, free=free)`.  Other objects than folded values are outside the model. -/
def flattenArg (p : Pattern) (free : Option Bool) : Arg X → Except Err (Arg X)
  | .val v => do return .val (.arr (← p.flatten v free none))
  | .other _ => .error .unmodelled

/-- The positions to transform, with their pattern and `free`, in increasing order of the position
(`for i in self._argnum_sort`). -/
def Wrapper.sorted (s : Wrapper) : List (ℤ × Pattern × Option Bool) :=
  (argsort s.nums).filterMap fun i => do
    let k ← s.nums[i]?
    let p ← s.patterns[i]?
    let f ← s.free[i]?
    return (k, p, f)

/-- The loop of `TransformFunctionInput.__call__` (function_patterns.py:101-113) for the transformation `tr`. -/
def inputLoop (tr : Pattern → Option Bool → Arg X → Except Err (Arg X)) (args : List (Arg X)) :
    List (ℤ × Pattern × Option Bool) → ℤ → List (Arg X) → Except Err (List (Arg X))
  | [], last, acc => .ok (acc ++ pySlice args last args.length)
  | (k, p, f) :: items, last, acc => do
    let a ← pyGet args k
    let v ← tr p f a
    inputLoop tr args items (k + 1) (acc ++ pySlice args last k ++ [v])

/-- The arguments the wrapped function gets. -/
def newArgs (s : Wrapper) (args : List (Arg X)) : Except Err (List (Arg X)) :=
  inputLoop (if s.originalIsFlat then flattenArg else foldArg) args s.sorted 0 []

/-- function_patterns.py:98-115 `TransformFunctionInput.__call__`. -/
def callInput (s : Wrapper) (f : Fn X) (args : List (Arg X)) (kwargs : Kwargs X) : Except Err (Ret X) := do
  let args ← newArgs s args
  f.call args kwargs

/-- The exception for too few return values: `self._fun.__name__` is evaluated for the message. -/
def nameErr (named : Bool) (msg : String) : Err := if named then .valueError msg else .attributeError

/-- The loop of `TransformFunctionOutput.__call__` (function_patterns.py:233-252) for the transformation `tr`. -/
def outputLoop (named : Bool) (tr : Pattern → Option Bool → Arg X → Except Err (Arg X)) (rets : List (Arg X)) :
    List (ℤ × Pattern × Option Bool) → ℤ → List (Arg X) → Except Err (List (Arg X))
  | [], last, acc => .ok (acc ++ pySlice rets last rets.length)
  | (k, p, f) :: items, last, acc => do
    if (rets.length : ℤ) ≤ k then throw (nameErr named "Not enough return values")
    let a ← pyGet rets k
    let v ← tr p f a
    outputLoop named tr rets items (k + 1) (acc ++ pySlice rets last k ++ [v])

/-- What happens to the value the wrapped function returned (function_patterns.py:221-254).  `not self._retnums == [0]` compares
elementwise: for more than one element its truth value raises `ValueError`; for none it is false (and `not` of it true). -/
def transformRet (s : Wrapper) (named : Bool) : Ret X → Except Err (Ret X)
  | .single a =>
    match s.nums with
    | [] => .error (nameErr named "returned only one value")
    | [k] =>
      if k ≠ 0 then .error (nameErr named "returned only one value")
      else
        match s.patterns[0]?, s.free[0]? with
        | some p, some f => do return .single (← (if s.originalIsFlat then foldArg else flattenArg) p f a)
        | _, _ => .error .indexError
    | _ => .error (.valueError "The truth value of an array with more than one element is ambiguous.")
  | .tuple rets => do
    return .tuple (← outputLoop named (if s.originalIsFlat then foldArg else flattenArg) rets s.sorted 0 [])

/-- function_patterns.py:217-254 `TransformFunctionOutput.__call__`. -/
def callOutput (s : Wrapper) (f : Fn X) (args : List (Arg X)) (kwargs : Kwargs X) : Except Err (Ret X) := do
  let rets ← f.call args kwargs
  transformRet s f.named rets

/-- The wrapper objects are callables without a `__name__`. -/
def wrapInput (s : Wrapper) (f : Fn X) : Fn X := ⟨callInput s f, false⟩
/-- The wrapper objects are callables without a `__name__`. -/
def wrapOutput (s : Wrapper) (f : Fn X) : Fn X := ⟨callOutput s f, false⟩

/-- function_patterns.py:118-131 `FoldFunctionInput`. -/
def foldFunctionInput (f : Fn X) (patterns : NDArray Pattern) (free : NDArray (Option Bool)) (argnums : Option (NDArray ℤ)) :
    Except Err (Fn X) := do return wrapInput (← construct patterns free true argnums) f
/-- function_patterns.py:134-147 `FlattenFunctionInput`. -/
def flattenFunctionInput (f : Fn X) (patterns : NDArray Pattern) (free : NDArray (Option Bool)) (argnums : Option (NDArray ℤ)) :
    Except Err (Fn X) := do return wrapInput (← construct patterns free false argnums) f
/-- function_patterns.py:258-271 `FoldFunctionOutput`. -/
def foldFunctionOutput (f : Fn X) (patterns : NDArray Pattern) (free : NDArray (Option Bool)) (retnums : Option (NDArray ℤ)) :
    Except Err (Fn X) := do return wrapOutput (← construct patterns free true retnums) f
/-- function_patterns.py:274-287 `FlattenFunctionOutput`. -/
def flattenFunctionOutput (f : Fn X) (patterns : NDArray Pattern) (free : NDArray (Option Bool)) (retnums : Option (NDArray ℤ)) :
    Except Err (Fn X) := do return wrapOutput (← construct patterns free false retnums) f

/-- function_patterns.py:339-364 `FoldFunctionInputAndOutput`. -/
def foldFunctionInputAndOutput (f : Fn X) (ip : NDArray Pattern) (ifr : NDArray (Option Bool)) (ia : Option (NDArray ℤ))
    (op : NDArray Pattern) (ofr : NDArray (Option Bool)) (ora : Option (NDArray ℤ)) : Except Err (Fn X) := do
  let g ← foldFunctionOutput f op ofr ora
  let h ← foldFunctionInput g ip ifr ia
  return ⟨h.call, false⟩

/-- function_patterns.py:368-393 `FlattenFunctionInputAndOutput`. -/
def flattenFunctionInputAndOutput (f : Fn X) (ip : NDArray Pattern) (ifr : NDArray (Option Bool)) (ia : Option (NDArray ℤ))
    (op : NDArray Pattern) (ofr : NDArray (Option Bool)) (ora : Option (NDArray ℤ)) : Except Err (Fn X) := do
  let g ← flattenFunctionOutput f op ofr ora
  let h ← flattenFunctionInput g ip ifr ia
  return ⟨h.call, false⟩

end

end FunctionPatterns

end Paragami
