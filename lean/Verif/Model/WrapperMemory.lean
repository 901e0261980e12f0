import Verif.Model.Memory
import Verif.Model.FunctionPatterns

/-!
# Function wrappers over array memory

`TransformFunctionInput.__call__` and `TransformFunctionOutput.__call__` transcribed again over the memory of `Model/Memory.lean`,
to say which arrays of the caller the wrapped function gets to see, and which of its own arrays it hands out.  Positional and keyword
arguments that are not arrays or dictionaries of arrays own no cells.  A call that raises says nothing about the memory.
-/

namespace Paragami
namespace Memory
open FunctionPatterns

/-- A positional argument or a return value: arrays by the addresses of their cells. -/
inductive MArg (X : Type) where
  | val (v : Val Addr)
  | other (x : X)

/-- What a function returns: a tuple, or something that is not a tuple. -/
inductive MRet (X : Type) where
  | single (a : MArg X)
  | tuple (l : List (MArg X))

/-- Keyword arguments, by name. -/
abbrev MKwargs (X : Type) := List (String × MArg X)

/-- A callable, which may read, write and allocate memory, and whether it has a `__name__`. -/
structure MFn (X : Type) where
  call : List (MArg X) → MKwargs X → MM (MRet X)
  named : Bool

noncomputable section
variable {X : Type}

/-- `pattern.fold(a, free=free)`.  Anything that is not an array is outside the model. -/
def foldArg (p : Pattern) (free : Option Bool) : MArg X → MM (MArg X)
  | .val (.arr x) => andThen (userFold p x free none) fun v => ret (.val v)
  | _ => lift (.error .unmodelled)

/-- `pattern.flatten(a, free=free)`.  Other objects than folded values are outside the model. -/
def flattenArg (p : Pattern) (free : Option Bool) : MArg X → MM (MArg X)
  | .val v => andThen (userFlatten p v free none) fun x => ret (.val (.arr x))
  | .other _ => lift (.error .unmodelled)

/-- The loop of `TransformFunctionInput.__call__` (function_patterns.py:101-113) for the transformation `tr`. -/
def inputLoop (tr : Pattern → Option Bool → MArg X → MM (MArg X)) (args : List (MArg X)) :
    List (ℤ × Pattern × Option Bool) → ℤ → List (MArg X) → MM (List (MArg X))
  | [], last, acc => ret (acc ++ pySlice args last args.length)
  | (k, p, f) :: items, last, acc =>
    andThen (lift (pyGet args k)) fun a =>
    andThen (tr p f a) fun v =>
    inputLoop tr args items (k + 1) (acc ++ pySlice args last k ++ [v])

/-- function_patterns.py:98-115 `TransformFunctionInput.__call__`. -/
def callInput (s : Wrapper) (f : MFn X) (args : List (MArg X)) (kwargs : MKwargs X) : MM (MRet X) :=
  andThen (inputLoop (if s.originalIsFlat then flattenArg else foldArg) args s.sorted 0 []) fun args =>
  f.call args kwargs

/-- The loop of `TransformFunctionOutput.__call__` (function_patterns.py:233-252) for the transformation `tr`. -/
def outputLoop (named : Bool) (tr : Pattern → Option Bool → MArg X → MM (MArg X)) (rets : List (MArg X)) :
    List (ℤ × Pattern × Option Bool) → ℤ → List (MArg X) → MM (List (MArg X))
  | [], last, acc => ret (acc ++ pySlice rets last rets.length)
  | (k, p, f) :: items, last, acc =>
    if (rets.length : ℤ) ≤ k then lift (.error (nameErr named "Not enough return values"))
    else
      andThen (lift (pyGet rets k)) fun a =>
      andThen (tr p f a) fun v =>
      outputLoop named tr rets items (k + 1) (acc ++ pySlice rets last k ++ [v])

/-- What happens to the value the wrapped function returned (function_patterns.py:221-254); see `FunctionPatterns.transformRet`. -/
def transformRet (s : Wrapper) (named : Bool) : MRet X → MM (MRet X)
  | .single a =>
    match s.nums with
    | [] => lift (.error (nameErr named "returned only one value"))
    | [k] =>
      if k ≠ 0 then lift (.error (nameErr named "returned only one value"))
      else
        match s.patterns[0]?, s.free[0]? with
        | some p, some f =>
          andThen ((if s.originalIsFlat then foldArg else flattenArg) p f a) fun v => ret (.single v)
        | _, _ => lift (.error .indexError)
    | _ => lift (.error (.valueError "The truth value of an array with more than one element is ambiguous."))
  | .tuple rets =>
    andThen (outputLoop named (if s.originalIsFlat then foldArg else flattenArg) rets s.sorted 0 []) fun l => ret (.tuple l)

/-- function_patterns.py:217-254 `TransformFunctionOutput.__call__`. -/
def callOutput (s : Wrapper) (f : MFn X) (args : List (MArg X)) (kwargs : MKwargs X) : MM (MRet X) :=
  andThen (f.call args kwargs) fun rets => transformRet s f.named rets

end

end Memory
end Paragami
