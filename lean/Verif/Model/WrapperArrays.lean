import Verif.Model.FunctionPatterns

/-!
# Function wrappers and the arrays they were made from

`np.atleast_1d` and `np.broadcast_to` (function_patterns.py:63-68 and 182-187) do not copy numpy arrays, so that a wrapper sees what is
written into `patterns`, `free` or `argnums` later if they were numpy arrays.  Lists, tuples and single objects are copied.  The order in
which the positions are visited (`_argnum_sort`, line 67; `_retnum_sort`, line 186) is computed once.
-/

namespace Paragami
namespace FunctionPatterns

/-- The arguments of the constructor, as numpy sees them. -/
structure Given where
  patterns : NDArray Pattern
  free : NDArray (Option Bool)
  nums : Option (NDArray ℤ)

/-- Which of the arguments are numpy arrays. -/
structure Shared where
  patterns : Bool
  free : Bool
  nums : Bool

/-- A wrapper object: the order, what the arguments held when it was made, which of them it shares with the caller. -/
structure Live where
  order : List Nat
  made : Given
  shared : Shared
  originalIsFlat : Bool

/-- function_patterns.py:62-71 and 181-190 `__init__`. -/
def makeLive (g : Given) (sh : Shared) (flat : Bool) : Except Err Live := do
  let s ← construct g.patterns g.free flat g.nums
  return ⟨argsort s.nums, g, sh, flat⟩

/-- What the caller can write into the arrays. -/
inductive Write where
  | pattern (i : Nat) (p : Pattern)
  | free (i : Nat) (f : Option Bool)
  | num (i : Nat) (k : ℤ)

/-- `a.flat[i] = x`.  If there is no such entry, numpy raises and nothing is written. -/
def put {α : Type} (a : NDArray α) (i : Nat) (x : α) : NDArray α := ⟨a.shape, a.data.set i x⟩

/-- The arrays of the caller after a write. -/
def Given.write (g : Given) : Write → Given
  | .pattern i p => { g with patterns := put g.patterns i p }
  | .free i f => { g with free := put g.free i f }
  | .num i k => { g with nums := g.nums.map fun a => put a i k }

/-- What the wrapper sees when the caller's arrays are `g`. -/
def Live.seen (w : Live) (g : Given) : Given :=
  ⟨if w.shared.patterns then g.patterns else w.made.patterns, if w.shared.free then g.free else w.made.free,
    if w.shared.nums then g.nums else w.made.nums⟩

/-- The attributes `_patterns`, `free`, `_argnums` (or `_retnums`) and `_original_is_flat`. -/
def Live.now (w : Live) (g : Given) : Wrapper :=
  let a := w.seen g
  ⟨a.patterns.data, broadcastData a.free [a.patterns.data.length], (numArray a.patterns.data.length a.nums).data, w.originalIsFlat⟩

/-- The positions with their pattern and `free`, as visited by `for i in self._argnum_sort`. -/
def Wrapper.visit (s : Wrapper) (order : List Nat) : List (ℤ × Pattern × Option Bool) :=
  order.filterMap fun i => do
    let k ← s.nums[i]?
    let p ← s.patterns[i]?
    let f ← s.free[i]?
    return (k, p, f)

noncomputable section
variable {X : Type}

/-- The arguments the wrapped function gets (function_patterns.py:101-113). -/
def Live.newArgs (w : Live) (g : Given) (args : List (Arg X)) : Except Err (List (Arg X)) :=
  inputLoop (if w.originalIsFlat then flattenArg else foldArg) args ((w.now g).visit w.order) 0 []

/-- function_patterns.py:98-115 `TransformFunctionInput.__call__`. -/
def Live.callInput (w : Live) (g : Given) (f : Fn X) (args : List (Arg X)) (kwargs : Kwargs X) : Except Err (Ret X) := do
  let args ← w.newArgs g args
  f.call args kwargs

/-- function_patterns.py:217-254 `TransformFunctionOutput.__call__`; a value that is no tuple is treated as in `transformRet`. -/
def Live.callOutput (w : Live) (g : Given) (f : Fn X) (args : List (Arg X)) (kwargs : Kwargs X) : Except Err (Ret X) := do
  let rets ← f.call args kwargs
  match rets with
  | .single a => transformRet (w.now g) f.named (.single a)
  | .tuple rets => do
    return .tuple (← outputLoop f.named (if w.originalIsFlat then foldArg else flattenArg) rets ((w.now g).visit w.order) 0 [])

end
end FunctionPatterns
end Paragami
