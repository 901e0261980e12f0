import Verif.Model.FunctionPatterns

/-! # The texts of the exceptions of the constructors of function wrappers -/

namespace Paragami.FunctionPatterns

/-- function_patterns.py:62-89 (`TransformFunctionInput`, where `name` is `argnums`) and 181-208 (`TransformFunctionOutput`, where it is
`retnums`) with the messages; `numpy` is the message of numpy's `broadcast_to`. -/
def constructText (numpy name : String) (patterns : NDArray Pattern) (free : NDArray (Option Bool)) (originalIsFlat : Bool)
    (nums : Option (NDArray ℤ)) : Except Err Wrapper := do
  let patterns := patterns.atleast1d
  let n ← patterns.len
  let nums := (numArray n nums).atleast1d
  if broadcasts free.shape patterns.shape = false then throw (.valueError numpy)
  let free : NDArray (Option Bool) := ⟨patterns.shape, broadcastData free patterns.shape⟩
  if patterns.ndim ≠ 1 then throw (.valueError "patterns must be a 1d vector.")
  if nums.ndim ≠ 1 then throw (.valueError (name ++ " must be a 1d vector."))
  let m ← nums.len
  if m ≠ nums.data.dedup.length then throw (.valueError (name ++ " must not contain duplicated values."))
  if m ≠ n then throw (.valueError (name ++ " must be the same length as patterns."))
  if free.ndim ≠ 1 then throw (.valueError "free must be a single boolean or a 1d vector of booleans.")
  let k ← free.len
  if k ≠ n then throw (.valueError "free must broadcast to the same shape as patterns.")
  return ⟨patterns.data, free.data, nums.data, originalIsFlat⟩

end Paragami.FunctionPatterns
