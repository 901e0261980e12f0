import Verif.Model.Optimization
import Mathlib.Analysis.Complex.Basic

/-!
# `truncate_eigenvalues` for the different kinds of arrays

`Model/Optimization.lean` has it for float arrays, where it is used by the library.  A user can also pass eigenvalues of a non-symmetric
matrix (`np.linalg.eig` returns complex ones) or an integer array.
-/

namespace Paragami

namespace Optimization

noncomputable section

/-- The numbers in an array, by dtype. -/
inductive EvArray where
  | float (l : List ℝ)
  | complex (l : List ℂ)
  | int (l : List ℤ)

/-- A float converted to an integer by numpy: rounded towards zero. -/
def truncToZero (t : ℝ) : ℤ := if 0 ≤ t then ⌊t⌋ else ⌈t⌉

/-- Whether the conversion of a float to int64 is defined. -/
def FitsInt64 (t : ℝ) : Prop := -(2 : ℝ) ^ 63 ≤ t ∧ t < 2 ^ 63

open Classical in
/-- `v[cond(np.real(v))] = t`: the entries whose real part satisfies the condition are overwritten with the number, converted to the dtype
of the array. Overwriting an integer with a number that does not fit is outside the model. -/
def EvArray.setWhere (cond : ℝ → Prop) (t : ℝ) : EvArray → Except Err EvArray
  | .float l => .ok (.float (l.map fun x => if cond x then t else x))
  | .complex l => .ok (.complex (l.map fun z => if cond z.re then (t : ℂ) else z))
  | .int l =>
    if FitsInt64 t ∨ ∀ k ∈ l, ¬ cond k then .ok (.int (l.map fun k : ℤ => if cond k then truncToZero t else k))
    else .error .unmodelled

/-- optimization_lib.py:16-45 `truncate_eigenvalues`, for any dtype (on values: the `deepcopy` at the start makes the rest invisible to the
caller, see C51). -/
def truncateAny (evals : EvArray) (evMin evMax : Option Threshold) : Except Err EvArray := do
  let v ← match evMin with
    | none => pure evals
    | some t => do
      let t ← t.toFloat "ev_min must be real-valued."
      evals.setWhere (· ≤ t) t
  match evMax with
  | none => pure v
  | some t => do
    let t ← t.toFloat "ev_max must be real-valued."
    v.setWhere (· ≥ t) t

end

end Optimization

end Paragami
