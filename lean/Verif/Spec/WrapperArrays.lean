import Verif.Model.WrapperArrays
import Verif.Spec.WellFormed

/-!
# Function wrappers and the arrays they were made from: notions for the statements
-/

namespace Paragami
namespace FunctionPatterns

/-- What numpy arrays are: the data fit the shapes. -/
structure Given.Genuine (g : Given) : Prop where
  patterns : g.patterns.WF
  free : g.free.WF
  nums : ∀ a, g.nums = some a → a.WF

/-- Numbers that were in increasing order still are. -/
def KeepsOrder (old new : List ℤ) : Prop := ∀ (i j : Nat) (a b a' b' : ℤ), old[i]? = some a → old[j]? = some b →
  new[i]? = some a' → new[j]? = some b' → a < b → a' < b'

/-- What the arguments hold now: arrays are shared, everything else is as it was when the wrapper was made. -/
def present (sh : Shared) (old new : Given) : Given where
  patterns := if sh.patterns then new.patterns else old.patterns
  free := if sh.free then new.free else old.free
  nums := if sh.nums then new.nums else old.nums

/-- The positions that the arguments name: `0`, `1`, … without `argnums`. -/
def Given.positions (g : Given) : List ℤ :=
  match g.nums with
  | none => (List.range g.patterns.data.length).map Int.ofNat
  | some a => a.data

end FunctionPatterns
end Paragami
