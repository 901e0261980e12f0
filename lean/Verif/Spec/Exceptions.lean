import Verif.Spec.WellFormed

/-! # Values of the right kinds -/

namespace Paragami
namespace Spec

mutual
/-- Arrays where the pattern wants arrays and dictionaries where it wants dictionaries; shapes, entries and keys may be anything. -/
def Kinds {α : Type} : Pattern → Val α → Prop
  | .dict es _ _, .dict vs => KindsEs es vs
  | .dict _ _ _, .arr _ => False
  | .numeric _ _ _ _ _ _, .arr _ | .simplex _ _ _ _, .arr _ | .psd _ _ _ _, .arr _ | .array _ _ _, .arr _ => True
  | .numeric _ _ _ _ _ _, .dict _ | .simplex _ _ _ _, .dict _ | .psd _ _ _ _, .dict _ | .array _ _ _, .dict _ => False
/-- The members that are there are of the right kinds. -/
def KindsEs {α : Type} : Entries → List (String × Val α) → Prop
  | .nil, _ => True
  | .cons k p r, vs => (∀ v, vs.lookup k = some v → Kinds p v) ∧ KindsEs r vs
end

/-- The exception is a `ValueError`. -/
def IsValueError (e : Err) : Prop := ∃ msg, e = .valueError msg

mutual
/-- A `PSDSymmetricMatrixPattern` occurs in the pattern. -/
def HasPSD : Pattern → Prop
  | .psd _ _ _ _ => True
  | .array _ base _ => HasPSD base
  | .dict es _ _ => HasPSDEs es
  | _ => False
/-- It occurs in a member. -/
def HasPSDEs : Entries → Prop
  | .nil => False
  | .cons _ p r => HasPSD p ∨ HasPSDEs r
end

end Spec
end Paragami
