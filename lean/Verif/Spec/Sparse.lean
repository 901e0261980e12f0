import Verif.Model.Sparse

/-! # What is claimed of sparse storage -/

namespace Paragami
namespace Spec
open Sparse

/-- Every stored entry is inside the matrix. -/
def StoredInside {α : Type} (c : Coo α) : Prop := ∀ e ∈ c.stored, e.1 < c.nrows ∧ e.2.1 < c.ncols

/-- No position is stored twice. -/
def StoredOnce {α : Type} (c : Coo α) : Prop := (c.stored.map fun e => (e.1, e.2.1)).Nodup

/-- `autograd.jacobian` returns a matrix with a row for every output and a column for every input, and raises if the function does. -/
def AutogradShape (ad : Pattern.AutogradJacobian) : Prop :=
  ∀ f x J, ad f x = .ok J → ∃ y, f x = .ok y ∧ J.shape = [y.data.length, x.data.length] ∧ J.WF

/-- The class of the result: it depends on the class of the pattern and on `sparse`.  A `SimplexArrayPattern` makes an `np.matrix` where the
others make an `ndarray`. -/
def jacobianClass : Pattern → Bool → Cls
  | .numeric .., true => .dia
  | _, true => .coo
  | .simplex .., false => .matrix
  | _, false => .ndarray

mutual
/-- How many pairs of a flat and a free coordinate belong to the same entry of a numeric array, the same simplex or the same matrix. -/
def relatedPairs : Pattern → Nat
  | .numeric _ s _ _ _ _ => s.prod
  | .simplex k s _ _ => s.prod * (k * (k - 1))
  | .psd n _ _ _ => n * n * (n * (n + 1) / 2)
  | .array s base _ => s.prod * relatedPairs base
  | .dict es _ _ => relatedPairsEs es
/-- The same for the members of a dictionary. -/
def relatedPairsEs : Entries → Nat
  | .nil => 0
  | .cons _ p r => relatedPairs p + relatedPairsEs r
end

end Spec
end Paragami
