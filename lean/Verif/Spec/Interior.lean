import Verif.Model.Pattern
import Mathlib.LinearAlgebra.Matrix.PosDef

/-! # The interior of a pattern's constraint set, stated without reference to the transforms -/

namespace Paragami

namespace Spec

/-- The `i`-th block of length `k` of a row-major list. -/
def block {α : Type _} (k : Nat) (l : List α) (i : Nat) : List α := (l.drop (i * k)).take k

/-- The row-major entries of a real matrix, as floats. -/
noncomputable def matData {n m : Nat} (M : Matrix (Fin n) (Fin m) ℝ) : List Flt :=
  (List.ofFn fun i => List.ofFn fun j => Flt.fin (M i j)).flatten

mutual
/-- `v` lies strictly inside the set described by the pattern: numeric entries strictly between the bounds; simplexes
of positive real numbers with sum exactly one; symmetric real matrices `M` with `M - diag_lb * I` positive definite;
containers memberwise (a dictionary may carry extra keys). -/
def Interior : Pattern → Val Flt → Prop
  | .numeric _ s lb ub _ _, .arr a =>
    a.WF ∧ a.atleast1d.shape = s ∧ ∀ x ∈ a.data, lb.toFlt.lt x = true ∧ x.lt ub.toFlt = true
  | .simplex k s _ _, .arr a =>
    a.WF ∧ a.shape = s ++ [k] ∧
      ∀ i < s.prod, ∃ r : List ℝ, block k a.data i = r.map .fin ∧ (∀ x ∈ r, 0 < x) ∧ r.sum = 1
  | .psd n lb _ _, .arr a =>
    ∃ M : Matrix (Fin n) (Fin n) ℝ, a = ⟨[n, n], matData M⟩ ∧ (M - lb.toFlt.toReal • (1 : Matrix (Fin n) (Fin n) ℝ)).PosDef
  | .array s base _, .arr a =>
    a.WF ∧ a.shape = s ++ base.shape ∧
      ∀ i < s.prod, Interior base (.arr ⟨base.shape, block base.shape.prod a.data i⟩)
  | .dict es _ _, .dict vs => InteriorEs es vs
  | _, _ => False
/-- Every member of the pattern is present and interior. -/
def InteriorEs : Entries → List (String × Val Flt) → Prop
  | .nil, _ => True
  | .cons k p r, vs => (∃ v, vs.lookup k = some v ∧ Interior p v) ∧ InteriorEs r vs
end

end Spec

end Paragami
