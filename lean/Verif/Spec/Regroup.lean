import Verif.Spec.Valid
import Verif.Spec.WellFormed
import Verif.Model.Pattern

/-! # Patterns a user cannot tell apart -/

namespace Paragami.Spec
open NDArray

/-- Two patterns with the same behaviour: the same flat lengths; folding a vector succeeds for both with the same value or
for neither, and so does flattening a folded value; they accept the same folded values; they give the same flat positions
for a mask of the right structure; and they offer the same empty value.  The text of error messages is not compared. -/
structure SameApi (p q : Pattern) : Prop where
  /-- `flat_length(free)`. -/
  length : ∀ free, p.flatLength (some free) = q.flatLength (some free)
  /-- `fold(flat, free, validate_value)` of a one-dimensional vector. -/
  fold : ∀ (l : List Flt) free vv v, p.fold (vec l) (some free) vv = .ok v ↔ q.fold (vec l) (some free) vv = .ok v
  /-- `flatten(folded, free, validate_value)`. -/
  flatten : ∀ v : Val Flt, v.WF → ∀ free vv x, p.flatten v (some free) vv = .ok x ↔ q.flatten v (some free) vv = .ok x
  /-- `validate_folded(folded, validate_value)`. -/
  validate : ∀ v : Val Flt, v.WF → ∀ vv,
    (∃ m, p.validate v vv = .ok (true, m)) ↔ ∃ m, q.validate v vv = .ok (true, m)
  /-- `flat_indices(mask, free)`. -/
  indices : ∀ b : Val Bool, b.WF → ShapeOk p b → ∀ free, p.flatIndices b (some free) = q.flatIndices b (some free)
  /-- `empty(valid=True)`. -/
  empty : ∀ v, p.empty = .ok v ↔ q.empty = .ok v

end Paragami.Spec
