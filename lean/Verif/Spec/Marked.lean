import Verif.Model.Pattern

/-! # The marked entries of a folded value -/

namespace Paragami

namespace Spec

mutual
/-- The entries of the value where the boolean mask (in folded shape) is true: arrays in row-major order, dictionaries
in the order of the pattern's keys. -/
def marked {α : Type} : Pattern → Val Bool → Val α → List α
  | .dict es _ _, .dict bs, .dict vs => markedEs es bs vs
  | _, .arr b, .arr a => ((a.data.zip b.data).filter (·.2)).map (·.1)
  | _, _, _ => []
/-- `marked` for the members. -/
def markedEs {α : Type} : Entries → List (String × Val Bool) → List (String × Val α) → List α
  | .nil, _, _ => []
  | .cons k p r, bs, vs =>
    (match bs.lookup k, vs.lookup k with
     | some b, some v => marked p b v
     | _, _ => []) ++ markedEs r bs vs
end

mutual
/-- The number of true entries of a mask, counting only what the pattern describes. -/
def countMarked : Pattern → Val Bool → Nat
  | .dict es _ _, .dict bs => countMarkedEs es bs
  | _, .arr b => b.data.count true
  | _, _ => 0
/-- `countMarked` for the members. -/
def countMarkedEs : Entries → List (String × Val Bool) → Nat
  | .nil, _ => 0
  | .cons k p r, bs => (match bs.lookup k with | some b => countMarked p b | none => 0) + countMarkedEs r bs
end

end Spec

end Paragami
