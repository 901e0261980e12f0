import Verif.Model.Pattern

/-! # What a folded value "is", as far as its pattern is concerned -/

namespace Paragami

namespace Spec
variable {α : Type}

mutual
/-- The part of a folded value that the pattern describes: numpy scalars become length-one arrays (`np.atleast_1d`),
and a dictionary is restricted to the pattern's keys, in the pattern's order. -/
def canon : Pattern → Val α → Val α
  | .numeric _ _ _ _ _ _, .arr a => .arr a.atleast1d
  | .dict es _ _, .dict vs => .dict (canonEs es vs)
  | _, v => v
/-- `canon` on the members. -/
def canonEs : Entries → List (String × Val α) → List (String × Val α)
  | .nil, _ => []
  | .cons k p r, vs =>
    match vs.lookup k with
    | some v => (k, canon p v) :: canonEs r vs
    | none => canonEs r vs
end

end Spec

end Paragami
