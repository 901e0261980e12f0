import Verif.Spec.LeafNames
import Verif.Spec.Jacobian

/-! # Reaching into nested dictionaries -/

namespace Paragami
namespace Spec

/-- `v[k1][k2]...`, if all these keys are there. -/
def pick {α : Type} : Val α → List String → Option (Val α)
  | v, [] => some v
  | .dict vs, k :: ks =>
    match vs.lookup k with
    | some v => pick v ks
    | none => none
  | .arr _, _ :: _ => none

end Spec
end Paragami
