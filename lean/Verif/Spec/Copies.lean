import Verif.Model.Copies
import Verif.Spec.WellFormed

/-!
# Vocabulary for the properties of copies
-/
namespace Paragami.Copies

/-- The object that a statement changes, if it changes one. -/
def Op.target : Op → Option Nat
  | .set d _ _ => some d
  | .del d _ => some d
  | .lock d => some d
  | _ => none

/-- The states that programs reach which set members built by the constructors. -/
def Reached (s : State) : Prop :=
  ∃ ops, (∀ d k p, Op.set d k p ∈ ops → Pattern.Built p) ∧ s = run ⟨[], []⟩ ops

end Paragami.Copies
