import Verif.Proofs.FreeVal
import Verif.Proofs.Built

/-! # The user-level entry points with an explicit `free` -/

namespace Paragami
namespace Pattern

@[simp] theorem freeWithDefault_some (fd : Option Bool) (b : Bool) : freeWithDefault fd (some b) = .ok b := rfl

theorem fold_true (p : Pattern) (x : NDArray Flt) (vv) : p.fold x (some true) vv = p.foldFree x := rfl
theorem fold_false (p : Pattern) (x : NDArray Flt) (vv) : p.fold x (some false) vv = p.foldNF x vv := rfl
theorem flatten_true (p : Pattern) (v : Val Flt) (vv) : p.flatten v (some true) vv = p.flattenFree v vv := rfl
theorem flatten_false (p : Pattern) (v : Val Flt) (vv) : p.flatten v (some false) vv = p.flattenNF v vv := rfl
theorem flatLength_some (p : Pattern) (b : Bool) : p.flatLength (some b) = .ok (p.flatLen b) := rfl

theorem freeWithDefault_cases (fd free : Option Bool) :
    (∃ b, freeWithDefault fd free = .ok b ∧ ∀ p : Pattern, p.freeDefault = fd → ∀ x v vv,
      p.fold x free vv = p.fold x (some b) vv ∧ p.flatten v free vv = p.flatten v (some b) vv ∧
      p.flatLength free = p.flatLength (some b)) ∨
    (fd = none ∧ free = none) := by
  cases free with
  | some b => exact .inl ⟨b, rfl, fun p hp x v vv => ⟨rfl, rfl, rfl⟩⟩
  | none =>
    cases fd with
    | some b =>
      refine .inl ⟨b, rfl, fun p hp x v vv => ?_⟩
      simp [fold, flatten, flatLength, hp, freeWithDefault]
    | none => exact .inr ⟨rfl, rfl⟩

end Pattern
end Paragami
