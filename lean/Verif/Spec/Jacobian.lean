import Verif.Model.Jacobian
import Verif.Spec.Interior
import Verif.Spec.WellFormed
import Mathlib.Analysis.Calculus.FDeriv.Basic
import Mathlib.Topology.Algebra.Module.FiniteDimension

/-! # What a Jacobian is, and which patterns have one -/

namespace Paragami

open Topology

namespace Spec

/-- `F`, a map on vectors, is defined on real vectors near `x`, takes values in real vectors of length `m`, is (Fréchet)
differentiable at `x`, and `J` is the `m × n` matrix of its derivative: entry `(i, j)` is the derivative of coordinate `i`
of `F` with respect to coordinate `j` of its argument. -/
def HasJacobian (F : NDArray Flt → Except Err (NDArray Flt)) {n : Nat} (m : Nat) (x : Fin n → ℝ) (J : NDArray Flt) : Prop :=
  ∃ (f : (Fin n → ℝ) → Fin m → ℝ) (A : Matrix (Fin m) (Fin n) ℝ),
    (∀ᶠ y in 𝓝 x, F (NDArray.vec (List.ofFn fun j => .fin (y j))) = .ok (NDArray.vec (List.ofFn fun i => .fin (f y i)))) ∧
    HasFDerivAt f (LinearMap.toContinuousLinearMap A.mulVecLin) x ∧
    J = ⟨[m, n], matData A⟩

/-- The map from flat values to flat free values, through the public methods and without checking the value (points near
a valid one need not be valid: a perturbed simplex does not sum to one). -/
noncomputable def freeingMap (p : Pattern) (x : NDArray Flt) : Except Err (NDArray Flt) := do
  let v ← p.fold x (some false) (some false)
  p.flatten v (some true) (some false)

/-- The map from flat free values to flat values, through the public methods. -/
noncomputable def unfreeingMap (p : Pattern) (x : NDArray Flt) : Except Err (NDArray Flt) := do
  let v ← p.fold x (some true)
  p.flatten v (some false)

/-- `J` is the Jacobian, at `v`, of the map from flat values to flat free values: one row for every free coordinate, one
column for every flat coordinate. -/
def IsFreeingJacobian (p : Pattern) (v : Val Flt) (J : NDArray Flt) : Prop :=
  ∃ (n m : Nat) (x : Fin n → ℝ), p.flatLength (some false) = .ok n ∧ p.flatLength (some true) = .ok m ∧
    (∀ vv, p.flatten v (some false) vv = .ok (NDArray.vec (List.ofFn fun j => .fin (x j)))) ∧
    HasJacobian (freeingMap p) m x J

/-- `J` is the Jacobian, at the free vector of `v`, of the map from flat free values to flat values. -/
def IsUnfreeingJacobian (p : Pattern) (v : Val Flt) (J : NDArray Flt) : Prop :=
  ∃ (n m : Nat) (x : Fin m → ℝ), p.flatLength (some false) = .ok n ∧ p.flatLength (some true) = .ok m ∧
    (∀ vv, p.flatten v (some true) vv = .ok (NDArray.vec (List.ofFn fun j => .fin (x j)))) ∧
    HasJacobian (unfreeingMap p) n x J

/-- Entry `(i, j)` of a matrix with `n` columns. -/
noncomputable def cell (n : Nat) (a : NDArray Flt) (i j : Nat) : Option Flt := a.data[i * n + j]?

/-- `J` is block diagonal with the blocks `Js`, given with their numbers of rows and columns: rows and columns are
numbered through the blocks in order, entries within a block are the block's, and all others are zero. -/
def IsBlockDiag (Js : List (Nat × Nat × NDArray Flt)) (J : NDArray Flt) : Prop :=
  J.shape = [(Js.map (·.1)).sum, (Js.map (·.2.1)).sum] ∧ J.WF ∧
  ∀ (a b : Nat) (m n m' n' : Nat) (A B : NDArray Flt), Js[a]? = some (m, n, A) → Js[b]? = some (m', n', B) →
    ∀ i < m, ∀ j < n',
      cell (Js.map (·.2.1)).sum J (((Js.take a).map (·.1)).sum + i) (((Js.take b).map (·.2.1)).sum + j) =
        if a = b then cell n A i j else some (.fin 0)

/-- What is assumed of `autograd.jacobian` for positive definite matrices: where the map from free vectors to matrices has
a Jacobian, that is what it returns. -/
def AutogradSpec (ad : Pattern.AutogradJacobian) : Prop :=
  ∀ n (lb : PyNum) dv fd m (x : Fin ((Pattern.psd n lb dv fd).flatLen true) → ℝ) J, (Pattern.psd n lb dv fd).WF → lb.toFlt.IsFin →
    HasJacobian (unfreeingMap (.psd n lb dv fd)) m x J →
      ad (unfreeingMap (.psd n lb dv fd)) (NDArray.vec (List.ofFn fun j => .fin (x j))) = .ok J

mutual
/-- No container and no simplex array in the tree is empty. -/
def NoEmptyBlocks : Pattern → Prop
  | .simplex _ s _ _ => 0 < s.prod
  | .array s base _ => 0 < s.prod ∧ NoEmptyBlocks base
  | .dict es _ _ => es ≠ .nil ∧ NoEmptyBlocksEs es
  | _ => True
/-- `NoEmptyBlocks` for every member. -/
def NoEmptyBlocksEs : Entries → Prop
  | .nil => True
  | .cons _ p r => NoEmptyBlocks p ∧ NoEmptyBlocksEs r
end

mutual
/-- A tree of numeric and simplex patterns. -/
def NoPSD : Pattern → Prop
  | .psd _ _ _ _ => False
  | .array _ base _ => NoPSD base
  | .dict es _ _ => NoPSDEs es
  | _ => True
/-- `NoPSD` for every member. -/
def NoPSDEs : Entries → Prop
  | .nil => True
  | .cons _ p r => NoPSD p ∧ NoPSDEs r
end

mutual
/-- A numeric pattern, or (nested) dictionaries of numeric patterns. -/
def NumericDicts : Pattern → Prop
  | .numeric _ _ _ _ _ _ => True
  | .dict es _ _ => NumericDictsEs es
  | _ => False
/-- `NumericDicts` for every member. -/
def NumericDictsEs : Entries → Prop
  | .nil => True
  | .cons _ p r => NumericDicts p ∧ NumericDictsEs r
end

end Spec

end Paragami
