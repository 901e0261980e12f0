import Verif.Model.RoundingJacobian
import Verif.Spec.RoundingFlattenClose
import Verif.Spec.Jacobian

/-! # Vocabulary for Jacobians in floating point -/

namespace Paragami

/-- `np.sum` of machine numbers of moderate size, in any order: relative to the sum of the absolute values, one unit in the last place for every summand. -/
structure Arith.SumAccurate (A : Arith) : Prop where
  sum : ∀ l : List ℝ, l.length ≤ 2 ^ 20 → (∀ x ∈ l, A.Machine (.fin x) ∧ |x| ≤ 2 ^ (900 : ℤ)) →
    ∃ v, A.sum (l.map .fin) = .fin v ∧ A.Machine (.fin v) ∧ |v - l.sum| ≤ l.length * 2 ^ (-52 : ℤ) * (l.map fun x => |x|).sum
  /-- A sum with `-inf` among the summands, and otherwise numbers of moderate size. -/
  ninf : ∀ l : List Flt, l.length ≤ 2 ^ 20 → (∀ x ∈ l, x = .ninf ∨ ∃ r, x = .fin r ∧ A.Machine (.fin r) ∧ |r| ≤ 2 ^ (900 : ℤ)) → .ninf ∈ l → A.sum l = .ninf

end Paragami

namespace Paragami.Spec
open Pattern

/-- Two finite numbers, the first within `ε` times the size of the second of it.  In particular it is zero if the second is. -/
def RelClose (ε : ℝ) (x y : Flt) : Prop := ∃ z w : ℝ, x = .fin z ∧ y = .fin w ∧ |z - w| ≤ ε * |w|

/-- Matrices of the same shape with related entries. -/
def MatRel (R : Flt → Flt → Prop) (a b : NDArray Flt) : Prop :=
  ∃ m n : ℕ, a.shape = [m, n] ∧ b.shape = [m, n] ∧ a.data.length = m * n ∧ b.data.length = m * n ∧
    ∀ i < m, ∀ j < n, R (entry n a.data i j) (entry n b.data i j)

/-- The same exception, or related results. -/
def SameOr {α : Type} (R : α → α → Prop) : Except Err α → Except Err α → Prop
  | .ok a, .ok b => R a b
  | .error e, .error e' => e = e'
  | _, _ => False

mutual
/-- Values not too near the upper one of two bounds, and probabilities not too near one: what is left up to there is at least `1 / κ` of the whole. -/
def Clear (κ : ℝ) : Pattern → Val Flt → Prop
  | .numeric _ _ lb ub _ _, .arr a => ∀ l u v, lb.toFlt = .fin l → ub.toFlt = .fin u → Flt.fin v ∈ a.data → u - l ≤ κ * (u - v)
  | .simplex k _ _ _, .arr a => 1 < k → ∀ v, Flt.fin v ∈ a.data → 1 ≤ κ * (1 - v)
  | .array s base _, .arr a => ∀ i < s.prod, Clear κ base (.arr ⟨base.shape, block base.shape.prod a.data i⟩)
  | .dict es _ _, .dict vs => ClearEs κ es vs
  | _, _ => True
/-- `Clear` for every member. -/
def ClearEs (κ : ℝ) : Entries → List (String × Val Flt) → Prop
  | .nil, _ => True
  | .cons k p r, vs => (∀ v, vs.lookup k = some v → Clear κ p v) ∧ ClearEs κ r vs
end

mutual
/-- The number of members of all the dictionaries in a pattern. -/
def members : Pattern → ℕ
  | .array _ base _ => members base
  | .dict es _ _ => membersEs es
  | _ => 0
/-- The members of a dictionary and of the dictionaries among them. -/
def membersEs : Entries → ℕ
  | .nil => 0
  | .cons _ p r => members p + 1 + membersEs r
end

end Paragami.Spec
