import Verif.Spec.RoundingClose

/-! # How close a free vector is to the one that was folded -/

namespace Paragami

/-- `np.linalg.cholesky` does not raise for a matrix that is positive definite by a margin: its lower triangle consists of machine numbers, and its quadratic
form is at least `μ` times the sum of squares, where `μ` exceeds `8 n (n + 2)` rounding errors of every diagonal entry.  (Higham, Accuracy and Stability of
Numerical Algorithms, Theorem 10.7, needs about `n (n + 1)` of them.  The last term covers underflow.) -/
structure Arith.CholSucceeds (A : Arith) : Prop where
  succeeds : ∀ n ≤ 1000, ∀ (a : NDArray Flt) (M : ℕ → ℕ → ℝ) (μ : ℝ),
    (∀ i < n, ∀ j ≤ i, entry n a.data i j = .fin (M i j) ∧ A.Machine (.fin (M i j)) ∧ |M i j| ≤ 2 ^ (900 : ℤ)) → 0 < μ →
    (∀ x : ℕ → ℝ, μ * ∑ i ∈ Finset.range n, x i ^ 2 ≤ ∑ i ∈ Finset.range n, ∑ j ∈ Finset.range n, x i * (if j ≤ i then M i j else M j i) * x j) →
    (∀ i < n, 8 * n * (n + 2) * 2 ^ (-53 : ℤ) * M i i + n * 2 ^ (-499 : ℤ) ≤ μ) → ∃ C, A.chol n a = .ok C

end Paragami

namespace Paragami.Spec

/-- A bound for the absolute row sums of the inverse of a lower triangular factor made from `n * (n + 1) / 2` free values between `-B` and `B`. -/
noncomputable def inverseSize (n : ℕ) (B : ℝ) : ℝ := (1 + B * Real.exp B) ^ n

/-- About `n` rounding errors of the largest entry of a matrix made from free values between `-B` and `B`, above the diagonal bound `c`. -/
noncomputable def matrixRounding (n : ℕ) (B c : ℝ) : ℝ :=
  2 ^ (-53 : ℤ) * ((8 * n + 20) * (n * (Real.exp B + B) ^ 2) + |c|) + n * 2 ^ (-499 : ℤ)

/-- The number in a finite float. -/
def realOf : Flt → ℝ
  | .fin c => c
  | _ => 0

/-- How far a free value may be from the value `u` it was, after folding and flattening: by the kind of array it belongs to.  `B` bounds the free values. -/
noncomputable def freeError (B : ℝ) : Pattern → ℝ → ℝ
  | .numeric _ _ lb ub _ _, u => match lb.toFlt, ub.toFlt with
    | .fin a, .fin b => 2 ^ (-53 : ℤ) *
        (2 * (((|a| + |b|) / (b - a) + 14) * (Real.exp u + Real.exp (-u) + 2)) + 6 * |Real.log (b - a)| + 6 * |u|)
    | .fin a, _ => 2 ^ (-53 : ℤ) * (2 * |u| + 10 + 3 * (|a| * Real.exp (-u)))
    | _, .fin b => 2 ^ (-53 : ℤ) * (2 * |u| + 10 + 3 * (|b| * Real.exp u))
    | _, _ => 0
  | .simplex k _ _ _, _ => 2 ^ (-53 : ℤ) * (22 * B + 4 * k + 150)
  | .psd n lb _ _, _ => (3 + 2 * n * (Real.exp B + B)) * (inverseSize n B ^ 2 * matrixRounding n B (realOf lb.toFlt)) +
      2 ^ (-53 : ℤ) * (5 * B + 3 * Real.exp B)
  | .array _ base _, u => freeError B base u
  | .dict _ _ _, _ => 0

mutual
/-- Patterns whose free values between `-B` and `B` survive folding: the bounds are not so large that adding them loses more than 40 bits, and matrices are
small enough for their error bound to be less than one. -/
def Recoverable (B : ℝ) : Pattern → Prop
  | .numeric _ _ lb ub _ _ => match lb.toFlt, ub.toFlt with
    | .fin a, .fin b => ((|a| + |b|) / (b - a) + 14) * (Real.exp B + Real.exp (-B) + 2) ≤ 2 ^ 40
    | .fin a, _ => |a| ≤ 2 ^ 40 * Real.exp (-B)
    | _, .fin b => |b| ≤ 2 ^ 40 * Real.exp (-B)
    | _, _ => True
  | .simplex _ _ _ _ => True
  | .psd n lb _ _ => n ≤ 1000 ∧ 16 * n * (inverseSize n B ^ 2 * matrixRounding n B (realOf lb.toFlt)) ≤ 1
  | .array _ base _ => Recoverable B base
  | .dict es _ _ => RecoverableEs B es
/-- `Recoverable` for every member. -/
def RecoverableEs (B : ℝ) : Entries → Prop
  | .nil => True
  | .cons _ p r => Recoverable B p ∧ RecoverableEs B r
end

mutual
/-- The second free vector is what came back for the first: of the same length, with every entry within `err` of what it was. -/
def Recovered (err : Pattern → ℝ → ℝ) : Pattern → List ℝ → List ℝ → Prop
  | .dict es _ _, t, y => RecoveredEs err es t y
  | p, t, y => List.Forall₂ (fun u u' => |u' - u| ≤ err p u) t y
/-- `Recovered` member by member: each takes as many values as it has. -/
def RecoveredEs (err : Pattern → ℝ → ℝ) : Entries → List ℝ → List ℝ → Prop
  | .nil, t, y => t = [] ∧ y = []
  | .cons _ p r, t, y => ∃ t₁ t₂ y₁ y₂, t = t₁ ++ t₂ ∧ y = y₁ ++ y₂ ∧ p.flatLength (some true) = .ok t₁.length ∧ Recovered err p t₁ y₁ ∧
      RecoveredEs err r t₂ y₂
end

end Paragami.Spec
