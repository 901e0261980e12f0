import Verif.Spec.RoundingFree

/-! # How close a computed free vector is to the exact one -/

namespace Paragami.Spec

/-- How far a computed free value may be from the exact free value `u`: by the kind of array it belongs to.  `B` bounds the logarithms of probabilities and the
exact free values of matrices. -/
noncomputable def flattenError (B : ℝ) : Pattern → ℝ → ℝ
  | .numeric _ _ lb ub _ _, u => match lb.toFlt, ub.toFlt with
    | .fin a, .fin b => 2 ^ (-53 : ℤ) * (6 * |Real.log (b - a)| + 3 * |u| + 12)
    | .fin _, _ => 2 ^ (-53 : ℤ) * (2 * |u| + 3)
    | _, .fin _ => 2 ^ (-53 : ℤ) * (2 * |u| + 3)
    | _, _ => 0
  | .simplex _ _ _ _, _ => 2 ^ (-53 : ℤ) * (6 * B + 7)
  | .psd n lb _ _, _ => (3 + 2 * n * (Real.exp B + B)) * (inverseSize n B ^ 2 * matrixRounding n B (realOf lb.toFlt)) +
      2 ^ (-53 : ℤ) * (5 * B + 3 * Real.exp B)
  | .array _ base _, u => flattenError B base u
  | .dict _ _ _, _ => 0

/-- The values of a matrix pattern considered here: machine numbers, equal to `L @ L.T + diag_lb * I` for a lower triangular `L` of moderate size, both on the
diagonal (where its logarithm counts) and below, and small enough for the error bound to be less than one. -/
def InsideMatrix (A : Arith) (B : ℝ) (n : ℕ) (c : ℝ) (a : NDArray Flt) : Prop :=
  n ≤ 1000 ∧ 16 * n * (1 + Real.exp B + B) * (inverseSize n B ^ 2 * matrixRounding n B c) ≤ 1 ∧
  ∃ L : Matrix (Fin n) (Fin n) ℝ, (∀ i j, i < j → L i j = 0) ∧ (∀ i, 0 < L i i ∧ |Real.log (L i i)| ≤ B) ∧ (∀ i j, j < i → |L i j| ≤ B) ∧
    a = ⟨[n, n], matData (L * L.transpose + c • 1)⟩ ∧ ∀ i j, A.Machine (.fin ((L * L.transpose + c • (1 : Matrix (Fin n) (Fin n) ℝ)) i j))

mutual
/-- Values of the pattern away from the bounds: machine numbers of moderate size, at least `2 ** -300` from every bound; probabilities of at least
`exp(-B)` with sums within `1e-13` of one; matrices with a factor of moderate size.  Nothing is said of what the machine makes of them. -/
def Inside (A : Arith) (B : ℝ) : Pattern → Val Flt → Prop
  | .numeric _ s lb ub _ _, .arr a => a.shape = s ∧ a.data.length = s.prod ∧ ∀ x ∈ a.data, ∃ v, x = .fin v ∧ A.Machine (.fin v) ∧ |v| ≤ 2 ^ (300 : ℤ) ∧
      (∀ c, lb.toFlt = .fin c → 2 ^ (-300 : ℤ) ≤ v - c) ∧ ∀ c, ub.toFlt = .fin c → 2 ^ (-300 : ℤ) ≤ c - v
  | .simplex k s _ _, .arr a => a.shape = s ++ [k] ∧ ∃ r : List ℝ, a.data = r.map .fin ∧ r.length = s.prod * k ∧
      (∀ v ∈ r, A.Machine (.fin v) ∧ 0 < v ∧ |Real.log v| ≤ B) ∧ ∀ i < s.prod, |(block k r i).sum - 1| ≤ 1 / 10 ^ 13
  | .psd n lb _ _, .arr a => InsideMatrix A B n (realOf lb.toFlt) a
  | .array s base _, .arr a => a.shape = s ++ base.shape ∧ a.data.length = s.prod * base.shape.prod ∧
      ∀ i < s.prod, Inside A B base (.arr ⟨base.shape, block base.shape.prod a.data i⟩)
  | .dict es _ _, .dict vs => InsideEs A B es vs
  | _, _ => False
/-- `Inside` for every member. -/
def InsideEs (A : Arith) (B : ℝ) : Entries → List (String × Val Flt) → Prop
  | .nil, _ => True
  | .cons k p r, vs => (∃ v, vs.lookup k = some v ∧ Inside A B p v) ∧ InsideEs A B r vs
end

end Paragami.Spec
