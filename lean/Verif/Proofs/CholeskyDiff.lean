import Verif.Proofs.PSDFree
import Mathlib.Analysis.SpecialFunctions.Sqrt
import Mathlib.Analysis.Calculus.Deriv.Inv
import Mathlib.Analysis.Calculus.FDeriv.Mul
import Mathlib.Analysis.Calculus.FDeriv.Add

/-! # The Cholesky factor depends differentiably on the matrix -/

namespace Paragami
open Topology

namespace Jac

/-- The Cholesky factor by the Cholesky–Banachiewicz recursion. -/
noncomputable def cholR (A : Nat → Nat → ℝ) (i j : Nat) : ℝ :=
  if j < i then (A i j - ∑ k : Fin j, cholR A i k * cholR A j k) / cholR A j j
  else if j = i then Real.sqrt (A i i - ∑ k : Fin i, cholR A i k * cholR A i k)
  else 0
termination_by (i, j)
decreasing_by all_goals omega

theorem cholR_lt {A : Nat → Nat → ℝ} {i j : Nat} (h : j < i) :
    cholR A i j = (A i j - ∑ k ∈ Finset.range j, cholR A i k * cholR A j k) / cholR A j j := by
  rw [cholR, if_pos h, Finset.sum_range]

theorem cholR_diag (A : Nat → Nat → ℝ) (i : Nat) :
    cholR A i i = Real.sqrt (A i i - ∑ k ∈ Finset.range i, cholR A i k * cholR A i k) := by
  rw [cholR, if_neg (lt_irrefl _), if_pos rfl, Finset.sum_range]

theorem cholR_gt {A : Nat → Nat → ℝ} {i j : Nat} (h : i < j) : cholR A i j = 0 := by
  rw [cholR, if_neg (by omega), if_neg (by omega)]

/-- A factorization with positive diagonal is the one the recursion computes. -/
theorem isChol_cholR {n : Nat} {A L : Nat → Nat → ℝ} (h : IsChol n A L) : ∀ i j, i < n → j < n → L i j = cholR A i j := by
  obtain ⟨hz, hp, hs⟩ := h
  have key : ∀ i, i < n → ∀ j, j ≤ i → L i j = cholR A i j := by
    intro i
    induction i using Nat.strong_induction_on with
    | _ i ihi =>
    intro hi j
    induction j using Nat.strong_induction_on with
    | _ j ihj =>
    intro hj
    have hsum := hs i j hi hj
    rw [sum_range_split (by omega : j < n) _ (fun k hk hkn => by rw [hz j k (by omega) hkn hk, mul_zero])] at hsum
    rcases Nat.lt_or_ge j i with hji | hji
    · rw [cholR_lt hji, ← ihi j hji (by omega) j le_rfl, eq_div_iff (hp j (by omega)).ne', ← hsum]
      have : ∑ k ∈ Finset.range j, cholR A i k * cholR A j k = ∑ k ∈ Finset.range j, L i k * L j k :=
        Finset.sum_congr rfl fun k hk => by
          have hk := Finset.mem_range.mp hk
          rw [← ihj k hk (by omega), ← ihi j hji (by omega) k (by omega)]
      rw [this]; ring
    · obtain rfl : j = i := by omega
      rw [cholR_diag]
      have : ∑ k ∈ Finset.range j, cholR A j k * cholR A j k = ∑ k ∈ Finset.range j, L j k * L j k :=
        Finset.sum_congr rfl fun k hk => by
          have hk := Finset.mem_range.mp hk
          rw [← ihj k hk (by omega)]
      rw [this, ← hsum, add_sub_cancel_left, Real.sqrt_mul_self (hp j hi).le]
  intro i j hi hj
  rcases Nat.lt_or_ge i j with h | h
  · rw [hz i j hi hj h, cholR_gt h]
  · exact key i hi j h

/-- The recursion computes a factorization if it meets no zero or negative pivot. -/
theorem cholR_isChol {n : Nat} {A : Nat → Nat → ℝ} (h : ∀ i < n, 0 < cholR A i i) : IsChol n A (cholR A) := by
  refine ⟨fun i j _ _ hij => cholR_gt hij, h, fun i j hi hj => ?_⟩
  rw [sum_range_split (by omega : j < n) _ (fun k hk hkn => by rw [cholR_gt (i := j) hk, mul_zero])]
  rcases Nat.lt_or_ge j i with hji | hji
  · rw [cholR_lt hji, div_mul_cancel₀ _ (h j (by omega)).ne']; ring
  · obtain rfl : j = i := by omega
    have hpos := h j hi
    have hx : 0 < A j j - ∑ k ∈ Finset.range j, cholR A j k * cholR A j k := by
      rw [cholR_diag] at hpos; exact Real.sqrt_pos.mp hpos
    have := cholR_diag A j
    have h2 : cholR A j j * cholR A j j = A j j - ∑ k ∈ Finset.range j, cholR A j k * cholR A j k := by
      conv_lhs => rw [this]
      exact Real.mul_self_sqrt hx.le
    rw [h2]; ring

variable {E : Type} [NormedAddCommGroup E] [NormedSpace ℝ E]

theorem differentiableAt_cholR {n : Nat} {z : E → Nat → Nat → ℝ} {e : E}
    (hd : ∀ i j, i < n → j ≤ i → DifferentiableAt ℝ (fun u => z u i j) e) (hp : ∀ i < n, 0 < cholR (z e) i i) :
    ∀ i, i < n → ∀ j, j ≤ i → DifferentiableAt ℝ (fun u => cholR (z u) i j) e := by
  intro i
  induction i using Nat.strong_induction_on with
  | _ i ihi =>
  intro hi j
  induction j using Nat.strong_induction_on with
  | _ j ihj =>
  intro hj
  rcases Nat.lt_or_ge j i with hji | hji
  · have : (fun u => cholR (z u) i j) = fun u =>
        (z u i j - ∑ k ∈ Finset.range j, cholR (z u) i k * cholR (z u) j k) / cholR (z u) j j := funext fun u => cholR_lt hji
    rw [this]
    simp only [div_eq_mul_inv]
    refine DifferentiableAt.fun_mul ((hd i j hi hj).fun_sub (DifferentiableAt.fun_sum fun k hk => ?_)) ((ihi j hji (by omega) j le_rfl).fun_inv (hp j (by omega)).ne')
    have hk := Finset.mem_range.mp hk
    exact (ihj k hk (by omega)).fun_mul (ihi j hji (by omega) k (by omega))
  · obtain rfl : j = i := by omega
    have : (fun u => cholR (z u) j j) = fun u =>
        Real.sqrt (z u j j - ∑ k ∈ Finset.range j, cholR (z u) j k * cholR (z u) j k) := funext fun u => cholR_diag _ _
    rw [this]
    refine DifferentiableAt.sqrt ((hd j j hi le_rfl).fun_sub (DifferentiableAt.fun_sum fun k hk => ?_)) ?_
    · have hk := Finset.mem_range.mp hk
      exact (ihj k hk (by omega)).fun_mul (ihj k hk (by omega))
    · have hpos := hp j hi
      rw [cholR_diag] at hpos
      exact (Real.sqrt_pos.mp hpos).ne'

theorem contDiffAt_cholR {n : Nat} {z : E → Nat → Nat → ℝ} {e : E} {N : WithTop ℕ∞}
    (hd : ∀ i j, i < n → j ≤ i → ContDiffAt ℝ N (fun u => z u i j) e) (hp : ∀ i < n, 0 < cholR (z e) i i) :
    ∀ i, i < n → ∀ j, j ≤ i → ContDiffAt ℝ N (fun u => cholR (z u) i j) e := by
  intro i
  induction i using Nat.strong_induction_on with
  | _ i ihi =>
  intro hi j
  induction j using Nat.strong_induction_on with
  | _ j ihj =>
  intro hj
  rcases Nat.lt_or_ge j i with hji | hji
  · have : (fun u => cholR (z u) i j) = fun u =>
        (z u i j - ∑ k ∈ Finset.range j, cholR (z u) i k * cholR (z u) j k) / cholR (z u) j j := funext fun u => cholR_lt hji
    rw [this]
    refine ContDiffAt.div ((hd i j hi hj).sub (ContDiffAt.sum fun k hk => ?_)) (ihi j hji (by omega) j le_rfl) (hp j (by omega)).ne'
    have hk := Finset.mem_range.mp hk
    exact (ihj k hk (by omega)).mul (ihi j hji (by omega) k (by omega))
  · obtain rfl : j = i := by omega
    have : (fun u => cholR (z u) j j) = fun u =>
        Real.sqrt (z u j j - ∑ k ∈ Finset.range j, cholR (z u) j k * cholR (z u) j k) := funext fun u => cholR_diag _ _
    rw [this]
    refine ContDiffAt.sqrt ((hd j j hi le_rfl).sub (ContDiffAt.sum fun k hk => ?_)) ?_
    · have hk := Finset.mem_range.mp hk
      exact (ihj k hk (by omega)).mul (ihj k hk (by omega))
    · have hpos := hp j hi
      rw [cholR_diag] at hpos
      exact (Real.sqrt_pos.mp hpos).ne'

/-- Near a matrix with a Cholesky factor every matrix has one, and it is differentiable. -/
theorem chol_family {n : Nat} {z : E → Nat → Nat → ℝ} {e : E} {L : Nat → Nat → ℝ}
    (hd : ∀ i j, i < n → j ≤ i → DifferentiableAt ℝ (fun u => z u i j) e) (hL : IsChol n (z e) L) :
    (∀ᶠ u in 𝓝 e, IsChol n (z u) (cholR (z u))) ∧ (∀ i j, i < n → j < n → L i j = cholR (z e) i j) ∧
      ∀ i, i < n → ∀ j, j ≤ i → DifferentiableAt ℝ (fun u => cholR (z u) i j) e := by
  have h1 := isChol_cholR hL
  have hp : ∀ i < n, 0 < cholR (z e) i i := fun i hi => h1 i i hi hi ▸ hL.2.1 i hi
  have h2 := differentiableAt_cholR hd hp
  refine ⟨?_, h1, h2⟩
  have : ∀ᶠ u in 𝓝 e, ∀ i ∈ Finset.range n, 0 < cholR (z u) i i := by
    rw [Filter.eventually_all_finset]
    intro i hi
    have hi := Finset.mem_range.mp hi
    exact (h2 i hi i le_rfl).continuousAt.eventually_const_lt (hp i hi)
  filter_upwards [this] with u hu
  exact cholR_isChol fun i hi => hu i (Finset.mem_range.mpr hi)

end Jac

end Paragami
