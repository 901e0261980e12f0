import Mathlib.LinearAlgebra.Matrix.NonsingularInverse
import Mathlib.LinearAlgebra.Matrix.Block
import Mathlib.Algebra.Ring.GeomSum
import Mathlib.Analysis.SpecialFunctions.Exp

/-! # The inverse of a lower triangular matrix with diagonal entries away from zero -/

namespace Paragami

/-- The absolute row sums of the inverse. -/
theorem tri_inverse {n : ℕ} {L : Matrix (Fin n) (Fin n) ℝ} (hz : ∀ i j : Fin n, i < j → L i j = 0) {B E : ℝ} (hB : 0 ≤ B) (hE : 0 < E)
    (hd : ∀ i, 1 ≤ E * L i i) (ho : ∀ i j : Fin n, j < i → |L i j| ≤ B) :
    ∃ W : Matrix (Fin n) (Fin n) ℝ, W * L = 1 ∧ ∀ i, ∑ k, |W i k| ≤ E * (1 + B * E) ^ (i : ℕ) := by
  have hpos : ∀ i, 0 < L i i := fun i => (mul_pos_iff_of_pos_left hE).mp (lt_of_lt_of_le one_pos (hd i))
  have hdet : IsUnit L.det := by
    rw [Matrix.det_of_isLowerTriangular L (fun i j h => hz i j h)]
    exact (Finset.prod_pos fun i _ => hpos i).ne'.isUnit
  refine ⟨L⁻¹, Matrix.nonsing_inv_mul L hdet, ?_⟩
  have hLW : L * L⁻¹ = 1 := Matrix.mul_nonsing_inv L hdet
  generalize L⁻¹ = W at *
  have hrow : ∀ i, ∑ j, |W i j| ≤ E * (1 + B * ∑ k ∈ Finset.univ.filter (· < i), ∑ j, |W k j|) := by
    intro i
    have h1 : ∀ j, |W i j| ≤ E * (|(1 : Matrix (Fin n) (Fin n) ℝ) i j| + B * ∑ k ∈ Finset.univ.filter (· < i), |W k j|) := by
      intro j
      have h2 : ∑ k, L i k * W k j = (1 : Matrix (Fin n) (Fin n) ℝ) i j := by rw [← hLW, Matrix.mul_apply]
      have h3 : ∑ k, L i k * W k j = L i i * W i j + ∑ k ∈ Finset.univ.filter (· < i), L i k * W k j := by
        rw [← Finset.add_sum_erase _ _ (Finset.mem_univ i)]
        congr 1
        symm
        apply Finset.sum_subset
        · intro k hk
          rw [Finset.mem_filter] at hk
          exact Finset.mem_erase.mpr ⟨hk.2.ne, Finset.mem_univ _⟩
        · intro k hk hk'
          have : i < k := by
            rw [Finset.mem_filter] at hk'
            have h4 := (Finset.mem_erase.mp hk).1
            rcases lt_trichotomy k i with h | h | h
            · exact absurd ⟨Finset.mem_univ _, h⟩ hk'
            · exact absurd h h4
            · exact h
          rw [hz i k this, zero_mul]
      have h4 : L i i * |W i j| ≤ |(1 : Matrix (Fin n) (Fin n) ℝ) i j| + B * ∑ k ∈ Finset.univ.filter (· < i), |W k j| := by
        rw [← abs_of_pos (hpos i), ← abs_mul]
        have h5 : L i i * W i j = (1 : Matrix (Fin n) (Fin n) ℝ) i j - ∑ k ∈ Finset.univ.filter (· < i), L i k * W k j := by linarith
        rw [h5]
        refine (abs_sub _ _).trans (add_le_add le_rfl ((Finset.abs_sum_le_sum_abs _ _).trans ?_))
        rw [Finset.mul_sum]
        refine Finset.sum_le_sum fun k hk => ?_
        rw [abs_mul]
        exact mul_le_mul_of_nonneg_right (ho i k (Finset.mem_filter.mp hk).2) (abs_nonneg _)
      have h6 := mul_le_mul_of_nonneg_left h4 hE.le
      have h7 := mul_le_mul_of_nonneg_right (hd i) (abs_nonneg (W i j))
      linarith [mul_assoc E (L i i) |W i j|]
    refine (Finset.sum_le_sum fun j _ => h1 j).trans (le_of_eq ?_)
    rw [← Finset.mul_sum, Finset.sum_add_distrib, ← Finset.mul_sum, Finset.sum_comm]
    congr 3
    rw [Finset.sum_eq_single i]
    · simp
    · intro j _ hj; simp [Matrix.one_apply_ne hj.symm]
    · simp
  have hq : 0 ≤ 1 + B * E := by positivity
  have key : ∀ (m : ℕ) (hm : m < n), ∑ j, |W ⟨m, hm⟩ j| ≤ E * (1 + B * E) ^ m := by
    intro m
    induction m using Nat.strong_induction_on with
    | _ m ih =>
    intro hm
    refine (hrow ⟨m, hm⟩).trans (mul_le_mul_of_nonneg_left ?_ hE.le)
    have h1 : ∑ k ∈ Finset.univ.filter (· < (⟨m, hm⟩ : Fin n)), ∑ j, |W k j| ≤
        ∑ k ∈ Finset.univ.filter (· < (⟨m, hm⟩ : Fin n)), E * (1 + B * E) ^ (k : ℕ) :=
      Finset.sum_le_sum fun k hk => ih k (Finset.mem_filter.mp hk).2 k.2
    have h2 : ∑ k ∈ Finset.univ.filter (· < (⟨m, hm⟩ : Fin n)), E * (1 + B * E) ^ (k : ℕ) = ∑ k ∈ Finset.range m, E * (1 + B * E) ^ k := by
      rw [Finset.sum_filter]
      have h3 := Fin.sum_univ_eq_sum_range (fun k => if k < m then E * (1 + B * E) ^ k else 0) n
      have h4 : ∑ k : Fin n, (if k < (⟨m, hm⟩ : Fin n) then E * (1 + B * E) ^ (k : ℕ) else 0) =
          ∑ k : Fin n, if (k : ℕ) < m then E * (1 + B * E) ^ (k : ℕ) else 0 := Finset.sum_congr rfl fun k _ => by simp [Fin.lt_def]
      rw [h4, h3, ← Finset.sum_filter]
      congr 1
      ext k
      simp only [Finset.mem_filter, Finset.mem_range]
      omega
    have h5 := geom_sum_mul (1 + B * E) m
    rw [h2, ← Finset.mul_sum] at h1
    have h6 := mul_le_mul_of_nonneg_left h1 hB
    have h7 : B * (E * ∑ k ∈ Finset.range m, (1 + B * E) ^ k) = (1 + B * E) ^ m - 1 := by rw [← h5]; ring
    linarith
  exact fun i => key i i.2

end Paragami
