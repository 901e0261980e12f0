import Verif.Spec.RoundingFree
import Verif.Proofs.Cholesky
import Verif.Proofs.RoundingMatrix64
import Mathlib.LinearAlgebra.Matrix.NonsingularInverse
import Mathlib.Algebra.Order.Chebyshev

/-! # Matrices that are positive definite by a margin -/

namespace Paragami
open NDArray Flt

theorem cholesky_exists {n : ℕ} {a : NDArray Flt} {M : ℕ → ℕ → ℝ} (hM : ∀ i < n, ∀ j ≤ i, entry n a.data i j = .fin (M i j))
    (hpd : ∀ x : ℕ → ℝ, (∃ i, i < n ∧ x i ≠ 0) →
      0 < ∑ i ∈ Finset.range n, ∑ j ∈ Finset.range n, x i * (if j ≤ i then M i j else M j i) * x j) : ∃ C, cholesky n a = .ok C := by
  have hPD : PD n fun i j => if j ≤ i then M i j else M j i := by
    refine ⟨fun i j _ _ => ?_, fun x hx => hpd x hx⟩
    rcases lt_trichotomy i j with h | rfl | h
    · simp only [if_neg (not_le.mpr h), if_pos h.le]
    · rfl
    · simp only [if_neg (not_le.mpr h), if_pos h.le]
  obtain ⟨L, h1, h2, h3⟩ := hPD.isChol
  have hex : ∃ L : ℕ → ℕ → ℝ, IsChol n (fun i j => (entry n a.data i j).toReal) L := by
    refine ⟨L, h1, h2, fun i j hi hj => ?_⟩
    rw [h3 i j hi hj]
    simp only [if_pos hj, hM i hi j hj]
    rfl
  unfold cholesky
  rw [if_pos (fun i j hi hj => by rw [hM i hi j hj]; trivial), dif_pos hex]
  exact ⟨_, rfl⟩

/-- The model of binary64 arithmetic does not raise for such matrices. -/
theorem binary64_cholSucceeds : binary64.CholSucceeds where
  succeeds n hn a M μ hM hμ hq _ := by
    have hdiag : 0 < n → 0 < M 0 0 := by
      intro h0
      have := hq fun i => if i = 0 then 1 else 0
      rw [Finset.sum_eq_single 0 (fun i _ hi => by simp [hi]) (fun h => absurd (Finset.mem_range.mpr h0) h),
        Finset.sum_eq_single 0 (fun i _ hi => by simp [hi]) (fun h => absurd (Finset.mem_range.mpr h0) h),
        Finset.sum_eq_single 0 (fun i _ hi => by simp [hi]) (fun h => absurd (Finset.mem_range.mpr h0) h)] at this
      simp only [if_true, le_refl] at this
      linarith
    have hpd : ∀ x : ℕ → ℝ, (∃ i, i < n ∧ x i ≠ 0) →
        0 < ∑ i ∈ Finset.range n, ∑ j ∈ Finset.range n, x i * (if j ≤ i then M i j else M j i) * x j := by
      rintro x ⟨i, hi, hx⟩
      refine lt_of_lt_of_le (mul_pos hμ ?_) (hq x)
      exact lt_of_lt_of_le (by positivity : 0 < x i ^ 2)
        (Finset.single_le_sum (f := fun i => x i ^ 2) (fun k _ => sq_nonneg _) (Finset.mem_range.mpr hi))
    obtain ⟨C, hC⟩ := cholesky_exists (fun i hi j hj => (hM i hi j hj).1) hpd
    refine ⟨C.map round64, ?_⟩
    change (if _ then _ else _) = _
    rw [if_neg, hC]
    · rfl
    · rintro ⟨h1, h2⟩
      rw [(hM 0 h2 0 le_rfl).1] at h1
      have := hdiag h2
      simp [Flt.le] at h1
      rcases h1 with h1 | h1 <;> linarith

/-- A matrix close to `L @ L.T`, where the inverse of `L` is not large, is positive definite by a margin. -/
theorem margin {n : ℕ} {L W : Matrix (Fin n) (Fin n) ℝ} (hW : W * L = 1) {ρ ε : ℝ} (hF : ∑ i, ∑ k, W i k ^ 2 ≤ ρ ^ 2) (hε : 0 ≤ ε)
    (hρε : 16 * n * (ρ ^ 2 * ε) ≤ 1) {N : Matrix (Fin n) (Fin n) ℝ} (hN : ∀ i j, |N i j - (L * L.transpose) i j| ≤ ε) (x : Fin n → ℝ) :
    15 * n * ε * ∑ i, x i ^ 2 ≤ ∑ i, ∑ j, x i * N i j * x j := by
  set z : Fin n → ℝ := fun k => ∑ i, L i k * x i with hz
  have h1 : ∑ i, ∑ j, x i * (L * L.transpose) i j * x j = ∑ k, z k ^ 2 := by
    have e : ∀ k, z k ^ 2 = ∑ i, ∑ j, L i k * x i * (L j k * x j) := fun k => by rw [hz, sq, Finset.sum_mul_sum]
    simp only [e]
    symm
    rw [Finset.sum_comm]
    refine Finset.sum_congr rfl fun i _ => ?_
    rw [Finset.sum_comm]
    refine Finset.sum_congr rfl fun j _ => ?_
    rw [Matrix.mul_apply, Finset.mul_sum, Finset.sum_mul]
    exact Finset.sum_congr rfl fun k _ => by rw [Matrix.transpose_apply]; ring
  have h2 : ∑ i, x i ^ 2 ≤ ρ ^ 2 * ∑ k, z k ^ 2 := by
    have hx : ∀ i, x i = ∑ k, W k i * z k := by
      intro i
      have e : L * W = 1 := mul_eq_one_comm.mp hW
      calc x i = ∑ j, (L * W) j i * x j := by
            rw [e, Finset.sum_eq_single i (fun j _ hj => by rw [Matrix.one_apply_ne hj, zero_mul]) (fun h => absurd (Finset.mem_univ _) h),
              Matrix.one_apply_eq, one_mul]
        _ = ∑ j, ∑ k, W k i * (L j k * x j) := Finset.sum_congr rfl fun j _ => by
            rw [Matrix.mul_apply, Finset.sum_mul]; exact Finset.sum_congr rfl fun k _ => by ring
        _ = ∑ k, W k i * z k := by
            rw [Finset.sum_comm]; exact Finset.sum_congr rfl fun k _ => by rw [hz, Finset.mul_sum]
    calc ∑ i, x i ^ 2 ≤ ∑ i, (∑ k, W k i ^ 2) * ∑ k, z k ^ 2 := Finset.sum_le_sum fun i _ => by
          rw [hx i]; exact Finset.sum_mul_sq_le_sq_mul_sq _ _ _
      _ = (∑ k, ∑ i, W k i ^ 2) * ∑ k, z k ^ 2 := by rw [← Finset.sum_mul, Finset.sum_comm]
      _ ≤ ρ ^ 2 * ∑ k, z k ^ 2 := mul_le_mul_of_nonneg_right hF (Finset.sum_nonneg fun _ _ => sq_nonneg _)
  have h3 : |∑ i, ∑ j, x i * (N i j - (L * L.transpose) i j) * x j| ≤ n * ε * ∑ i, x i ^ 2 := by
    have e1 : |∑ i, ∑ j, x i * (N i j - (L * L.transpose) i j) * x j| ≤ ∑ i, ∑ j, |x i| * ε * |x j| := by
      refine (Finset.abs_sum_le_sum_abs _ _).trans (Finset.sum_le_sum fun i _ => (Finset.abs_sum_le_sum_abs _ _).trans (Finset.sum_le_sum fun j _ => ?_))
      rw [abs_mul, abs_mul]
      exact mul_le_mul_of_nonneg_right (mul_le_mul_of_nonneg_left (hN i j) (abs_nonneg _)) (abs_nonneg _)
    have e2 : ∑ i, ∑ j, |x i| * ε * |x j| = ε * (∑ i, |x i|) ^ 2 := by
      rw [sq, Finset.sum_mul_sum, Finset.mul_sum]
      refine Finset.sum_congr rfl fun i _ => ?_
      rw [Finset.mul_sum]
      exact Finset.sum_congr rfl fun j _ => by ring
    have e3 : (∑ i, |x i|) ^ 2 ≤ n * ∑ i, x i ^ 2 := by
      have := sq_sum_le_card_mul_sum_sq (s := Finset.univ) (f := fun i => |x i|)
      simpa [sq_abs] using this
    rw [e2] at e1
    have := mul_le_mul_of_nonneg_left e3 hε
    linarith
  have h4 : ∑ i, ∑ j, x i * N i j * x j = ∑ k, z k ^ 2 + ∑ i, ∑ j, x i * (N i j - (L * L.transpose) i j) * x j := by
    rw [← h1, ← Finset.sum_add_distrib]
    refine Finset.sum_congr rfl fun i _ => ?_
    rw [← Finset.sum_add_distrib]
    exact Finset.sum_congr rfl fun j _ => by ring
  have hz0 : 0 ≤ ∑ k, z k ^ 2 := Finset.sum_nonneg fun _ _ => sq_nonneg _
  have h5 := mul_le_mul_of_nonneg_left h2 (by positivity : 0 ≤ 16 * n * ε)
  have h6 := mul_le_mul_of_nonneg_right hρε hz0
  have h7 := (abs_le.mp h3).1
  rw [h4]
  linarith

end Paragami
