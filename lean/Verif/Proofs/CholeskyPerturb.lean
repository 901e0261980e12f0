import Verif.Proofs.CholeskyDiff
import Verif.Proofs.FreeTrip
import Mathlib.LinearAlgebra.Matrix.Block
import Mathlib.Analysis.SpecialFunctions.Log.Deriv

/-! # How the Cholesky factor changes with the matrix -/

namespace Paragami
open Jac

/-- The factor of a matrix near the identity is near the identity. -/
theorem cholR_near_one {n : ℕ} {A : ℕ → ℕ → ℝ} {δ : ℝ} (hδ : 16 * n * δ ≤ 1) (h : ∀ i < n, ∀ j ≤ i, |A i j - if i = j then 1 else 0| ≤ δ) :
    ∀ i < n, ∀ j ≤ i, |cholR A i j - if i = j then 1 else 0| ≤ (if i = j then 5 / 4 else 2) * δ := by
  intro i
  induction i using Nat.strong_induction_on with
  | _ i ihi =>
  intro hi j
  induction j using Nat.strong_induction_on with
  | _ j ihj =>
  intro hj
  have hδ0 : 0 ≤ δ := (abs_nonneg _).trans (h i hi j hj)
  have hn : (j:ℝ) + 1 ≤ n := by exact_mod_cast (by omega : j + 1 ≤ n)
  have hn1 : (1:ℝ) ≤ n := by have : (0:ℝ) ≤ j := by positivity
                             linarith
  have hδ1 : δ ≤ 1 / 16 := by nlinarith
  have hsum : |∑ k ∈ Finset.range j, cholR A i k * cholR A j k| ≤ 1 / 4 * δ := by
    have h1 : ∀ k ∈ Finset.range j, |cholR A i k * cholR A j k| ≤ 4 * δ * δ := by
      intro k hk
      have hk := Finset.mem_range.mp hk
      have e1 := ihj k hk (by omega)
      have e2 : |cholR A j k| ≤ 2 * δ := by
        rcases hj.lt_or_eq with hji | rfl
        · have e2 := ihi j hji (by omega) k hk.le
          rwa [if_neg (by omega), if_neg (by omega), sub_zero] at e2
        · rwa [if_neg (by omega), if_neg (by omega), sub_zero] at e1
      rw [if_neg (by omega), if_neg (by omega), sub_zero] at e1
      rw [abs_mul]
      calc |cholR A i k| * |cholR A j k| ≤ (2 * δ) * (2 * δ) := mul_le_mul e1 e2 (abs_nonneg _) (by positivity)
        _ = 4 * δ * δ := by ring
    refine (Finset.abs_sum_le_sum_abs _ _).trans ((Finset.sum_le_sum h1).trans ?_)
    rw [Finset.sum_const, Finset.card_range, nsmul_eq_mul]
    have : (j:ℝ) * δ ≤ n * δ := mul_le_mul_of_nonneg_right (by linarith) hδ0
    nlinarith
  have hx := h i hi j hj
  rcases hj.lt_or_eq with hji | rfl
  · have e1 := ihi j hji (by omega) j le_rfl
    rw [if_pos rfl, if_pos rfl] at e1
    rw [if_neg (by omega), sub_zero] at hx ⊢
    rw [if_neg (by omega), cholR_lt hji, abs_div]
    have e2 : 7 / 8 ≤ cholR A j j := by have := (abs_le.mp e1).1; linarith
    rw [abs_of_pos (by linarith : 0 < cholR A j j), div_le_iff₀ (by linarith)]
    have e3 := abs_sub (A i j) (∑ k ∈ Finset.range j, cholR A i k * cholR A j k)
    nlinarith
  · rw [if_pos rfl] at hx ⊢
    rw [if_pos rfl, cholR_diag]
    set x := A j j - ∑ k ∈ Finset.range j, cholR A j k * cholR A j k with hxd
    have hx1 : |x - 1| ≤ 5 / 4 * δ := by
      have := abs_sub (A j j - 1) (∑ k ∈ Finset.range j, cholR A j k * cholR A j k)
      rw [show A j j - 1 - ∑ k ∈ Finset.range j, cholR A j k * cholR A j k = x - 1 by rw [hxd]; ring] at this
      linarith
    have hx0 : 0 ≤ x := by have := (abs_le.mp hx1).1; linarith
    refine le_trans ?_ hx1
    have hs := Real.sqrt_nonneg x
    have : x - 1 = (Real.sqrt x - 1) * (Real.sqrt x + 1) := by
      have := Real.mul_self_sqrt hx0; nlinarith
    rw [this, abs_mul, abs_of_nonneg (by linarith : 0 ≤ Real.sqrt x + 1)]
    have := abs_nonneg (Real.sqrt x - 1)
    nlinarith

theorem log_near_one {x δ : ℝ} (hδ : δ ≤ 1 / 16) (h : |x - 1| ≤ 5 / 4 * δ) : 0 < x ∧ |Real.log x| ≤ 2 * δ := by
  obtain ⟨h1, h2⟩ := abs_le.mp h
  have hx : 0 < x := by linarith
  refine ⟨hx, abs_le.mpr ⟨?_, ?_⟩⟩
  · have := Real.one_sub_inv_le_log_of_pos hx
    have h3 : x⁻¹ ≤ 1 + 2 * δ := by
      rw [inv_le_iff_one_le_mul₀ hx]
      nlinarith
    linarith
  · have := Real.log_le_sub_one_of_pos hx
    linarith

/-- A change of a matrix with factor `L` by at most `ε` changes the factor by at most `2 * ρ ** 2 * ε` relative to its rows, where `ρ` bounds the absolute row
sums of the inverse of `L`. -/
theorem chol_perturb {n : ℕ} {A' L W : Matrix (Fin n) (Fin n) ℝ} {ρ ε : ℝ} (hz : ∀ i j, i < j → L i j = 0) (hp : ∀ i, 0 < L i i) (hW : W * L = 1)
    (hρ : ∀ i, ∑ k, |W i k| ≤ ρ) (hs : A'.IsSymm) (hE : ∀ i j, |A' i j - (L * L.transpose) i j| ≤ ε) (hε : 16 * n * (ρ ^ 2 * ε) ≤ 1) :
    ∃ L' : Matrix (Fin n) (Fin n) ℝ, (∀ i j, i < j → L' i j = 0) ∧ (∀ i, 0 < L' i i) ∧ L' * L'.transpose = A' ∧
      (∀ i, |Real.log (L' i i) - Real.log (L i i)| ≤ 2 * (ρ ^ 2 * ε)) ∧
      ∀ i j, |L' i j - L i j| ≤ 2 * (ρ ^ 2 * ε) * ∑ k, |L i k| := by
  rcases Nat.eq_zero_or_pos n with rfl | hn
  · exact ⟨L, hz, hp, by ext i; exact i.elim0, fun i => i.elim0, fun i => i.elim0⟩
  have hε0 : 0 ≤ ε := (abs_nonneg _).trans (hE ⟨0, hn⟩ ⟨0, hn⟩)
  have hρ0 : 0 ≤ ρ := (Finset.sum_nonneg fun k _ => abs_nonneg (W ⟨0, hn⟩ k)).trans (hρ ⟨0, hn⟩)
  set δ := ρ ^ 2 * ε with hδ
  have hδ0 : 0 ≤ δ := by positivity
  have hδ1 : δ ≤ 1 / 16 := by
    have : (1:ℝ) ≤ n := by exact_mod_cast hn
    nlinarith
  have hW' : L * W = 1 := mul_eq_one_comm.mp hW
  set B := W * A' * W.transpose with hB
  have hBs : B.IsSymm := by
    rw [Matrix.IsSymm, hB, Matrix.transpose_mul, Matrix.transpose_mul, Matrix.transpose_transpose, hs.eq, Matrix.mul_assoc]
  have hBA : L * B * L.transpose = A' := by
    have e : W.transpose * L.transpose = 1 := by rw [← Matrix.transpose_mul, hW', Matrix.transpose_one]
    calc L * B * L.transpose = (L * W) * A' * (W.transpose * L.transpose) := by rw [hB]; simp only [Matrix.mul_assoc]
      _ = A' := by rw [hW', e, Matrix.one_mul, Matrix.mul_one]
  have hB1 : ∀ i j, |B i j - if i = j then 1 else 0| ≤ δ := by
    intro i j
    have e1 : B - 1 = W * (A' - L * L.transpose) * W.transpose := by
      have e : L.transpose * W.transpose = 1 := by rw [← Matrix.transpose_mul, hW, Matrix.transpose_one]
      rw [Matrix.mul_sub, Matrix.sub_mul, ← hB]
      congr 1
      calc (1 : Matrix (Fin n) (Fin n) ℝ) = (W * L) * (L.transpose * W.transpose) := by rw [hW, e, Matrix.one_mul]
        _ = W * (L * L.transpose) * W.transpose := by simp only [Matrix.mul_assoc]
    have e2 : B i j - (if i = j then 1 else 0) = ∑ l, (∑ k, W i k * (A' - L * L.transpose) k l) * W j l := by
      have := congrFun (congrFun e1 i) j
      rw [Matrix.sub_apply, Matrix.one_apply] at this
      rw [this]
      simp only [Matrix.mul_apply, Matrix.transpose_apply]
    rw [e2]
    have e3 : ∀ l, |∑ k, W i k * (A' - L * L.transpose) k l| ≤ ρ * ε := by
      intro l
      refine (Finset.abs_sum_le_sum_abs _ _).trans ?_
      calc ∑ k, |W i k * (A' - L * L.transpose) k l| ≤ ∑ k, |W i k| * ε := by
            refine Finset.sum_le_sum fun k _ => ?_
            rw [abs_mul]
            exact mul_le_mul_of_nonneg_left (hE k l) (abs_nonneg _)
        _ = (∑ k, |W i k|) * ε := by rw [Finset.sum_mul]
        _ ≤ ρ * ε := mul_le_mul_of_nonneg_right (hρ i) hε0
    refine (Finset.abs_sum_le_sum_abs _ _).trans ?_
    calc ∑ l, |(∑ k, W i k * (A' - L * L.transpose) k l) * W j l| ≤ ∑ l, (ρ * ε) * |W j l| := by
          refine Finset.sum_le_sum fun l _ => ?_
          rw [abs_mul]
          exact mul_le_mul_of_nonneg_right (e3 l) (abs_nonneg _)
      _ = (ρ * ε) * ∑ l, |W j l| := by rw [Finset.mul_sum]
      _ ≤ (ρ * ε) * ρ := mul_le_mul_of_nonneg_left (hρ j) (by positivity)
      _ = δ := by rw [hδ]; ring
  have hnear := cholR_near_one (A := natMat B) hε (fun i hi j hj => by
    have hj' : j < n := by omega
    have := hB1 ⟨i, hi⟩ ⟨j, hj'⟩
    simpa [natMat, hi, hj'] using this)
  have hdiag : ∀ i < n, 0 < cholR (natMat B) i i ∧ |Real.log (cholR (natMat B) i i)| ≤ 2 * δ := fun i hi => by
    have := hnear i hi i le_rfl
    rw [if_pos rfl, if_pos rfl] at this
    exact log_near_one hδ1 this
  have hC := cholR_isChol fun i hi => (hdiag i hi).1
  set R : Matrix (Fin n) (Fin n) ℝ := Matrix.of fun i j => cholR (natMat B) i j with hR
  have hRz : ∀ i j, i < j → R i j = 0 := fun i j h => cholR_gt h
  have hRR : R * R.transpose = B := by
    have hlow : ∀ i j : Fin n, j ≤ i → (R * R.transpose) i j = B i j := by
      intro i j hij
      have := hC.2.2 i j i.2 hij
      rw [Finset.sum_range] at this
      simp only [Matrix.mul_apply, Matrix.transpose_apply, hR, Matrix.of_apply, this]
      simp [natMat]
    ext i j
    rcases le_total j i with h | h
    · exact hlow i j h
    · have e1 : (R * R.transpose) i j = (R * R.transpose) j i := by
        simp only [Matrix.mul_apply, Matrix.transpose_apply, mul_comm]
      rw [e1, hlow j i h, hBs.apply]
  have hRd : ∀ i j, |R i j - if i = j then 1 else 0| ≤ 2 * δ := by
    intro i j
    rcases le_or_gt j i with h | h
    · have := hnear i i.2 j h
      simp only [← Fin.ext_iff] at this
      refine this.trans ?_
      split <;> nlinarith
    · rw [hRz i j h, if_neg h.ne]; simp [hδ0]
  have hLR : ∀ i j, (L * R) i j - L i j = ∑ k, L i k * (R k j - if k = j then 1 else 0) := by
    intro i j
    have : L i j = ∑ k, L i k * (if k = j then 1 else 0) := by simp
    conv_lhs => rw [this]
    rw [Matrix.mul_apply, ← Finset.sum_sub_distrib]
    exact Finset.sum_congr rfl fun k _ => by ring
  have hd : ∀ i, (L * R) i i = L i i * R i i := by
    intro i
    rw [Matrix.mul_apply]
    refine Finset.sum_eq_single i (fun k _ hk => ?_) (fun h => absurd (Finset.mem_univ _) h)
    rcases lt_or_gt_of_ne hk with h | h
    · rw [hRz k i h, mul_zero]
    · rw [hz i k h, zero_mul]
  refine ⟨L * R, ?_, ?_, ?_, ?_, ?_⟩
  · intro i j hij
    rw [Matrix.mul_apply]
    refine Finset.sum_eq_zero fun k _ => ?_
    rcases lt_or_ge i k with h | h
    · rw [hz i k h, zero_mul]
    · rw [hRz k j (lt_of_le_of_lt h hij), mul_zero]
  · intro i
    rw [hd]; exact mul_pos (hp i) (hdiag i i.2).1
  · rw [Matrix.transpose_mul, ← hBA, ← hRR]
    simp only [Matrix.mul_assoc]
  · intro i
    have e : Real.log (L i i * R i i) = Real.log (L i i) + Real.log (R i i) := Real.log_mul (hp i).ne' (hdiag i i.2).1.ne'
    rw [hd, e, add_sub_cancel_left]
    exact (hdiag i i.2).2
  · intro i j
    rw [hLR]
    refine (Finset.abs_sum_le_sum_abs _ _).trans ?_
    rw [Finset.mul_sum]
    refine Finset.sum_le_sum fun k _ => ?_
    rw [abs_mul, mul_comm]
    exact mul_le_mul_of_nonneg_right (hRd k j) (abs_nonneg _)

/-- A lower-triangular factor without negative diagonal entries is the factor, if there is one with positive diagonal. -/
theorem chol_unique_nonneg {n : ℕ} {L L' : Matrix (Fin n) (Fin n) ℝ} (hz : ∀ i j, i < j → L i j = 0) (h0 : ∀ i, 0 ≤ L i i)
    (hz' : ∀ i j, i < j → L' i j = 0) (hp' : ∀ i, 0 < L' i i) (h : L * L.transpose = L' * L'.transpose) : L = L' := by
  have hdet : ∀ {N : Matrix (Fin n) (Fin n) ℝ}, (∀ i j, i < j → N i j = 0) → N.det = ∏ i, N i i := fun hN =>
    Matrix.det_of_isLowerTriangular _ fun i j hij => hN i j (by simpa using hij)
  have h1 : L.det * L.det = L'.det * L'.det := by
    have := congrArg Matrix.det h
    simpa [Matrix.det_mul, Matrix.det_transpose] using this
  have h2 : L'.det ≠ 0 := by rw [hdet hz']; exact Finset.prod_ne_zero_iff.mpr fun i _ => (hp' i).ne'
  have h3 : L.det ≠ 0 := fun h0 => by rw [h0, zero_mul] at h1; exact h2 (mul_self_eq_zero.mp h1.symm)
  rw [hdet hz, Finset.prod_ne_zero_iff] at h3
  have hp : ∀ i, 0 < L i i := fun i => lt_of_le_of_ne (h0 i) (h3 i (Finset.mem_univ _)).symm
  have hC : ∀ {N : Matrix (Fin n) (Fin n) ℝ}, (∀ i j, i < j → N i j = 0) → (∀ i, 0 < N i i) → N * N.transpose = L' * L'.transpose →
      IsChol n (natMat (L' * L'.transpose)) (natMat N) := by
    intro N hz hp hs
    refine ⟨fun i j hi hj h => ?_, fun i hi => ?_, fun i j hi hj => ?_⟩
    · simp only [natMat, hi, hj, and_self, dite_true]; exact hz _ _ h
    · simp only [natMat, hi, and_self, dite_true]; exact hp _
    · have hj' : j < n := by omega
      rw [← hs]
      simp only [natMat, hi, hj', and_self, dite_true, Finset.sum_range, Matrix.mul_apply, Matrix.transpose_apply, true_and, Fin.eta, Fin.is_lt]
  ext i j
  have := isChol_unique (hC hz hp h) (hC hz' hp' rfl) i j i.2 j.2
  simpa [natMat] using this

end Paragami
