import Verif.Spec.RoundingMatrix
import Verif.Proofs.RoundingTrip
import Verif.Proofs.RoundingMatrix

/-! # Matrices in rounded arithmetic, entry by entry -/

set_option linter.unusedSimpArgs false

namespace Paragami
open NDArray Flt

namespace Arith
variable {A : Arith}

/-- `exp(d) + d - d`. -/
theorem expDiag_near (hs : A.Sane) (h : A.Accurate) {d : ℝ} (hm : A.Machine (.fin d)) (hd : |d| ≤ 690) :
    ∃ z, A.sub (A.add (A.exp (.fin d)) (.fin d)) (.fin d) = .fin z ∧ A.Machine (.fin z) ∧
      |z - Real.exp d| ≤ 7 * uRound * (Real.exp d + |d|) := by
  obtain ⟨e, h1, h2, h3, h4, h5⟩ := exp_bound h hs hd
  have hd' : |d| ≤ 2 ^ (1001 : ℤ) := hd.trans (by
    calc (690:ℝ) ≤ 2 ^ (10 : ℤ) := by norm_num
      _ ≤ 2 ^ (1001 : ℤ) := small_zpow (by norm_num))
  have hb1 : |e + d| ≤ 2 ^ (1002 : ℤ) := by
    rw [show (1002 : ℤ) = 1001 + 1 by norm_num, zpow_split]
    have := abs_add_le e d
    generalize (2:ℝ) ^ (1001 : ℤ) = w at *
    norm_num; linarith
  obtain ⟨s, h6, h7⟩ := h.add_rel h2 hm (up_zpow hb1 (by norm_num))
  have hu := uRound_pos
  have hu' : uRound ≤ 1 / 100000 := uRound_le.trans (by norm_num)
  have hms : A.Machine (.fin s) := by rw [← h6]; exact hs.idem _
  have hsd : |s - d - e| ≤ uRound * |e + d| := by rw [show s - d - e = s - (e + d) by ring]; exact h7
  have hb2 : |s - d| ≤ 2 ^ (1010 : ℤ) := by
    have e1 : |s - d| ≤ |e| + |s - d - e| := by
      have := abs_add_le e (s - d - e); rwa [show e + (s - d - e) = s - d by ring] at this
    have e2 : uRound * |e + d| ≤ 1 * |e + d| := mul_le_mul_of_nonneg_right (by linarith) (abs_nonneg _)
    have e3 : (2:ℝ) ^ (1010 : ℤ) = 2 ^ (1002 : ℤ) * 256 := by rw [show (1010 : ℤ) = 1002 + 8 by norm_num, zpow_split]; norm_num
    have e4 : (2:ℝ) ^ (1001 : ℤ) ≤ 2 ^ (1002 : ℤ) := small_zpow (by norm_num)
    have e5 : (0:ℝ) < 2 ^ (1002 : ℤ) := two_zpow_pos _
    rw [e3]
    clear e3
    generalize (2:ℝ) ^ (1002 : ℤ) = w at *
    generalize (2:ℝ) ^ (1001 : ℤ) = w' at *
    linarith
  obtain ⟨z, h8, h9⟩ := h.sub_rel hms hm hb2
  refine ⟨z, by rw [h1, h6, h8], by rw [← h8]; exact hs.idem _, ?_⟩
  have hE := Real.exp_pos d
  have e0 : |e + d| ≤ e + |d| := by have := abs_add_le e d; rwa [abs_of_nonneg h3] at this
  have e1 : |s - d| ≤ e + uRound * (e + |d|) := by
    have := abs_add_le e (s - d - e)
    rw [show e + (s - d - e) = s - d by ring, abs_of_nonneg h3] at this
    have e2 : uRound * |e + d| ≤ uRound * (e + |d|) := mul_le_mul_of_nonneg_left e0 hu.le
    linarith
  have e2 : |z - e| ≤ uRound * (e + uRound * (e + |d|)) + uRound * (e + |d|) := by
    have := abs_add_le (z - (s - d)) (s - d - e)
    rw [show z - (s - d) + (s - d - e) = z - e by ring] at this
    have e3 : uRound * |s - d| ≤ uRound * (e + uRound * (e + |d|)) := mul_le_mul_of_nonneg_left e1 hu.le
    have e4 : uRound * |e + d| ≤ uRound * (e + |d|) := mul_le_mul_of_nonneg_left e0 hu.le
    linarith
  have he : e ≤ 1001 / 1000 * Real.exp d := by
    have := (abs_le.mp h4).2; nlinarith
  have e3 : |z - Real.exp d| ≤ |z - e| + |e - Real.exp d| := by
    have := abs_add_le (z - e) (e - Real.exp d); rwa [show z - e + (e - Real.exp d) = z - Real.exp d by ring] at this
  have hd0 := abs_nonneg d
  have e5 : uRound * (e + |d|) ≤ 1 / 100000 * (e + |d|) := mul_le_mul_of_nonneg_right hu' (by linarith)
  have e6 : uRound * (e + uRound * (e + |d|)) + uRound * (e + |d|) ≤ uRound * (5 / 2 * Real.exp d + 2 * |d|) := by
    rw [← mul_add]; apply mul_le_mul_of_nonneg_left _ hu.le; linarith
  nlinarith [mul_nonneg hu.le hd0, mul_pos hu hE]

theorem sum_bound {n : ℕ} {f g : ℕ → ℝ} (h : ∀ k < n, f k ≤ g k) : ∑ k ∈ Finset.range n, f k ≤ ∑ k ∈ Finset.range n, g k :=
  Finset.sum_le_sum fun k hk => h k (Finset.mem_range.mp hk)

/-- One computed entry of `C @ C.T` against the exact product of rows close to the computed ones. -/
theorem gram_near (hD : A.DotAccurate) {n : ℕ} (hn : n ≤ 2 ^ 20) {f g l m b c : ℕ → ℝ}
    (hf : ∀ k < n, A.Machine (.fin (f k)) ∧ |f k - l k| ≤ 7 * uRound * b k ∧ |l k| ≤ 101 / 100 * b k)
    (hg : ∀ k < n, A.Machine (.fin (g k)) ∧ |g k - m k| ≤ 7 * uRound * c k ∧ |m k| ≤ 101 / 100 * c k)
    (hS : ∑ k ∈ Finset.range n, b k * c k ≤ 2 ^ (990 : ℤ)) :
    ∃ v, A.dot ((List.range n).map fun k => (.fin (f k), .fin (g k))) = .fin v ∧ A.Machine (.fin v) ∧
      |v - ∑ k ∈ Finset.range n, l k * m k| ≤ uRound * (3 * n + 16) * ∑ k ∈ Finset.range n, b k * c k + n * 2 ^ (-1074 : ℤ) := by
  have hu := uRound_pos
  have hu' : uRound ≤ 1 / 100000 := uRound_le.trans (by norm_num)
  have hb : ∀ k < n, 0 ≤ b k := fun k hk => by have := (abs_nonneg _).trans (hf k hk).2.2; linarith
  have hc : ∀ k < n, 0 ≤ c k := fun k hk => by have := (abs_nonneg _).trans (hg k hk).2.2; linarith
  have hf' : ∀ k < n, |f k| ≤ 102 / 100 * b k := fun k hk => by
    have e1 : |f k| ≤ |f k - l k| + |l k| := by have := abs_add_le (f k - l k) (l k); rwa [sub_add_cancel] at this
    obtain ⟨_, h1, h2⟩ := hf k hk
    linarith [mul_le_mul_of_nonneg_right hu' (hb k hk), hb k hk]
  have hg' : ∀ k < n, |g k| ≤ 102 / 100 * c k := fun k hk => by
    have e1 : |g k| ≤ |g k - m k| + |m k| := by have := abs_add_le (g k - m k) (m k); rwa [sub_add_cancel] at this
    obtain ⟨_, h1, h2⟩ := hg k hk
    linarith [mul_le_mul_of_nonneg_right hu' (hc k hk), hc k hk]
  set S := ∑ k ∈ Finset.range n, b k * c k with hSdef
  have hS0 : 0 ≤ S := Finset.sum_nonneg fun k hk => mul_nonneg (hb k (Finset.mem_range.mp hk)) (hc k (Finset.mem_range.mp hk))
  have habs : ∑ k ∈ Finset.range n, |f k| * |g k| ≤ 11 / 10 * S := by
    rw [hSdef, Finset.mul_sum]
    refine sum_bound fun k hk => ?_
    calc |f k| * |g k| ≤ (102 / 100 * b k) * (102 / 100 * c k) :=
          mul_le_mul (hf' k hk) (hg' k hk) (abs_nonneg _) (by have := hb k hk; linarith)
      _ ≤ 11 / 10 * (b k * c k) := by nlinarith [mul_nonneg (hb k hk) (hc k hk)]
  have hdiff : |∑ k ∈ Finset.range n, f k * g k - ∑ k ∈ Finset.range n, l k * m k| ≤ 15 * uRound * S := by
    rw [← Finset.sum_sub_distrib]
    refine (Finset.abs_sum_le_sum_abs _ _).trans ?_
    rw [hSdef, Finset.mul_sum]
    refine sum_bound fun k hk => ?_
    have e1 : f k * g k - l k * m k = (f k - l k) * g k + l k * (g k - m k) := by ring
    have h1 : |(f k - l k) * g k| ≤ (7 * uRound * b k) * (102 / 100 * c k) := by
      rw [abs_mul]
      exact mul_le_mul (hf k hk).2.1 (hg' k hk) (abs_nonneg _) (mul_nonneg (by linarith) (hb k hk))
    have h2 : |l k * (g k - m k)| ≤ (101 / 100 * b k) * (7 * uRound * c k) := by
      rw [abs_mul]
      exact mul_le_mul (hf k hk).2.2 (hg k hk).2.1 (abs_nonneg _) (by have := hb k hk; linarith)
    rw [e1]
    refine (abs_add_le _ _).trans ?_
    nlinarith [mul_nonneg hu.le (mul_nonneg (hb k hk) (hc k hk))]
  obtain ⟨v, h1, h2, h3⟩ := hD.dot ((List.range n).map fun k => (f k, g k)) (by simpa using hn) (by
      intro p hp
      obtain ⟨k, hk, rfl⟩ := List.mem_map.mp hp
      have hk := List.mem_range.mp hk
      exact ⟨(hf k hk).1, (hg k hk).1⟩) (by
      rw [List.map_map, sum_map_range]
      refine habs.trans ?_
      have e3 : (2:ℝ) ^ (1000 : ℤ) = 2 ^ (990 : ℤ) * 1024 := by rw [show (1000 : ℤ) = 990 + 10 by norm_num, zpow_split]; norm_num
      have e5 : (0:ℝ) < 2 ^ (990 : ℤ) := two_zpow_pos _
      rw [e3]
      clear e3
      generalize (2:ℝ) ^ (990 : ℤ) = w at *
      linarith)
  rw [List.map_map] at h1
  rw [List.map_map, List.map_map, sum_map_range, sum_map_range, List.length_map, List.length_range, uRound_val2] at h3
  refine ⟨v, h1, h2, ?_⟩
  have h4 : |v - ∑ k ∈ Finset.range n, l k * m k| ≤ |v - ∑ k ∈ Finset.range n, f k * g k| +
      |∑ k ∈ Finset.range n, f k * g k - ∑ k ∈ Finset.range n, l k * m k| := abs_sub_le _ _ _
  have h5 : (n:ℝ) * (2 * uRound) * ∑ k ∈ Finset.range n, |f k| * |g k| ≤ n * (2 * uRound) * (11 / 10 * S) :=
    mul_le_mul_of_nonneg_left habs (by positivity)
  have h6 : (0:ℝ) ≤ n * uRound * S := by positivity
  have h7 : (0:ℝ) ≤ uRound * S := by positivity
  replace h3 : |v - ∑ k ∈ Finset.range n, f k * g k| ≤ n * (2 * uRound) * ∑ k ∈ Finset.range n, |f k| * |g k| + n * 2 ^ (-1074 : ℤ) := h3
  nlinarith

end Arith
end Paragami
