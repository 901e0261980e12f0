import Verif.Proofs.RoundingGram

/-! # `log(x) + x - x` in rounded arithmetic -/

set_option linter.unusedSimpArgs false

namespace Paragami
open NDArray Flt

namespace Arith
variable {A : Arith}

theorem machine_pos (h : A.Accurate) {x : ℝ} (hm : A.Machine (.fin x)) (hx : 0 < x) : 2 ^ (-1074 : ℤ) ≤ x := by
  have h1 := h.machine hm
  rw [rndReal] at h1
  have h2 : (2:ℝ) ^ (-1074 : ℤ) ≤ 2 ^ lastPlace x := small_zpow (le_max_right _ _)
  have h3 : (0:ℝ) < 2 ^ lastPlace x := two_zpow_pos _
  have h4 : (1:ℤ) ≤ roundEven (x / 2 ^ lastPlace x) := by
    by_contra hc
    have h5 : roundEven (x / 2 ^ lastPlace x) ≤ 0 := by omega
    have h6 : ((roundEven (x / 2 ^ lastPlace x) : ℤ) : ℝ) ≤ 0 := by exact_mod_cast h5
    have := mul_nonpos_of_nonpos_of_nonneg h6 h3.le
    linarith
  have h5 : (1:ℝ) ≤ roundEven (x / 2 ^ lastPlace x) := by exact_mod_cast h4
  calc (2:ℝ) ^ (-1074 : ℤ) ≤ 1 * 2 ^ lastPlace x := by rw [one_mul]; exact h2
    _ ≤ roundEven (x / 2 ^ lastPlace x) * 2 ^ lastPlace x := mul_le_mul_of_nonneg_right h5 h3.le
    _ = x := h1

theorem log_size {x : ℝ} (hx : 0 < x) : 1 ≤ |Real.log x| + x := by
  have h := Real.one_sub_inv_le_log_of_pos (x := x⁻¹) (by positivity)
  rw [inv_inv, Real.log_inv] at h
  have := neg_abs_le (Real.log x)
  linarith

theorem log_le_size {x : ℝ} (h1 : 2 ^ (-1074 : ℤ) ≤ x) (h2 : x ≤ 2 ^ (500 : ℤ)) : |Real.log x| ≤ 750 := by
  have hx : 0 < x := lt_of_lt_of_le (two_zpow_pos _) h1
  have h3 := Real.log_le_log (two_zpow_pos _) h1
  have h4 := Real.log_le_log hx h2
  rw [Real.log_zpow] at h3 h4
  have := Real.log_two_lt_d9
  have := Real.log_two_gt_d9
  push_cast at h3 h4
  rw [abs_le]; constructor <;> linarith

/-- The computed `log(x) + x - x`. -/
theorem logDiag_close (hs : A.Sane) (h : A.Accurate) (hL : A.LogAccurate) {x : ℝ} (hm : A.Machine (.fin x)) (hx : 0 < x) (hx' : x ≤ 2 ^ (500 : ℤ)) :
    ∃ y, A.sub (A.add (A.log (.fin x)) (.fin x)) (.fin x) = .fin y ∧ A.Machine (.fin y) ∧
      |y - Real.log x| ≤ uRound * (5 * |Real.log x| + 2 * x) := by
  have hu := uRound_pos
  have hu' : uRound ≤ 1 / 100000 := uRound_le.trans (by norm_num)
  have hx1 := machine_pos h hm hx
  have hov : x < overflow64 := lt_of_le_of_lt hx' (by
    unfold overflow64; exact zpow_lt_zpow_right₀ (by norm_num) (by norm_num))
  obtain ⟨l, h1, h2⟩ := hL.log x hx1 hov
  have hml : A.Machine (.fin l) := by rw [← h1]; exact hL.machine _
  rw [uRound_val2] at h2
  have htiny : (2:ℝ) ^ (-1074 : ℤ) ≤ uRound * (1 / 1000) := by
    have e1 : (2:ℝ) ^ (-1074 : ℤ) ≤ 2 ^ (-63 : ℤ) := small_zpow (by norm_num)
    refine e1.trans ?_
    unfold uRound; norm_num
  have hsz := log_size hx
  have hlog := log_le_size hx1 hx'
  set g := Real.log x with hg
  have hg0 := abs_nonneg g
  have h3 : |l - g| ≤ uRound * (2 * |g| + 1 / 1000 * (|g| + x)) := by nlinarith
  have h3' : |l| ≤ |g| + uRound * (2 * |g| + 1 / 1000 * (|g| + x)) := by
    have := abs_add_le (l - g) g; rw [sub_add_cancel] at this; linarith
  have h4 : |l| ≤ 101 / 100 * |g| + 1 / 100 * x := by
    have : uRound * (2 * |g| + 1 / 1000 * (|g| + x)) ≤ 1 / 100000 * (2 * |g| + 1 / 1000 * (|g| + x)) :=
      mul_le_mul_of_nonneg_right hu' (by positivity)
    linarith
  have h5 : |l + x| ≤ |l| + x := by have := abs_add_le l x; rwa [abs_of_pos hx] at this
  have big : ∀ z : ℝ, z ≤ 2 * (|g| + x) → z ≤ 2 ^ (1010 : ℤ) := by
    intro z hz
    have e1 : (2:ℝ) ^ (1010 : ℤ) = 2 ^ (500 : ℤ) * 2 ^ (510 : ℤ) := by rw [← zpow_split]; norm_num
    have e2 : (1024:ℝ) ≤ 2 ^ (500 : ℤ) := by
      calc (1024:ℝ) = 2 ^ (10 : ℤ) := by norm_num
        _ ≤ 2 ^ (500 : ℤ) := small_zpow (by norm_num)
    have e3 : (1024:ℝ) ≤ 2 ^ (510 : ℤ) := by
      calc (1024:ℝ) = 2 ^ (10 : ℤ) := by norm_num
        _ ≤ 2 ^ (510 : ℤ) := small_zpow (by norm_num)
    rw [e1]
    clear e1
    generalize (2:ℝ) ^ (500 : ℤ) = w at *
    generalize (2:ℝ) ^ (510 : ℤ) = w' at *
    nlinarith
  obtain ⟨s, h6, h7⟩ := h.add_rel hml hm (big _ (by linarith))
  have hms : A.Machine (.fin s) := by rw [← h6]; exact hs.idem _
  have h8 : |s - x - l| ≤ uRound * (|l| + x) := by
    rw [show s - x - l = s - (l + x) by ring]
    exact h7.trans (mul_le_mul_of_nonneg_left h5 hu.le)
  have h9 : |s - x| ≤ |l| + uRound * (|l| + x) := by
    have := abs_add_le l (s - x - l); rw [show l + (s - x - l) = s - x by ring] at this; linarith
  have h10 : uRound * (|l| + x) ≤ 1 / 100000 * (|l| + x) := mul_le_mul_of_nonneg_right hu' (by have := abs_nonneg l; linarith)
  obtain ⟨y, h11, h12⟩ := h.sub_rel hms hm (big _ (by linarith))
  refine ⟨y, by rw [h1, h6, h11], by rw [← h11]; exact hs.idem _, ?_⟩
  have h13 : |y - g| ≤ |y - (s - x)| + |s - x - l| + |l - g| := by
    have e1 := abs_add_le (y - (s - x)) (s - x - l)
    have e2 := abs_add_le (y - (s - x) + (s - x - l)) (l - g)
    rw [show y - (s - x) + (s - x - l) + (l - g) = y - g by ring] at e2
    linarith
  have h14 : uRound * |s - x| ≤ uRound * (103 / 100 * |g| + 2 / 100 * x) := mul_le_mul_of_nonneg_left (by linarith) hu.le
  have h15 : uRound * (|l| + x) ≤ uRound * (101 / 100 * |g| + 101 / 100 * x) := mul_le_mul_of_nonneg_left (by linarith) hu.le
  nlinarith [mul_nonneg hu.le hg0, mul_nonneg hu.le hx.le]

/-- Above `2 ** 65` the logarithm is lost. -/
theorem logDiag_lost (hs : A.Sane) (h : A.Accurate) (hL : A.LogAccurate) {x : ℝ} (hm : A.Machine (.fin x)) (hx : 2 ^ (65 : ℤ) ≤ x) (hx' : x ≤ 2 ^ (500 : ℤ)) :
    A.sub (A.add (A.log (.fin x)) (.fin x)) (.fin x) = .fin 0 := by
  have hx0 : 0 < x := lt_of_lt_of_le (two_zpow_pos _) hx
  have hx1 := machine_pos h hm hx0
  have hov : x < overflow64 := lt_of_le_of_lt hx' (by
    unfold overflow64; exact zpow_lt_zpow_right₀ (by norm_num) (by norm_num))
  obtain ⟨l, h1, h2⟩ := hL.log x hx1 hov
  have hlog := log_le_size hx1 hx'
  have hl : |l| ≤ 2 ^ ((65 : ℤ) - 55) := by
    have e1 : |l| ≤ |l - Real.log x| + |Real.log x| := by have := abs_add_le (l - Real.log x) (Real.log x); rwa [sub_add_cancel] at this
    have e2 : (2:ℝ) ^ (-1074 : ℤ) ≤ 1 := by have := small_zpow (e := -1074) (f := 0) (by norm_num); simpa using this
    have e3 : (2:ℝ) ^ (-52 : ℤ) * |Real.log x| ≤ 1 / 100 * |Real.log x| := mul_le_mul_of_nonneg_right (by norm_num) (abs_nonneg _)
    have e4 : (2:ℝ) ^ ((65 : ℤ) - 55) = 1024 := by norm_num
    rw [e4]
    clear e4 hx1 hx hx' hov
    generalize (2:ℝ) ^ (-1074 : ℤ) = t at *
    generalize (2:ℝ) ^ (-52 : ℤ) * |Real.log x| = t' at *
    linarith
  have h3 : A.add (.fin l) (.fin x) = .fin x := by
    have e1 := rndReal_absorb (d := l) (h.machine hm) (by rwa [abs_of_pos hx0]) (by norm_num) hl
    rw [Arith.add, add_fin, h.round_le, add_comm, e1]
    have e5 := abs_add_le l x
    rw [abs_of_pos hx0] at e5
    have e6 : (2:ℝ) ^ ((65 : ℤ) - 55) ≤ 2 ^ (500 : ℤ) := small_zpow (by norm_num)
    have e7 : (2:ℝ) ^ (1010 : ℤ) = 2 ^ (500 : ℤ) * 2 ^ (510 : ℤ) := by rw [← zpow_split]; norm_num
    have e8 : (2:ℝ) ≤ 2 ^ (510 : ℤ) := by
      calc (2:ℝ) = 2 ^ (1 : ℤ) := by norm_num
        _ ≤ 2 ^ (510 : ℤ) := small_zpow (by norm_num)
    have e9 := hl.trans e6
    rw [e7]
    clear e7 e6 hl
    generalize (2:ℝ) ^ (500 : ℤ) = w at *
    generalize (2:ℝ) ^ (510 : ℤ) = w' at *
    nlinarith [abs_nonneg l]
  rw [h1, h3, Arith.sub, sub_fin, sub_self]
  exact hs.zero

/-- Back through the exponential. -/
theorem logDiag_exp {x y : ℝ} (hx : 0 < x) (hx' : x ≤ 2 ^ (41 : ℕ)) (hy : |y| ≤ 600)
    (h : |y - Real.log x| ≤ uRound * (5 * |Real.log x| + 2 * x)) :
    x ≤ 101 / 100 * Real.exp y ∧ Real.exp y ≤ 2 * x ∧ |Real.exp y - x| ≤ 7 * uRound * (Real.exp y * (Real.exp y + |y|)) := by
  have hu := uRound_pos
  have hu' : uRound ≤ 1 / 2 ^ 50 := uRound_le
  have hu2 : uRound ≤ 1 / 100000 := uRound_le.trans (by norm_num)
  set g := Real.log x with hg
  have hg0 := abs_nonneg g
  have e1 : |g| ≤ |y| + |y - g| := by
    have := abs_add_le y (g - y); rw [add_sub_cancel, abs_sub_comm g y] at this; linarith
  have e2 : uRound * (5 * |g|) ≤ 1 / 100000 * (5 * |g|) := mul_le_mul_of_nonneg_right hu2 (by positivity)
  have e3 : uRound * x ≤ 1 / 2 ^ 50 * 2 ^ 41 := mul_le_mul hu' hx' hx.le (by norm_num)
  have e4 : |g| ≤ 101 / 100 * |y| + 1 / 100 := by norm_num at e3; linarith
  have e5 : uRound * |g| ≤ 1 / 2 ^ 50 * 610 := mul_le_mul hu' (by linarith) hg0 (by norm_num)
  have hδ : |y - g| ≤ 1 / 100 := by norm_num at e3 e5; linarith
  have hxe : x = Real.exp y * Real.exp (g - y) := by rw [← Real.exp_add, add_sub_cancel, hg, Real.exp_log hx]
  have hE := Real.exp_pos y
  have hδ' : |g - y| ≤ 1 / 100 := by rwa [abs_sub_comm]
  have e6 : |Real.exp (g - y) - 1| ≤ 101 / 100 * |g - y| := by
    have h1 := Real.abs_exp_sub_one_sub_id_le (x := g - y) (by linarith)
    have h2 : |Real.exp (g - y) - 1| ≤ |Real.exp (g - y) - 1 - (g - y)| + |g - y| := by
      have := abs_add_le (Real.exp (g - y) - 1 - (g - y)) (g - y); rwa [sub_add_cancel] at this
    have h3 : (g - y) ^ 2 ≤ 1 / 100 * |g - y| := by
      rw [← sq_abs, sq]; exact mul_le_mul_of_nonneg_right hδ' (abs_nonneg _)
    linarith
  have e7 : x ≤ 102 / 100 * Real.exp y := by
    rw [hxe]
    have := (abs_le.mp e6).2
    nlinarith
  have e7' : |Real.exp y - x| ≤ 101 / 100 * |y - g| * Real.exp y := by
    have : Real.exp y - x = -(Real.exp y * (Real.exp (g - y) - 1)) := by rw [hxe]; ring
    rw [this, abs_neg, abs_mul, abs_of_pos hE, abs_sub_comm y g]
    nlinarith
  have hd0 := abs_nonneg (y - g)
  have hy0 := abs_nonneg y
  -- the bound in terms of `y`
  have e8 : |y - g| ≤ uRound * (51 / 10 * |y| + 21 / 10 * Real.exp y) + uRound * (6 * |y - g|) := by
    have : uRound * (5 * |g| + 2 * x) ≤ uRound * (5 * (|y| + |y - g|) + 2 * (102 / 100 * Real.exp y)) :=
      mul_le_mul_of_nonneg_left (by linarith) hu.le
    nlinarith [mul_nonneg hu.le hy0, mul_nonneg hu.le hE.le, mul_nonneg hu.le hd0]
  have e9 : |y - g| ≤ uRound * (6 * |y| + 3 * Real.exp y) := by
    have : uRound * (6 * |y - g|) ≤ 1 / 100000 * (6 * |y - g|) := mul_le_mul_of_nonneg_right hu2 (by positivity)
    nlinarith [mul_nonneg hu.le hy0, mul_nonneg hu.le hE.le]
  have e10 : |y - g| ≤ 1 / 200 := by norm_num at e3 e5; linarith
  have e11 : 101 / 100 * |y - g| * Real.exp y ≤ 1 / 100 * Real.exp y := mul_le_mul_of_nonneg_right (by linarith) hE.le
  have e12 := abs_le.mp (e7'.trans e11)
  refine ⟨by linarith, by linarith, ?_⟩
  · refine e7'.trans ?_
    have : 101 / 100 * |y - g| ≤ 7 * uRound * (Real.exp y + |y|) := by
      nlinarith [mul_nonneg hu.le hy0, mul_nonneg hu.le hE.le]
    calc 101 / 100 * |y - g| * Real.exp y ≤ 7 * uRound * (Real.exp y + |y|) * Real.exp y := mul_le_mul_of_nonneg_right this hE.le
      _ = _ := by ring

end Arith
end Paragami
