import Verif.Model.RoundingJacobian
import Verif.Proofs.RoundingSoftmax
import Verif.Proofs.RoundingMatrix64
import Verif.Spec.RoundingJacobian

/-! # Derivatives in rounded arithmetic -/

set_option linter.unusedSimpArgs false

namespace Paragami
open NDArray Flt

namespace Arith
variable {A : Arith}

theorem rnd_machine (hs : A.Sane) {x z : ℝ} (h : A.round (.fin x) = .fin z) : A.Machine (.fin z) := by
  have := hs.idem x
  rwa [show A.rnd x = .fin z from h] at this

/-- The reciprocal of a slightly wrong distance. -/
theorem inv_near (hs : A.Sane) (h : A.Accurate) {d d' : ℝ} (h1 : 2 ^ (-1001 : ℤ) ≤ d) (h2 : d ≤ 2 ^ (1001 : ℤ)) (hd : |d' - d| ≤ uRound * d) :
    ∃ z, A.div 1 (.fin d') = .fin z ∧ A.Machine (.fin z) ∧ |z - 1 / d| ≤ 5 * uRound * (1 / d) := by
  have hd0 : 0 < d := lt_of_lt_of_le (two_zpow_pos _) h1
  have hu := uRound_pos
  have hu' : uRound ≤ 1 / 100000 := uRound_le.trans (by norm_num)
  have hd' := abs_le.mp hd
  have hd1 : d / 2 ≤ d' := by nlinarith
  have hd2 : d' ≤ 2 * d := by nlinarith
  have hd0' : 0 < d' := by linarith
  have hq := quotient_near (a := 1) (a' := 1) (b' := d') (c := 1) one_pos hd0 (by norm_num) (by norm_num)
    (by rw [sub_self, abs_zero]; positivity) (by rwa [one_mul])
  have hpos : 0 < 1 / d' := by positivity
  have hlo : 2 ^ (-1022 : ℤ) ≤ |1 / d'| := by
    rw [abs_of_pos hpos, le_div_iff₀ hd0']
    have e : (2:ℝ) ^ (-1022 : ℤ) * 2 ^ (1002 : ℤ) = 2 ^ (-20 : ℤ) := by rw [← zpow_split]; norm_num
    have e1 : d' ≤ 2 ^ (1002 : ℤ) := double_zpow (e := 1001) h2 hd2
    have := mul_le_mul_of_nonneg_left e1 (two_zpow_pos (-1022)).le
    rw [e] at this
    exact this.trans (by norm_num)
  have hhi : |1 / d'| ≤ 2 ^ (1010 : ℤ) := by
    rw [abs_of_pos hpos, div_le_iff₀ hd0']
    have e1 : 2 ^ (-1002 : ℤ) ≤ d' := halve_zpow (e := -1002) (by simpa using h1) (by linarith)
    have e : (2:ℝ) ^ (1010 : ℤ) * 2 ^ (-1002 : ℤ) = 2 ^ (8 : ℤ) := by rw [← zpow_split]; norm_num
    have := mul_le_mul_of_nonneg_left e1 (two_zpow_pos 1010).le
    rw [e] at this
    exact le_trans (by norm_num) this
  obtain ⟨z, hz1, hz2⟩ := h.round_rel hlo hhi
  rw [abs_of_pos hpos] at hz2
  refine ⟨z, ?_, rnd_machine hs hz1, ?_⟩
  · rw [one_flt, Arith.div, div_fin _ _ hd0'.ne', hz1]
  · have := near_trans (w := z) (s := 1 / d') (t := 1 / d) (c := 1) (d := 3) (by positivity) (by norm_num) (by norm_num) (by norm_num) (by norm_num)
      (by rwa [one_mul]) (by rwa [show (2 * 1 + 1 : ℝ) = 3 by norm_num] at hq)
    rwa [show (1 + 3 + 1 : ℝ) = 5 by norm_num] at this

theorem inv_size {d z : ℝ} (hd0 : 0 < d) (h1 : 2 ^ (-1001 : ℤ) ≤ d) (hz : |z - 1 / d| ≤ 5 * uRound * (1 / d)) :
    0 < z ∧ z ≤ 2 ^ (1002 : ℤ) := by
  have hu := uRound_pos
  have hu' : uRound ≤ 1 / 100000 := uRound_le.trans (by norm_num)
  have hi : 0 < 1 / d := by positivity
  have hi' : 1 / d ≤ 2 ^ (1001 : ℤ) := by
    rw [div_le_iff₀ hd0]
    have := mul_le_mul_of_nonneg_left h1 (two_zpow_pos 1001).le
    rwa [← zpow_split, show (1001 + -1001 : ℤ) = 0 by norm_num, zpow_zero] at this
  have hz' := abs_le.mp hz
  have h5 : 5 * uRound * (1 / d) ≤ 1 / 2 * (1 / d) := mul_le_mul_of_nonneg_right (by linarith) hi.le
  refine ⟨by linarith, double_zpow (e := 1001) hi' (by linarith)⟩

theorem lower_freeJac (hs : A.Sane) (h : A.Accurate) {a v : ℝ} (ha : A.Machine (.fin a)) (hv : A.Machine (.fin v))
    (ha' : |a| ≤ 2 ^ (1000 : ℤ)) (hv' : |v| ≤ 2 ^ (1000 : ℤ)) (hd : 2 ^ (-1000 : ℤ) ≤ v - a) :
    ∃ z, unconstrainJac1A A (.fin a) .pinf (.fin v) = .fin z ∧ unconstrainJac1 (.fin a) .pinf (.fin v) = .fin (1 / (v - a)) ∧
      |z - 1 / (v - a)| ≤ 5 * uRound * (1 / (v - a)) := by
  have hd0 : 0 < v - a := lt_of_lt_of_le (two_zpow_pos _) hd
  have hsz := size_sub ha' hv'
  rw [abs_of_pos hd0] at hsz
  obtain ⟨d', hd1, hd2⟩ := h.sub_rel hv ha (by rw [abs_of_pos hd0]; exact up_zpow hsz (by norm_num))
  rw [abs_of_pos hd0] at hd2
  obtain ⟨z, hz1, _, hz2⟩ := inv_near hs h (dn_zpow hd (by norm_num)) hsz hd2
  refine ⟨z, ?_, ?_, hz2⟩
  · simp only [unconstrainJac1A, Flt.eq, if_true, hd1, hz1, Bool.false_eq_true, if_false]
  · simp only [unconstrainJac1, Flt.eq, if_true, Bool.false_eq_true, if_false, sub_fin, one_flt, div_fin _ _ hd0.ne']

theorem upper_freeJac (hs : A.Sane) (h : A.Accurate) {b v : ℝ} (hb : A.Machine (.fin b)) (hv : A.Machine (.fin v))
    (hb' : |b| ≤ 2 ^ (1000 : ℤ)) (hv' : |v| ≤ 2 ^ (1000 : ℤ)) (hd : 2 ^ (-1000 : ℤ) ≤ b - v) :
    ∃ z, unconstrainJac1A A .ninf (.fin b) (.fin v) = .fin z ∧ unconstrainJac1 .ninf (.fin b) (.fin v) = .fin (1 / (b - v)) ∧
      |z - 1 / (b - v)| ≤ 5 * uRound * (1 / (b - v)) := by
  have hd0 : 0 < b - v := lt_of_lt_of_le (two_zpow_pos _) hd
  have hsz := size_sub hv' hb'
  rw [abs_of_pos hd0] at hsz
  obtain ⟨d', hd1, hd2⟩ := h.sub_rel hb hv (by rw [abs_of_pos hd0]; exact up_zpow hsz (by norm_num))
  rw [abs_of_pos hd0] at hd2
  obtain ⟨z, hz1, _, hz2⟩ := inv_near hs h (dn_zpow hd (by norm_num)) hsz hd2
  refine ⟨z, ?_, ?_, hz2⟩
  · simp only [unconstrainJac1A, Flt.eq, if_true, hd1, hz1, Bool.false_eq_true, if_false]
  · simp only [unconstrainJac1, Flt.eq, if_true, Bool.false_eq_true, if_false, sub_fin, one_flt, div_fin _ _ hd0.ne']

theorem two_sided_freeJac (hs : A.Sane) (h : A.Accurate) {a b v : ℝ} (ha : A.Machine (.fin a)) (hb : A.Machine (.fin b)) (hv : A.Machine (.fin v))
    (ha' : |a| ≤ 2 ^ (1000 : ℤ)) (hb' : |b| ≤ 2 ^ (1000 : ℤ)) (hv' : |v| ≤ 2 ^ (1000 : ℤ)) (hp : 2 ^ (-1000 : ℤ) ≤ v - a)
    (hq : 2 ^ (-1000 : ℤ) ≤ b - v) :
    ∃ z, unconstrainJac1A A (.fin a) (.fin b) (.fin v) = .fin z ∧
      unconstrainJac1 (.fin a) (.fin b) (.fin v) = .fin (1 / (v - a) + 1 / (b - v)) ∧
      |z - (1 / (v - a) + 1 / (b - v))| ≤ 7 * uRound * (1 / (v - a) + 1 / (b - v)) := by
  have hp0 : 0 < v - a := lt_of_lt_of_le (two_zpow_pos _) hp
  have hq0 : 0 < b - v := lt_of_lt_of_le (two_zpow_pos _) hq
  have hps := size_sub ha' hv'
  have hqs := size_sub hv' hb'
  rw [abs_of_pos hp0] at hps
  rw [abs_of_pos hq0] at hqs
  obtain ⟨p', hp1, hp2⟩ := h.sub_rel hv ha (by rw [abs_of_pos hp0]; exact up_zpow hps (by norm_num))
  obtain ⟨q', hq1, hq2⟩ := h.sub_rel hb hv (by rw [abs_of_pos hq0]; exact up_zpow hqs (by norm_num))
  rw [abs_of_pos hp0] at hp2
  rw [abs_of_pos hq0] at hq2
  obtain ⟨x, hx1, hxm, hx2⟩ := inv_near hs h (dn_zpow hp (by norm_num)) hps hp2
  obtain ⟨y, hy1, hym, hy2⟩ := inv_near hs h (dn_zpow hq (by norm_num)) hqs hq2
  obtain ⟨hx0, hxs⟩ := inv_size hp0 (dn_zpow hp (by norm_num)) hx2
  obtain ⟨hy0, hys⟩ := inv_size hq0 (dn_zpow hq (by norm_num)) hy2
  obtain ⟨z, hz1, hz2⟩ := h.add_rel hxm hym (by
    rw [abs_of_pos (add_pos hx0 hy0)]
    have e : (2:ℝ) ^ (1003 : ℤ) = 2 ^ (1002 : ℤ) + 2 ^ (1002 : ℤ) := by
      rw [show (1003 : ℤ) = 1002 + 1 by norm_num, zpow_split, zpow_one]; ring
    have h2 : x + y ≤ 2 ^ (1003 : ℤ) := by rw [e]; exact add_le_add hxs hys
    exact up_zpow h2 (by norm_num))
  rw [abs_of_pos (a := x + y) (add_pos hx0 hy0)] at hz2
  refine ⟨z, ?_, ?_, ?_⟩
  · simp only [unconstrainJac1A, Flt.eq, hp1, hq1, hx1, hy1, hz1, Bool.false_eq_true, if_false]
  · simp only [unconstrainJac1, Flt.eq, if_true, Bool.false_eq_true, if_false, sub_fin, one_flt, div_fin _ _ hp0.ne', div_fin _ _ hq0.ne', add_fin]
  · have h3 : |x + y - (1 / (v - a) + 1 / (b - v))| ≤ 5 * uRound * (1 / (v - a) + 1 / (b - v)) := by
      rw [show x + y - (1 / (v - a) + 1 / (b - v)) = (x - 1 / (v - a)) + (y - 1 / (b - v)) by ring]
      refine (abs_add_le _ _).trans ?_
      rw [mul_add]
      exact add_le_add hx2 hy2
    have := near_trans (w := z) (s := x + y) (c := 1) (d := 5) (by positivity) (by norm_num) (by norm_num) (by norm_num) (by norm_num)
      (by rwa [one_mul]) h3
    rwa [show (1 + 5 + 1 : ℝ) = 7 by norm_num] at this

/-! ### Derivatives of folding -/

theorem lower_unfreeJac (h : A.Accurate) (hL : A.LogAccurate) {a v : ℝ} (ha : A.Machine (.fin a)) (hv : A.Machine (.fin v))
    (ha' : |a| ≤ 2 ^ (1000 : ℤ)) (hv' : |v| ≤ 2 ^ (1000 : ℤ)) (hd : 2 ^ (-1000 : ℤ) ≤ v - a) :
    ∃ z, constrainJac1A A (.fin a) .pinf (unconstrain1A A (.fin a) .pinf (.fin v)) = .fin z ∧
      constrainJac1 (.fin a) .pinf (unconstrain1 (.fin a) .pinf (.fin v)) = .fin (v - a) ∧
      |z - (v - a)| ≤ (2 * |Real.log (v - a)| + 7) * uRound * (v - a) := by
  have hd0 : 0 < v - a := lt_of_lt_of_le (two_zpow_pos _) hd
  have hsz := size_sub ha' hv'
  rw [abs_of_pos hd0] at hsz
  obtain ⟨d', hd1, hd2⟩ := h.sub_rel hv ha (by rw [abs_of_pos hd0]; exact up_zpow hsz (by norm_num))
  rw [abs_of_pos hd0] at hd2
  obtain ⟨y, e, hy, _, he, hed⟩ := exp_log_near h hL (dn_zpow hd (by norm_num)) (up_zpow hsz (by norm_num)) hd2
  refine ⟨e, ?_, ?_, hed⟩
  · simp only [unconstrain1A, constrainJac1A, Flt.eq, if_true, hd1, hy, he, Bool.false_eq_true, if_false]
  · simp only [unconstrain1, constrainJac1, Flt.eq, if_true, Bool.false_eq_true, if_false, sub_fin, log_fin hd0, exp_fin, Real.exp_log hd0]

theorem upper_unfreeJac (hs : A.Sane) (h : A.Accurate) (hL : A.LogAccurate) {b v : ℝ} (hb : A.Machine (.fin b)) (hv : A.Machine (.fin v))
    (hb' : |b| ≤ 2 ^ (1000 : ℤ)) (hv' : |v| ≤ 2 ^ (1000 : ℤ)) (hd : 2 ^ (-1000 : ℤ) ≤ b - v) :
    ∃ z, constrainJac1A A .ninf (.fin b) (unconstrain1A A .ninf (.fin b) (.fin v)) = .fin z ∧
      constrainJac1 .ninf (.fin b) (unconstrain1 .ninf (.fin b) (.fin v)) = .fin (b - v) ∧
      |z - (b - v)| ≤ (2 * |Real.log (b - v)| + 7) * uRound * (b - v) := by
  have hd0 : 0 < b - v := lt_of_lt_of_le (two_zpow_pos _) hd
  have hsz := size_sub hv' hb'
  rw [abs_of_pos hd0] at hsz
  obtain ⟨d', hd1, hd2⟩ := h.sub_rel hb hv (by rw [abs_of_pos hd0]; exact up_zpow hsz (by norm_num))
  rw [abs_of_pos hd0] at hd2
  obtain ⟨y, e, hy, hym, he, hed⟩ := exp_log_near h hL (dn_zpow hd (by norm_num)) (up_zpow hsz (by norm_num)) hd2
  have h1 := neg_one_mul_machine hs hym
  have h2 := neg_one_mul_machine hs (hs.neg y hym)
  rw [neg_neg] at h2
  refine ⟨e, ?_, ?_, hed⟩
  · simp only [unconstrain1A, constrainJac1A, Flt.eq, if_true, hd1, hy, h1, h2, he, Bool.false_eq_true, if_false]
  · simp only [unconstrain1, constrainJac1, Flt.eq, if_true, Bool.false_eq_true, if_false, sub_fin, log_fin hd0, mul_fin, exp_fin]
    rw [show -1 * (-1 * Real.log (b - v)) = Real.log (b - v) by ring, Real.exp_log hd0]

/-- The error of the product of three approximate factors, when the last is one minus the first. -/
theorem jac_core {u K W W' P ρ σ r s m J : ℝ} (hu : 0 < u) (hu' : u ≤ 1 / 100000) (hK0 : 0 ≤ K) (hK : K ≤ 1 / 100000) (hKK : K * K ≤ u / 100)
    (hW : 0 < W) (hρ : 0 < ρ) (hσ : 0 < σ) (hsum : ρ + σ = 1) (hP : P = W * ρ) (hr : |r - ρ| ≤ K * ρ * σ + 6 * u * ρ)
    (hs : |s - (1 - r)| ≤ u * |1 - r|) (hW' : |W' - W| ≤ u * W) (hm : |m - W' * r| ≤ u * (W' * r)) (hJ : |J - m * s| ≤ u * |m * s| + u * P) :
    |J - P * σ| ≤ (2 * K + 18 * u) * (P * σ) + 10 * u * P := by
  have hρ1 : ρ ≤ 1 := by linarith
  have hσ1 : σ ≤ 1 := by linarith
  have hP0 : 0 < P := hP ▸ mul_pos hW hρ
  have hρσ : ρ * σ ≤ σ := mul_le_of_le_one_left hσ.le hρ1
  have hρσ0 : 0 < ρ * σ := mul_pos hρ hσ
  have hKσ0 : 0 ≤ K * σ := mul_nonneg hK0 hσ.le
  have huρ0 : 0 < u * ρ := mul_pos hu hρ
  have huσ0 : 0 < u * σ := mul_pos hu hσ
  have hKρσ : K * ρ * σ ≤ K * σ := by
    rw [mul_assoc]; exact mul_le_mul_of_nonneg_left hρσ hK0
  have huρσ : u * ρ ≤ u := mul_le_of_le_one_right hu.le hρ1
  have hKσ1 : K * σ ≤ K := mul_le_of_le_one_right hK0 hσ1
  -- one minus the ratio
  have h1 : |1 - r - σ| ≤ K * σ + 6 * u * ρ := by
    rw [show 1 - r - σ = -(r - ρ) by linarith, abs_neg]; linarith
  have h2 : |1 - r| ≤ 2 * σ + 6 * u * ρ := by
    have e1 : |1 - r| ≤ |1 - r - σ| + |σ| := by
      have := abs_add_le (1 - r - σ) σ
      rwa [sub_add_cancel] at this
    rw [abs_of_pos hσ] at e1
    have : K * σ ≤ 1 / 100000 * σ := mul_le_mul_of_nonneg_right hK hσ.le
    linarith
  have h3 : u * |1 - r| ≤ 2 * (u * σ) + u * ρ := by
    have e1 := mul_le_mul_of_nonneg_left h2 hu.le
    have e2 : u * (6 * u * ρ) ≤ 1 / 100000 * (6 * u * ρ) := mul_le_mul_of_nonneg_right hu' (by positivity)
    have e3 : u * (2 * σ + 6 * u * ρ) = 2 * (u * σ) + u * (6 * u * ρ) := by ring
    have e4 : 1 / 100000 * (6 * u * ρ) ≤ u * ρ := by linarith
    linarith
  have h4 : |s - σ| ≤ (K + 2 * u) * σ + 7 * (u * ρ) := by
    have e1 : |s - σ| ≤ |s - (1 - r)| + |1 - r - σ| := by
      have := abs_add_le (s - (1 - r)) (1 - r - σ)
      rwa [sub_add_sub_cancel] at this
    have e2 : (K + 2 * u) * σ = K * σ + 2 * (u * σ) := by ring
    linarith
  -- the ratio times the width
  have hr2 : r ≤ 2 * ρ ∧ 0 ≤ r := by
    have := abs_le.mp hr
    have e1 : K * ρ * σ ≤ 1 / 100000 * ρ := by
      have e0 : K * ρ * σ = K * σ * ρ := by ring
      rw [e0]
      exact mul_le_mul_of_nonneg_right (hKσ1.trans hK) hρ.le
    have e2 : 6 * u * ρ ≤ 6 / 100000 * ρ := mul_le_mul_of_nonneg_right (by linarith) hρ.le
    constructor <;> linarith
  have hWr : |W' * r - P| ≤ K * σ * P + 8 * u * P := by
    have e1 : W' * r - P = (W' - W) * r + W * (r - ρ) := by rw [hP]; ring
    rw [e1]
    refine (abs_add_le _ _).trans ?_
    rw [abs_mul, abs_mul, abs_of_pos hW, abs_of_nonneg hr2.2]
    have e2 : |W' - W| * r ≤ u * W * (2 * ρ) := mul_le_mul hW' hr2.1 hr2.2 (by positivity)
    have e3 := mul_le_mul_of_nonneg_left hr hW.le
    have e4 : u * W * (2 * ρ) + W * (K * ρ * σ + 6 * u * ρ) = K * σ * P + 8 * u * P := by rw [hP]; ring
    linarith
  have hKσP : 0 ≤ K * σ * P := mul_nonneg hKσ0 hP0.le
  have huP : 0 < u * P := mul_pos hu hP0
  have hKσP1 : K * σ * P ≤ 1 / 100000 * P := mul_le_mul_of_nonneg_right (hKσ1.trans hK) hP0.le
  have huP1 : u * P ≤ 1 / 100000 * P := mul_le_mul_of_nonneg_right hu' hP0.le
  have hWr2 : W' * r ≤ 2 * P := by have := (abs_le.mp hWr).2; linarith
  have h5 : |m - P| ≤ K * σ * P + 10 * (u * P) := by
    have e1 : |m - P| ≤ |m - W' * r| + |W' * r - P| := by
      have := abs_add_le (m - W' * r) (W' * r - P)
      rwa [sub_add_sub_cancel] at this
    have e2 := mul_le_mul_of_nonneg_left hWr2 hu.le
    linarith
  -- the product
  have hs2 : |s| ≤ σ + (K + 2 * u) * σ + 7 * (u * ρ) := by
    have e1 : |s| ≤ |s - σ| + |σ| := by
      have := abs_add_le (s - σ) σ
      rwa [sub_add_cancel] at this
    rw [abs_of_pos hσ] at e1
    linarith
  have hPσ0 : 0 < P * σ := mul_pos hP0 hσ
  have hPρ0 : 0 < P * ρ := mul_pos hP0 hρ
  have h6 : |m - P| * |s| ≤ (K + 11 * u) * (P * σ) + u * (P * ρ) := by
    refine (mul_le_mul h5 hs2 (abs_nonneg _) (by positivity)).trans ?_
    have e0 : (K * σ * P + 10 * (u * P)) * (σ + (K + 2 * u) * σ + 7 * (u * ρ)) =
        (K * σ + K * K * σ + 2 * u * K * σ + 7 * u * K * ρ + 10 * u + 10 * u * K + 20 * u * u) * (P * σ) + 70 * u * u * (P * ρ) := by ring
    rw [e0]
    have a1 := hKσ1
    have a2 : K * K * σ ≤ u / 100 := (mul_le_of_le_one_right (mul_nonneg hK0 hK0) hσ1).trans hKK
    have huK : u * K ≤ u * (1 / 100000) := mul_le_mul_of_nonneg_left hK hu.le
    have huK0 : 0 ≤ u * K := mul_nonneg hu.le hK0
    have huu : u * u ≤ u * (1 / 100000) := mul_le_mul_of_nonneg_left hu' hu.le
    have a3 : 2 * u * K * σ ≤ 2 * (u * K) := by
      rw [mul_assoc 2 u K]; exact mul_le_of_le_one_right (by positivity) hσ1
    have a4 : 7 * u * K * ρ ≤ 7 * (u * K) := by
      rw [mul_assoc 7 u K]; exact mul_le_of_le_one_right (by positivity) hρ1
    have a5 : K * σ + K * K * σ + 2 * u * K * σ + 7 * u * K * ρ + 10 * u + 10 * u * K + 20 * u * u ≤ K + 11 * u := by linarith
    have a6 : 70 * u * u ≤ u := by linarith
    exact add_le_add (mul_le_mul_of_nonneg_right a5 hPσ0.le) (mul_le_mul_of_nonneg_right a6 hPρ0.le)
  have h7 : |m * s - P * σ| ≤ (2 * K + 13 * u) * (P * σ) + 8 * u * (P * ρ) := by
    have e1 : m * s - P * σ = (m - P) * s + P * (s - σ) := by ring
    rw [e1]
    refine (abs_add_le _ _).trans ?_
    rw [abs_mul, abs_mul, abs_of_pos hP0]
    have e2 := mul_le_mul_of_nonneg_left h4 hP0.le
    have e3 : P * ((K + 2 * u) * σ + 7 * (u * ρ)) = (K + 2 * u) * (P * σ) + 7 * u * (P * ρ) := by ring
    have e4 : (2 * K + 13 * u) * (P * σ) + 8 * u * (P * ρ) = (K + 11 * u) * (P * σ) + u * (P * ρ) + ((K + 2 * u) * (P * σ) + 7 * u * (P * ρ)) := by ring
    linarith
  have hPρP : P * ρ ≤ P := mul_le_of_le_one_right hP0.le hρ1
  have huPρ : u * (P * ρ) ≤ u * P := mul_le_mul_of_nonneg_left hPρP hu.le
  have h8 : |m * s| ≤ 2 * (P * σ) + P := by
    have e1 : |m * s| ≤ |m * s - P * σ| + |P * σ| := by
      have := abs_add_le (m * s - P * σ) (P * σ)
      rwa [sub_add_cancel] at this
    rw [abs_of_pos hPσ0] at e1
    have e2 : (2 * K + 13 * u) * (P * σ) ≤ 1 * (P * σ) := mul_le_mul_of_nonneg_right (by linarith) hPσ0.le
    have e3 : 8 * u * (P * ρ) ≤ 8 * (u * P) := by linarith
    linarith
  have h9 := mul_le_mul_of_nonneg_left h8 hu.le
  have h10 : |J - P * σ| ≤ |J - m * s| + |m * s - P * σ| := by
    have := abs_add_le (J - m * s) (m * s - P * σ)
    rwa [sub_add_sub_cancel] at this
  have e5 : (2 * K + 18 * u) * (P * σ) = (2 * K + 13 * u) * (P * σ) + 5 * (u * (P * σ)) := by ring
  have e6 : u * (2 * (P * σ) + P) = 2 * (u * (P * σ)) + u * P := by ring
  have e7 := mul_pos hu hPσ0
  have e8 : 8 * u * (P * ρ) ≤ 8 * (u * P) := by linarith
  linarith

/-- The exponential that `_constrain_array_jacobian` computes from the free value of `v`. -/
theorem two_sided_exp (hs : A.Sane) (h : A.Accurate) (hL : A.LogAccurate) {a b v : ℝ} (ha : A.Machine (.fin a)) (hb : A.Machine (.fin b))
    (hv : A.Machine (.fin v)) (ha' : |a| ≤ 2 ^ (300 : ℤ)) (hb' : |b| ≤ 2 ^ (300 : ℤ)) (hv' : |v| ≤ 2 ^ (300 : ℤ))
    (hp : 2 ^ (-300 : ℤ) ≤ v - a) (hq : 2 ^ (-300 : ℤ) ≤ b - v) :
    ∃ y E, unconstrain1A A (.fin a) (.fin b) (.fin v) = .fin y ∧ A.exp (.fin y) = .fin E ∧ A.Machine (.fin E) ∧ 2 ^ (-602 : ℤ) ≤ E ∧
      E ≤ 2 ^ (602 : ℤ) ∧ |E - (v - a) / (b - v)| ≤ (3 * |Real.log (v - a)| + 3 * |Real.log (b - v)| + 11) * uRound * ((v - a) / (b - v)) ∧
      |Real.log (v - a)| ≤ 210 ∧ |Real.log (b - v)| ≤ 210 := by
  have hu := uRound_pos
  have hp0 : 0 < v - a := lt_of_lt_of_le (two_zpow_pos _) hp
  have hq0 : 0 < b - v := lt_of_lt_of_le (two_zpow_pos _) hq
  have hps := size_sub' ha' hv'
  have hqs := size_sub' hv' hb'
  rw [abs_of_pos hp0] at hps
  rw [abs_of_pos hq0] at hqs
  have up' : ∀ {x : ℝ}, 0 < x → x ≤ 2 ^ (301 : ℤ) → |x| ≤ 2 ^ (1010 : ℤ) := fun h0 hx => by
    rw [abs_of_pos h0]; exact up_zpow hx (by norm_num)
  obtain ⟨p', hp1, hp2⟩ := h.sub_rel hv ha (up' hp0 hps)
  obtain ⟨q', hq1, hq2⟩ := h.sub_rel hb hv (up' hq0 hqs)
  rw [abs_of_pos hp0] at hp2
  rw [abs_of_pos hq0] at hq2
  obtain ⟨lp, hlp1, hlp2, hlp3⟩ := hL.near (dn_zpow hp (by norm_num)) (up_zpow hps (by norm_num)) hp2
  obtain ⟨lq, hlq1, hlq2, hlq3⟩ := hL.near (dn_zpow hq (by norm_num)) (up_zpow hqs (by norm_num)) hq2
  have hbp := abs_log_le' hp hps
  have hbq := abs_log_le' hq hqs
  obtain ⟨y, hy1, hyt⟩ := log_ratio h hbp hbq hlp2 hlq2 hlp3 hlq3
  obtain ⟨E, hE1, hE2⟩ := h.exp_near hyt (by linarith) (by
    have b3 := abs_le.mp hbp
    have b4 := abs_le.mp hbq
    rw [abs_le]; constructor <;> linarith)
  rw [Real.exp_sub, Real.exp_log hp0, Real.exp_log hq0] at hE2
  have hEm := hs.exp_machine (.fin y)
  rw [hE1] at hEm
  rw [show 3 * |Real.log (v - a)| + 3 * |Real.log (b - v)| + 7 + 4 = 3 * |Real.log (v - a)| + 3 * |Real.log (b - v)| + 11 by ring] at hE2
  have hcu := small_coeff (c := 3 * |Real.log (v - a)| + 3 * |Real.log (b - v)| + 11) (by linarith)
  have hr0 : 0 < (v - a) / (b - v) := div_pos hp0 hq0
  have hE3 : (v - a) / (b - v) ≤ 2 * E ∧ E ≤ 2 * ((v - a) / (b - v)) := by
    have h1 := abs_le.mp hE2
    have h2 := mul_le_mul_of_nonneg_right hcu hr0.le
    constructor <;> linarith
  have hru : (v - a) / (b - v) ≤ 2 ^ (601 : ℤ) := by
    rw [div_le_iff₀ hq0]
    have e : (2:ℝ) ^ (601 : ℤ) * 2 ^ (-300 : ℤ) = 2 ^ (301 : ℤ) := by rw [← zpow_split]; norm_num
    have := mul_le_mul_of_nonneg_left hq (two_zpow_pos 601).le
    rw [e] at this
    exact hps.trans this
  have hrl : 2 ^ (-601 : ℤ) ≤ (v - a) / (b - v) := by
    rw [le_div_iff₀ hq0]
    have e : (2:ℝ) ^ (-601 : ℤ) * 2 ^ (301 : ℤ) = 2 ^ (-300 : ℤ) := by rw [← zpow_split]; norm_num
    have := mul_le_mul_of_nonneg_left hqs (two_zpow_pos (-601)).le
    rw [e] at this
    exact this.trans hp
  refine ⟨y, E, ?_, hE1, hEm, halve_zpow (e := -602) (by simpa using hrl) hE3.1, double_zpow (e := 601) hru hE3.2, hE2, hbp, hbq⟩
  simp only [unconstrain1A, Flt.eq, Bool.false_eq_true, if_false, hp1, hq1, hlp1, hlq1, hy1]

theorem two_sided_unfreeJac (hs : A.Sane) (h : A.Accurate) (hL : A.LogAccurate) {a b v : ℝ} (ha : A.Machine (.fin a)) (hb : A.Machine (.fin b))
    (hv : A.Machine (.fin v)) (ha' : |a| ≤ 2 ^ (300 : ℤ)) (hb' : |b| ≤ 2 ^ (300 : ℤ)) (hv' : |v| ≤ 2 ^ (300 : ℤ))
    (hp : 2 ^ (-300 : ℤ) ≤ v - a) (hq : 2 ^ (-300 : ℤ) ≤ b - v) :
    ∃ z, constrainJac1A A (.fin a) (.fin b) (unconstrain1A A (.fin a) (.fin b) (.fin v)) = .fin z ∧
      constrainJac1 (.fin a) (.fin b) (unconstrain1 (.fin a) (.fin b) (.fin v)) = .fin ((v - a) * (b - v) / (b - a)) ∧
      |z - (v - a) * (b - v) / (b - a)| ≤ uRound * ((6 * |Real.log (v - a)| + 6 * |Real.log (b - v)| + 42) * ((v - a) * (b - v) / (b - a)) +
        10 * (v - a)) := by
  have hu := uRound_pos
  have hu' : uRound ≤ 1 / 100000 := uRound_le.trans (by norm_num)
  obtain ⟨y, E, hy, hE1, hEm, hEl, hEu, hE2, hbp, hbq⟩ := two_sided_exp hs h hL ha hb hv ha' hb' hv' hp hq
  have hp0 : 0 < v - a := lt_of_lt_of_le (two_zpow_pos _) hp
  have hq0 : 0 < b - v := lt_of_lt_of_le (two_zpow_pos _) hq
  have hw0 : 0 < b - a := by linarith
  have hws := size_sub' ha' hb'
  obtain ⟨W', hW1, hW2⟩ := h.sub_rel hb ha (up_zpow hws (by norm_num))
  rw [abs_of_pos hw0] at hW2 hws
  have hE0 : 0 < E := lt_of_lt_of_le (two_zpow_pos _) hEl
  have h1E : 0 < 1 + E := by linarith
  have hexact : constrainJac1 (.fin a) (.fin b) (unconstrain1 (.fin a) (.fin b) (.fin v)) = .fin ((v - a) * (b - v) / (b - a)) := by
    have hd : 1 + (v - a) / (b - v) ≠ 0 := by positivity
    simp only [unconstrain1, constrainJac1, Flt.eq, Bool.false_eq_true, if_false, sub_fin, log_fin hp0, log_fin hq0, exp_fin, one_flt, add_fin,
      mul_fin]
    rw [Real.exp_sub, Real.exp_log hp0, Real.exp_log hq0, div_fin _ _ hd]
    simp only [mul_fin, sub_fin]
    congr 1
    have : b - v + (v - a) ≠ 0 := by linarith
    have h2 : b - a = b - v + (v - a) := by ring
    rw [h2]
    have := hq0.ne'
    field_simp
    ring
  generalize hcdef : 3 * |Real.log (v - a)| + 3 * |Real.log (b - v)| + 11 = c at *
  have hc0 : 0 ≤ c := by rw [← hcdef]; positivity
  have hc1 : c ≤ 2000 := by rw [← hcdef]; linarith
  have hlog : 6 * |Real.log (v - a)| + 6 * |Real.log (b - v)| + 42 = 2 * (c + 1) + 18 := by rw [← hcdef]; ring
  rw [hlog]
  obtain ⟨_, hnear⟩ := logistic_near (c := c) hp0 hq0 hc0 (by linarith) hE2
  rw [show v - a + (b - v) = b - a by ring] at hnear
  -- the ratio
  obtain ⟨D, hD1, hD2⟩ := h.add_rel hs.one_machine hEm (by
    rw [abs_of_pos h1E]
    have e : (2:ℝ) ^ (603 : ℤ) = 2 ^ (602 : ℤ) + 2 ^ (602 : ℤ) := by
      rw [show (603 : ℤ) = 602 + 1 by norm_num, zpow_split, zpow_one]; ring
    have h1 : (1:ℝ) ≤ 2 ^ (602 : ℤ) := one_le_zpow₀ (by norm_num) (by norm_num)
    have h2 : 1 + E ≤ 2 ^ (603 : ℤ) := by rw [e]; exact add_le_add h1 hEu
    exact up_zpow h2 (by norm_num))
  rw [abs_of_pos h1E] at hD2
  have hD0 : 0 < D := by
    have := (abs_le.mp hD2).1
    have : uRound * (1 + E) ≤ 1 / 100000 * (1 + E) := mul_le_mul_of_nonneg_right hu' h1E.le
    linarith
  have hX0 : 0 < E / (1 + E) := by positivity
  have hX1 : E / (1 + E) ≤ 1 := by rw [div_le_one h1E]; linarith
  have hXl : 2 ^ (-603 : ℤ) ≤ E / (1 + E) := by
    rw [le_div_iff₀ h1E]
    have e : (2:ℝ) ^ (-602 : ℤ) = 2 ^ (-603 : ℤ) + 2 ^ (-603 : ℤ) := by
      rw [show (-602 : ℤ) = -603 + 1 by norm_num, zpow_split, zpow_one]; ring
    have e1 : (2:ℝ) ^ (-603 : ℤ) ≤ 1 / 2 := (small_zpow (show (-603 : ℤ) ≤ -1 by norm_num)).trans (by norm_num)
    have e2 : (2:ℝ) ^ (-603 : ℤ) * E ≤ 1 / 2 * E := mul_le_mul_of_nonneg_right e1 hE0.le
    rw [mul_add, mul_one]
    linarith
  have hED := quotient_near (a := E) (a' := E) (b' := D) (c := 1) hE0 h1E (by norm_num) (by norm_num)
    (by rw [sub_self, abs_zero]; positivity) (by rwa [one_mul])
  have h3u : (2 * 1 + 1) * uRound * (E / (1 + E)) ≤ 1 / 2 * (E / (1 + E)) := mul_le_mul_of_nonneg_right (by linarith) hX0.le
  have hED' := abs_le.mp hED
  have hED0 : 0 < E / D := div_pos hE0 hD0
  obtain ⟨r, hr1, hr2⟩ := h.round_rel (x := E / D) (by
    rw [abs_of_pos hED0]
    exact dn_zpow (halve_zpow (e := -604) (show 2 ^ (-604 + 1 : ℤ) ≤ E / (1 + E) from hXl) (by linarith)) (by norm_num)) (by
    rw [abs_of_pos hED0]
    have e : (1:ℝ) ≤ 2 ^ (1009 : ℤ) := one_le_zpow₀ (by norm_num) (by norm_num)
    exact double_zpow (e := 1009) (hX1.trans e) (by linarith))
  rw [abs_of_pos hED0] at hr2
  have hrm := rnd_machine hs hr1
  have hrX : |r - E / (1 + E)| ≤ 5 * uRound * (E / (1 + E)) := by
    have := near_trans (w := r) (s := E / D) (t := E / (1 + E)) (c := 1) (d := 3) hX0 (by norm_num) (by norm_num) (by norm_num) (by norm_num)
      (by rwa [one_mul]) (by rwa [show (2 * 1 + 1 : ℝ) = 3 by norm_num] at hED)
    rwa [show (1 + 3 + 1 : ℝ) = 5 by norm_num] at this
  -- in terms of the fractions of the interval on either side
  set ρ := (v - a) / (b - a) with hρ
  set σ := (b - v) / (b - a) with hσ
  have hρ0 : 0 < ρ := div_pos hp0 hw0
  have hσ0 : 0 < σ := div_pos hq0 hw0
  have hsum : ρ + σ = 1 := by rw [hρ, hσ, ← add_div, show v - a + (b - v) = b - a by ring, div_self hw0.ne']
  have hPρ : v - a = (b - a) * ρ := by rw [hρ, mul_div_cancel₀ _ hw0.ne']
  have hQσ : b - v = (b - a) * σ := by rw [hσ, mul_div_cancel₀ _ hw0.ne']
  have hJσ : (v - a) * (b - v) / (b - a) = (v - a) * σ := by rw [hσ]; ring
  have hXρ : |E / (1 + E) - ρ| ≤ (c + 1) * uRound * ρ * σ := by
    have e1 : (b - a) * E / (1 + E) - (v - a) = (b - a) * (E / (1 + E) - ρ) := by rw [mul_sub, ← hPρ]; ring
    have e2 : (c + 1) * uRound * ((v - a) * (b - v) / (b - a)) = (b - a) * ((c + 1) * uRound * ρ * σ) := by
      rw [hJσ, hPρ]; ring
    rw [e1, e2, abs_mul, abs_of_pos hw0] at hnear
    exact le_of_mul_le_mul_left hnear hw0
  have hK : (c + 1) * uRound ≤ 1 / 100000 := by
    have : (c + 1) * uRound ≤ 2001 * (1 / 2 ^ 50) := mul_le_mul (by linarith) uRound_le hu.le (by norm_num)
    linarith
  have hKK : (c + 1) * uRound * ((c + 1) * uRound) ≤ uRound / 100 := by
    have e1 : (c + 1) * uRound ≤ 2001 * (1 / 2 ^ 50) := mul_le_mul (by linarith) uRound_le hu.le (by norm_num)
    have e2 : (c + 1) * ((c + 1) * uRound) ≤ 2001 * (2001 * (1 / 2 ^ 50)) := mul_le_mul (by linarith) e1 (by positivity) (by norm_num)
    have e3 := mul_le_mul_of_nonneg_left e2 hu.le
    have e4 : uRound * ((c + 1) * ((c + 1) * uRound)) = (c + 1) * uRound * ((c + 1) * uRound) := by ring
    rw [e4] at e3
    linarith
  have hρ1 : ρ ≤ 1 := by linarith
  have hσ1 : σ ≤ 1 := by linarith
  have hK0 : 0 ≤ (c + 1) * uRound := by positivity
  have hrρ : |r - ρ| ≤ (c + 1) * uRound * ρ * σ + 6 * uRound * ρ := by
    have e1 : |r - ρ| ≤ |r - E / (1 + E)| + |E / (1 + E) - ρ| := by
      have := abs_add_le (r - E / (1 + E)) (E / (1 + E) - ρ)
      rwa [sub_add_sub_cancel] at this
    have e2 : (c + 1) * uRound * ρ * σ ≤ 1 / 100000 * ρ := by
      rw [mul_assoc, mul_comm ρ σ, ← mul_assoc]
      exact mul_le_mul_of_nonneg_right ((mul_le_of_le_one_right hK0 hσ1).trans hK) hρ0.le
    have e3 : E / (1 + E) ≤ 6 / 5 * ρ := by have := (abs_le.mp hXρ).2; linarith
    have e4 := mul_le_mul_of_nonneg_left e3 (show 0 ≤ 5 * uRound by positivity)
    have e5 : 5 * uRound * (6 / 5 * ρ) = 6 * uRound * ρ := by ring
    linarith
  have hr0 : 0 < r ∧ r ≤ 2 := by
    have e1 := abs_le.mp hr2
    have e2 : uRound * (E / D) ≤ 1 / 100000 * (E / D) := mul_le_mul_of_nonneg_right hu' hED0.le
    constructor <;> linarith
  have hrl : 2 ^ (-605 : ℤ) ≤ r := by
    have e1 := abs_le.mp hrX
    have e2 : 5 * uRound * (E / (1 + E)) ≤ 1 / 2 * (E / (1 + E)) := mul_le_mul_of_nonneg_right (by linarith) hX0.le
    exact dn_zpow (halve_zpow (e := -604) (show 2 ^ (-604 + 1 : ℤ) ≤ E / (1 + E) from hXl) (by linarith)) (by norm_num)
  -- one minus the ratio
  have h1r : |1 - r| ≤ 1 := by rw [abs_le]; constructor <;> linarith [hr0.1, hr0.2]
  obtain ⟨s, hs1, hs2⟩ := h.sub_rel hs.one_machine hrm (h1r.trans (one_le_zpow₀ (by norm_num) (by norm_num)))
  have hs3 : |s| ≤ 2 := by
    have e1 : |s| ≤ |s - (1 - r)| + |1 - r| := by
      have := abs_add_le (s - (1 - r)) (1 - r)
      rwa [sub_add_cancel] at this
    have e2 : uRound * |1 - r| ≤ 1 / 100000 * 1 := mul_le_mul hu' h1r (abs_nonneg _) (by norm_num)
    linarith
  -- the width times the ratio
  have hW3 : b - a ≤ 2 * W' ∧ W' ≤ 2 * (b - a) := by
    have e1 := abs_le.mp hW2
    have e2 : uRound * (b - a) ≤ 1 / 100000 * (b - a) := mul_le_mul_of_nonneg_right hu' hw0.le
    constructor <;> linarith
  have hWu : W' ≤ 2 ^ (302 : ℤ) := double_zpow (e := 301) hws hW3.2
  have hWl : 2 ^ (-301 : ℤ) ≤ W' := halve_zpow (e := -301) (show 2 ^ (-301 + 1 : ℤ) ≤ b - a from hp.trans (by linarith)) hW3.1
  have hW0 : 0 < W' := lt_of_lt_of_le (two_zpow_pos _) hWl
  have hWr : 0 < W' * r := mul_pos hW0 hr0.1
  have hr2' : r ≤ 2 ^ (1 : ℤ) := by rw [zpow_one]; exact hr0.2
  have hWru : W' * r ≤ 2 ^ (303 : ℤ) := by
    rw [show (303 : ℤ) = 302 + 1 by norm_num, zpow_split]
    exact mul_le_mul hWu hr2' hr0.1.le (two_zpow_pos _).le
  obtain ⟨m, hm1, hm2⟩ := h.round_rel (x := W' * r) (by
    rw [abs_of_pos hWr]
    refine (small_zpow (show (-1022 : ℤ) ≤ -301 + -605 by norm_num)).trans ?_
    rw [zpow_split]
    exact mul_le_mul hWl hrl (two_zpow_pos _).le hW0.le) (by
    rw [abs_of_pos hWr]
    exact up_zpow hWru (by norm_num))
  rw [abs_of_pos hWr] at hm2
  have hm3 : |m| ≤ 2 ^ (304 : ℤ) := by
    have e1 := abs_le.mp hm2
    have e2 : uRound * (W' * r) ≤ 1 / 100000 * (W' * r) := mul_le_mul_of_nonneg_right hu' hWr.le
    rw [abs_of_pos (by linarith)]
    exact double_zpow (e := 303) hWru (by linarith)
  -- the product
  have hms : |m * s| ≤ 2 ^ (305 : ℤ) := by
    rw [abs_mul, show (305 : ℤ) = 304 + 1 by norm_num, zpow_split, zpow_one]
    exact mul_le_mul hm3 hs3 (abs_nonneg _) (two_zpow_pos _).le
  have hJ1 := h.round_le (up_zpow hms (show (305 : ℤ) ≤ 1010 by norm_num))
  have hJ2 := rndReal_rel (m * s)
  rw [uRound_val] at hJ2
  have htiny : (2:ℝ) ^ (-1075 : ℤ) ≤ uRound * (v - a) := by
    have e1 : (2:ℝ) ^ (-53 + -300 : ℤ) ≤ uRound * (v - a) := by
      rw [zpow_split, uRound_val]
      exact mul_le_mul_of_nonneg_left hp hu.le
    exact (small_zpow (by norm_num)).trans e1
  refine ⟨rndReal (m * s), ?_, hexact, ?_⟩
  · have e1 : A.div (.fin E) (.fin D) = .fin r := by rw [Arith.div, div_fin _ _ hD0.ne', hr1]
    have e2 : A.mul (.fin W') (.fin r) = .fin m := by rw [Arith.mul, mul_fin, hm1]
    have e3 : A.mul (.fin m) (.fin s) = .fin (rndReal (m * s)) := by rw [Arith.mul, mul_fin, hJ1]
    rw [hy]
    simp only [constrainJac1A, Flt.eq, Bool.false_eq_true, if_false, hE1, one_flt, hD1, hW1, e1, e2, hs1, e3]
  · rw [hJσ]
    have := jac_core (J := rndReal (m * s)) (m := m) (s := s) hu hu' hK0 hK hKK hw0 hρ0 hσ0 hsum hPρ hrρ hs2 hW2 hm2 (by linarith)
    have e1 : uRound * ((2 * (c + 1) + 18) * ((v - a) * σ) + 10 * (v - a)) =
        (2 * ((c + 1) * uRound) + 18 * uRound) * ((v - a) * σ) + 10 * uRound * (v - a) := by ring
    rw [e1]
    exact this

/-- Very near the upper bound the computed derivative is zero. -/
theorem two_sided_unfreeJac_lost (hs : A.Sane) (h : A.Accurate) (hL : A.LogAccurate) {a b v : ℝ} (ha : A.Machine (.fin a)) (hb : A.Machine (.fin b))
    (hv : A.Machine (.fin v)) (ha' : |a| ≤ 2 ^ (300 : ℤ)) (hb' : |b| ≤ 2 ^ (300 : ℤ)) (hv' : |v| ≤ 2 ^ (300 : ℤ))
    (hp : 2 ^ (-300 : ℤ) ≤ v - a) (hq : 2 ^ (-300 : ℤ) ≤ b - v) (hfar : 2 ^ (56 : ℤ) * (b - v) ≤ v - a) :
    constrainJac1A A (.fin a) (.fin b) (unconstrain1A A (.fin a) (.fin b) (.fin v)) = .fin 0 := by
  have hu := uRound_pos
  have hu' : uRound ≤ 1 / 100000 := uRound_le.trans (by norm_num)
  obtain ⟨y, E, hy, hE1, hEm, hEl, hEu, hE2, hbp, hbq⟩ := two_sided_exp hs h hL ha hb hv ha' hb' hv' hp hq
  have hp0 : 0 < v - a := lt_of_lt_of_le (two_zpow_pos _) hp
  have hq0 : 0 < b - v := lt_of_lt_of_le (two_zpow_pos _) hq
  have hw0 : 0 < b - a := by linarith
  have hws := size_sub' ha' hb'
  obtain ⟨W', hW1, hW2⟩ := h.sub_rel hb ha (up_zpow hws (by norm_num))
  rw [abs_of_pos hw0] at hW2 hws
  have hE0 : 0 < E := lt_of_lt_of_le (two_zpow_pos _) hEl
  have hfar' : 2 ^ (56 : ℤ) ≤ (v - a) / (b - v) := by rwa [le_div_iff₀ hq0]
  have hcu := small_coeff (c := 3 * |Real.log (v - a)| + 3 * |Real.log (b - v)| + 11) (by linarith)
  have hr0 : 0 < (v - a) / (b - v) := div_pos hp0 hq0
  have hE55 : 2 ^ (55 : ℤ) ≤ E := by
    have h1 := abs_le.mp hE2
    have h2 := mul_le_mul_of_nonneg_right hcu hr0.le
    exact halve_zpow (e := 55) (by simpa using hfar') (by linarith)
  have hD : A.add (.fin 1) (.fin E) = .fin E := by
    have e1 : rndReal (1 + E) = E := by
      rw [add_comm]
      refine rndReal_absorb (k := 55) (h.machine hEm) ?_ (by norm_num) ?_
      · rwa [abs_of_pos hE0]
      · norm_num
    rw [Arith.add, add_fin, h.round_le, e1]
    have e : (2:ℝ) ^ (603 : ℤ) = 2 ^ (602 : ℤ) + 2 ^ (602 : ℤ) := by
      rw [show (603 : ℤ) = 602 + 1 by norm_num, zpow_split, zpow_one]; ring
    have h1 : (1:ℝ) ≤ 2 ^ (602 : ℤ) := one_le_zpow₀ (by norm_num) (by norm_num)
    have h2 : 1 + E ≤ 2 ^ (603 : ℤ) := by rw [e]; exact add_le_add h1 hEu
    rw [abs_of_pos (by linarith)]
    exact up_zpow h2 (by norm_num)
  have hr : A.div (.fin E) (.fin E) = .fin 1 := by
    rw [Arith.div, div_fin _ _ hE0.ne', div_self hE0.ne']
    exact hs.one_machine
  have hz : A.round (.fin 0) = .fin 0 := hs.zero_machine
  have hs0 : A.sub (.fin 1) (.fin 1) = .fin 0 := by rw [Arith.sub, sub_fin, sub_self, hz]
  have hW3 : W' ≤ 2 * (b - a) ∧ 0 ≤ W' := by
    have e1 := abs_le.mp hW2
    have e2 : uRound * (b - a) ≤ 1 / 100000 * (b - a) := mul_le_mul_of_nonneg_right hu' hw0.le
    constructor <;> linarith
  have hm : ∃ m, A.mul (.fin W') (.fin 1) = .fin m := by
    refine ⟨rndReal W', ?_⟩
    rw [Arith.mul, mul_fin, mul_one, h.round_le]
    rw [abs_of_nonneg hW3.2]
    exact up_zpow (double_zpow (e := 301) hws hW3.1) (by norm_num)
  obtain ⟨m, hm⟩ := hm
  have hmz : A.mul (.fin m) (.fin 0) = .fin 0 := by rw [Arith.mul, mul_fin, mul_zero, hz]
  rw [hy]
  simp only [constrainJac1A, Flt.eq, Bool.false_eq_true, if_false, hE1, one_flt, hD, hr, hs0, hW1, hm, hmz]

/-! ### Sums -/

/-- Adding up from left to right. -/
theorem foldl_sum_acc : ∀ (l : List ℝ) (k : ℕ) (s T U : ℝ), k + l.length ≤ 2 ^ 20 → binary64.Machine (.fin s) → |T| ≤ U →
    (∀ x ∈ l, binary64.Machine (.fin x)) → U + (l.map fun x => |x|).sum ≤ 2 ^ (1000 : ℤ) → |s - T| ≤ k * (2 * uRound) * U →
    ∃ v, (l.map Flt.fin).foldl (fun a x => round64 (a + x)) (.fin s) = .fin v ∧ binary64.Machine (.fin v) ∧
      |v - (T + l.sum)| ≤ (k + l.length : ℕ) * (2 * uRound) * (U + (l.map fun x => |x|).sum)
  | [], k, s, T, U, _, hs, _, _, _, h => ⟨s, rfl, hs, by simpa using h⟩
  | x :: l, k, s, T, U, hk, hs, hT, hm, hU, h => by
    have hu := uRound_pos
    have hsum0 : 0 ≤ (l.map fun x => |x|).sum := List.sum_nonneg (by
      intro r hr
      obtain ⟨p, _, rfl⟩ := List.mem_map.mp hr
      positivity)
    have hU0 : 0 ≤ U := (abs_nonneg _).trans hT
    have hkb : (k:ℝ) ≤ 2 ^ 20 := by
      have : k ≤ 2 ^ 20 := by simp at hk; omega
      exact_mod_cast this
    have hku : (k:ℝ) * (2 * uRound) ≤ 1 / 100 := by
      calc (k:ℝ) * (2 * uRound) ≤ 2 ^ 20 * (2 * (1 / 2 ^ 50)) := mul_le_mul hkb (by linarith [uRound_le]) (by positivity) (by norm_num)
        _ ≤ 1 / 100 := by norm_num
    simp only [List.map_cons, List.sum_cons, List.foldl_cons, List.length_cons] at hU hk ⊢
    have hx0 := abs_nonneg x
    have hsT : |s| ≤ U + 1 / 100 * U := by
      have e1 := abs_add_le (s - T) T
      rw [sub_add_cancel] at e1
      have e2 := mul_le_mul_of_nonneg_right hku hU0
      linarith
    have hsx : |s + x| ≤ 2 * (U + |x|) := (abs_add_le _ _).trans (by linarith)
    have hbig : U + |x| ≤ 2 ^ (1000 : ℤ) := by linarith
    have hb : |s + x| ≤ 2 ^ (1010 : ℤ) := by
      have := double_zpow (e := 1000) hbig hsx
      exact up_zpow this (by norm_num)
    obtain ⟨z, z1, z2⟩ := binary64_accurate.add_rel hs (hm x (by simp)) hb
    have z1' : round64 (Flt.fin s + Flt.fin x) = .fin z := by rw [← round64_eq]; exact z1
    have hz : binary64.Machine (.fin z) := by
      rw [add_fin, ← round64_eq] at z1'
      exact rnd_machine binary64_sane z1'
    rw [z1']
    obtain ⟨v, h1, h2, h3⟩ := foldl_sum_acc l (k + 1) z (T + x) (U + |x|) (by omega) hz ((abs_add_le _ _).trans (by linarith))
      (fun y hy => hm y (by simp [hy])) (by linarith) (by
        have e1 : |z - (T + x)| ≤ |z - (s + x)| + |s - T| := by
          have := abs_add_le (z - (s + x)) (s - T)
          rwa [show z - (s + x) + (s - T) = z - (T + x) by ring] at this
        have e2 : uRound * |s + x| ≤ uRound * (2 * (U + |x|)) := mul_le_mul_of_nonneg_left hsx hu.le
        have e3 : (k:ℝ) * (2 * uRound) * U ≤ k * (2 * uRound) * (U + |x|) := mul_le_mul_of_nonneg_left (by linarith) (by positivity)
        push_cast
        linarith [show ((k:ℝ) + 1) * (2 * uRound) * (U + |x|) = k * (2 * uRound) * (U + |x|) + uRound * (2 * (U + |x|)) by ring])
    refine ⟨v, h1, h2, ?_⟩
    rw [show k + (l.length + 1) = k + 1 + l.length by omega, ← add_assoc, ← add_assoc]
    exact h3

theorem sum_abs_le {l : List ℝ} {c : ℝ} (h : ∀ x ∈ l, |x| ≤ c) : (l.map fun x => |x|).sum ≤ l.length * c := by
  induction l with
  | nil => simp
  | cons x l ih =>
    have h1 := h x (by simp)
    have h2 := ih fun y hy => h y (by simp [hy])
    simp only [List.map_cons, List.sum_cons, List.length_cons, Nat.cast_add, Nat.cast_one]
    linarith

/-- Minus infinity absorbs what follows. -/
theorem foldl_ninf : ∀ l : List Flt, (∀ x ∈ l, x = .ninf ∨ ∃ r, x = .fin r) → l.foldl (fun a x => round64 (a + x)) .ninf = .ninf
  | [], _ => rfl
  | x :: l, h => by
    have hx : round64 (Flt.ninf + x) = .ninf := by
      rcases h x (by simp) with rfl | ⟨r, rfl⟩ <;> rfl
    rw [List.foldl_cons, hx]
    exact foldl_ninf l fun y hy => h y (by simp [hy])

/-- Minus infinity among numbers of moderate size. -/
theorem foldl_meets_ninf : ∀ (l : List Flt) (k : ℕ) (s : ℝ), k + l.length ≤ 2 ^ 20 → |s| ≤ k * 2 ^ (901 : ℤ) →
    (∀ x ∈ l, x = .ninf ∨ ∃ r, x = .fin r ∧ |r| ≤ 2 ^ (900 : ℤ)) → .ninf ∈ l → l.foldl (fun a x => round64 (a + x)) (.fin s) = .ninf
  | [], _, _, _, _, _, h => absurd h (by simp)
  | x :: l, k, s, hk, hs, h, hm => by
    rw [List.foldl_cons]
    have hl : ∀ y ∈ l, y = .ninf ∨ ∃ r, y = .fin r ∧ |r| ≤ 2 ^ (900 : ℤ) := fun y hy => h y (by simp [hy])
    rcases h x (by simp) with rfl | ⟨r, rfl, hr⟩
    · rw [show round64 (Flt.fin s + .ninf) = .ninf from rfl]
      exact foldl_ninf l fun y hy => (hl y hy).imp id fun ⟨r, h1, _⟩ => ⟨r, h1⟩
    · have hu := uRound_pos
      have hu' : uRound ≤ 1 / 2 ^ 50 := uRound_le
      have ht : (2:ℝ) ^ (-1075 : ℤ) ≤ 1 / 4 := (small_zpow (show (-1075 : ℤ) ≤ -2 by norm_num)).trans (by norm_num)
      have hw1 : (1:ℝ) ≤ 2 ^ (900 : ℤ) := one_le_zpow₀ (by norm_num) (by norm_num)
      have hw : (2:ℝ) ^ (901 : ℤ) = 2 * 2 ^ (900 : ℤ) := by rw [show (901 : ℤ) = 900 + 1 by norm_num, zpow_split, zpow_one]; ring
      have hk0 : (0:ℝ) ≤ k := Nat.cast_nonneg _
      have hkb : (k:ℝ) ≤ 2 ^ 20 := by
        have : k ≤ 2 ^ 20 := by simp at hk; omega
        exact_mod_cast this
      have hsr : |s + r| ≤ (2 * k + 1) * 2 ^ (900 : ℤ) := by
        refine (abs_add_le _ _).trans ?_
        rw [hw] at hs
        linarith
      have hb : |s + r| ≤ 2 ^ (1010 : ℤ) := by
        have e1 : (2 * (k:ℝ) + 1) ≤ 2 ^ (22 : ℤ) := by
          have : (2 * (k:ℝ) + 1) ≤ 2 * 2 ^ 20 + 1 := by linarith
          exact this.trans (by norm_num)
        have e2 := mul_le_mul_of_nonneg_right e1 (two_zpow_pos 900).le
        rw [← zpow_split] at e2
        exact up_zpow (hsr.trans e2) (by norm_num)
      have e1 : round64 (Flt.fin s + .fin r) = .fin (rndReal (s + r)) := by
        rw [add_fin, ← round64_eq]; exact binary64_accurate.round_le hb
      rw [e1]
      refine foldl_meets_ninf l (k + 1) _ (by simp at hk; omega) ?_ hl (by simpa using hm)
      have e2 := rndReal_rel (s + r)
      rw [uRound_val] at e2
      have e3 : |rndReal (s + r)| ≤ |rndReal (s + r) - (s + r)| + |s + r| := by
        have := abs_add_le (rndReal (s + r) - (s + r)) (s + r)
        rwa [sub_add_cancel] at this
      have e4 : uRound * |s + r| ≤ 1 / 4 * 2 ^ (900 : ℤ) := by
        have a1 : uRound * |s + r| ≤ uRound * ((2 * k + 1) * 2 ^ (900 : ℤ)) := mul_le_mul_of_nonneg_left hsr hu.le
        have a2 : uRound * (2 * k + 1) ≤ 1 / 4 := by
          calc uRound * (2 * k + 1) ≤ 1 / 2 ^ 50 * (2 * 2 ^ 20 + 1) := mul_le_mul hu' (by linarith) (by positivity) (by norm_num)
            _ ≤ 1 / 4 := by norm_num
        have a3 := mul_le_mul_of_nonneg_right a2 (two_zpow_pos 900).le
        rw [← mul_assoc] at a1
        exact a1.trans a3
      rw [hw]
      push_cast
      clear hw hb e1
      generalize (2:ℝ) ^ (900 : ℤ) = w at *
      generalize (2:ℝ) ^ (-1075 : ℤ) = t at *
      linarith

theorem binary64_sumAccurate : binary64.SumAccurate where
  sum l hl hm := by
    have h1 := sum_abs_le fun x hx => (hm x hx).2
    have h2 : (l.length : ℝ) ≤ 2 ^ (20 : ℤ) := by
      have : (l.length : ℝ) ≤ 2 ^ 20 := by exact_mod_cast hl
      exact this.trans (by norm_num)
    have h3 : (l.length : ℝ) * 2 ^ (900 : ℤ) ≤ 2 ^ (1000 : ℤ) := by
      have := mul_le_mul_of_nonneg_right h2 (two_zpow_pos 900).le
      rw [← zpow_split] at this
      exact up_zpow this (by norm_num)
    obtain ⟨v, g1, g2, g3⟩ := foldl_sum_acc l 0 0 0 0 (by omega) binary64_sane.zero_machine (by simp) (fun x hx => (hm x hx).1)
      (by rw [zero_add]; exact h1.trans h3) (by simp)
    refine ⟨v, g1, g2, ?_⟩
    rw [uRound_val2]
    simpa using g3
  ninf l hl h hm := foldl_meets_ninf l 0 0 (by omega) (by simp) (fun x hx => (h x hx).imp id fun ⟨r, h1, _, h2⟩ => ⟨r, h1, h2⟩) hm

end Arith
end Paragami
