import Verif.Proofs.RoundingTrip

/-! # From free values to values between two bounds and back, in floating point -/

set_option linter.unusedSimpArgs false

namespace Paragami
open Flt

namespace Arith

variable {A : Arith}

/-- The largest factor by which the two distances to the bounds magnify a relative error. -/
theorem logistic_parts {d t : ℝ} (hd : 0 < d) :
    0 < d * Real.exp t / (1 + Real.exp t) ∧ 0 < d / (1 + Real.exp t) ∧ d * Real.exp t / (1 + Real.exp t) + d / (1 + Real.exp t) = d ∧
      (d * Real.exp t / (1 + Real.exp t))⁻¹ + (d / (1 + Real.exp t))⁻¹ = (Real.exp t + Real.exp (-t) + 2) / d ∧
      Real.log (d * Real.exp t / (1 + Real.exp t)) - Real.log (d / (1 + Real.exp t)) = t ∧
      |Real.log (d * Real.exp t / (1 + Real.exp t))| ≤ |Real.log d| + |t| + 1 ∧ |Real.log (d / (1 + Real.exp t))| ≤ |Real.log d| + |t| + 1 := by
  have hE := Real.exp_pos t
  have h1 : 0 < 1 + Real.exp t := by linarith
  have hl : Real.log (1 + Real.exp t) ≤ |t| + 1 := by
    rw [Real.log_le_iff_le_exp h1, Real.exp_add]
    have g1 : Real.exp t ≤ Real.exp |t| := Real.exp_le_exp.mpr (le_abs_self t)
    have g2 : 1 ≤ Real.exp |t| := Real.one_le_exp (abs_nonneg t)
    have g3 : 2 ≤ Real.exp 1 := by have := Real.add_one_le_exp (1:ℝ); linarith
    nlinarith
  have hl0 : 0 ≤ Real.log (1 + Real.exp t) := Real.log_nonneg (by linarith)
  have hl1 : t ≤ Real.log (1 + Real.exp t) := by
    rw [Real.le_log_iff_exp_le h1]; linarith
  have hl2 : Real.log (1 + Real.exp t) - t ≤ |t| + 1 := by
    rcases le_total 0 t with h | h
    · linarith [abs_nonneg t]
    · have : Real.log (1 + Real.exp t) ≤ 1 := by
        rw [Real.log_le_iff_le_exp h1]
        have g1 : Real.exp t ≤ 1 := Real.exp_le_one_iff.mpr h
        have g3 := Real.add_one_le_exp (1:ℝ)
        linarith
      rw [abs_of_nonpos h]; linarith
  have e1 : Real.log (d * Real.exp t / (1 + Real.exp t)) = Real.log d + t - Real.log (1 + Real.exp t) := by
    rw [Real.log_div (by positivity) h1.ne', Real.log_mul hd.ne' hE.ne', Real.log_exp]
  have e2 : Real.log (d / (1 + Real.exp t)) = Real.log d - Real.log (1 + Real.exp t) := Real.log_div hd.ne' h1.ne'
  refine ⟨by positivity, by positivity, by field_simp; ring, ?_, by rw [e1, e2]; ring, ?_, ?_⟩
  · rw [Real.exp_neg]; field_simp; ring
  · rw [e1]
    have := abs_le.mp (le_refl |Real.log d|)
    rw [abs_le]; constructor <;> linarith [abs_nonneg t]
  · rw [e2]
    have := abs_le.mp (le_refl |Real.log d|)
    rw [abs_le]; constructor <;> linarith [abs_nonneg t]

theorem shrink {p p' δ : ℝ} (hp : 0 < p) (h : |p' - p| ≤ δ) (hδ : δ * p⁻¹ ≤ 1 / 1000) :
    p ≤ 2 * p' ∧ p' ≤ 2 * p ∧ 0 < p' ∧ |Real.log p' - Real.log p| ≤ 101 / 100 * (δ * p⁻¹) := by
  have hδp : δ ≤ 1 / 1000 * p := by
    have := mul_le_mul_of_nonneg_right hδ hp.le
    rwa [mul_assoc, inv_mul_cancel₀ hp.ne', mul_one] at this
  have h' := abs_le.mp h
  have hp' : 0 < p' := by linarith
  refine ⟨by linarith, by linarith, hp', ?_⟩
  have hq : |p' / p - 1| ≤ δ * p⁻¹ := by
    rw [show p' / p - 1 = (p' - p) * p⁻¹ by field_simp, abs_mul, abs_of_pos (inv_pos.mpr hp)]
    exact mul_le_mul_of_nonneg_right h (inv_pos.mpr hp).le
  have hlog := log_ratio_le hq hδ
  rw [Real.log_div hp'.ne' hp.ne'] at hlog
  have h0 : 0 ≤ δ * p⁻¹ := (abs_nonneg _).trans hq
  nlinarith

theorem two_sided_free_trip (hs : A.Sane) (h : A.Accurate) (hL : A.LogAccurate) {a b t : ℝ} (ha : A.Machine (.fin a)) (hb : A.Machine (.fin b))
    (ha' : |a| ≤ 2 ^ (300 : ℤ)) (hb' : |b| ≤ 2 ^ (300 : ℤ)) (hab : 2 ^ (-200 : ℤ) ≤ b - a)
    (hκ : ((|a| + |b|) / (b - a) + 14) * (Real.exp t + Real.exp (-t) + 2) ≤ 2 ^ 40) :
    ∃ w y, constrain1A A (.fin a) (.fin b) (.fin t) = .fin w ∧ unconstrain1A A (.fin a) (.fin b) (.fin w) = .fin y ∧ a < w ∧ w < b ∧
      |y - t| ≤ uRound * (2 * (((|a| + |b|) / (b - a) + 14) * (Real.exp t + Real.exp (-t) + 2)) + 6 * |Real.log (b - a)| + 6 * |t|) := by
  have hu := uRound_pos
  have hd : 0 < b - a := lt_of_lt_of_le (two_zpow_pos _) hab
  have hE := Real.exp_pos t
  have hE' := Real.exp_pos (-t)
  obtain ⟨hP, hQ, hPQ, hinv, hlog, hlp, hlq⟩ := logistic_parts (t := t) hd
  set P := (b - a) * Real.exp t / (1 + Real.exp t) with hPdef
  set Q := (b - a) / (1 + Real.exp t) with hQdef
  have hm0 : 0 ≤ (|a| + |b|) / (b - a) := by positivity
  have hsum : Real.exp t + Real.exp (-t) + 2 ≤ 2 ^ 37 := by
    have : 14 * (Real.exp t + Real.exp (-t) + 2) ≤ 2 ^ 40 := le_trans (mul_le_mul_of_nonneg_right (by linarith) (by positivity)) hκ
    norm_num at this ⊢; linarith
  have ht : |t| ≤ 60 := by
    have h1 : Real.exp |t| ≤ 2 ^ 37 := by
      rcases abs_cases t with ⟨e, -⟩ | ⟨e, -⟩ <;> rw [e] <;> linarith
    have h2 : |t| ≤ Real.log (2 ^ 37) := by
      rw [Real.le_log_iff_exp_le (by norm_num)]; exact h1
    rw [Real.log_pow] at h2
    have := Real.log_two_lt_d9
    push_cast at h2; linarith
  obtain ⟨w, v, hw, hv, hwv⟩ := two_sided_fold hs h ha hb ha' hb' hab ht
  have hv' : v = P + a := by
    have : constrain1 (.fin a) (.fin b) (.fin t) = .fin (P + a) := by
      have h1 : (1 : Flt) = .fin 1 := by change Flt.fin ((1:ℕ):ℝ) = _; simp
      simp only [constrain1, Flt.eq, Bool.false_eq_true, if_false, h1, exp_fin, sub_fin, mul_fin, add_fin]
      rw [div_fin _ _ (by positivity), add_fin]
    rw [this] at hv; injection hv with hv; exact hv.symm
  subst hv'
  have hwm : A.Machine (.fin w) := by
    simp only [constrain1A, Flt.eq, Bool.false_eq_true, if_false] at hw
    rw [← hw, Arith.add]
    generalize (_ : Flt) + _ = x
    cases x with
    | fin r => exact hs.idem r
    | _ => rfl
  -- the absolute error of the value
  set D := |a| + |b| + 14 * (b - a) with hD
  have hPd : P ≤ b - a := by linarith
  have hδ : |w - (P + a)| ≤ uRound * D := by
    refine hwv.trans (mul_le_mul_of_nonneg_left ?_ hu.le)
    have h1 : |P + a| ≤ |a| + |b| := by
      rw [abs_le]
      constructor
      · linarith [neg_abs_le a, abs_nonneg b]
      · linarith [le_abs_self b, abs_nonneg a]
    rw [hD]; linarith
  have hκ' : ((|a| + |b|) / (b - a) + 14) * (Real.exp t + Real.exp (-t) + 2) = D * P⁻¹ + D * Q⁻¹ := by
    rw [← mul_add, hinv, hD]; field_simp
  rw [hκ'] at hκ ⊢
  have hD0 : 0 < D := by rw [hD]; positivity
  have hp0 : 0 < D * P⁻¹ := by positivity
  have hq0 : 0 < D * Q⁻¹ := by positivity
  have hcap : ∀ x : ℝ, x ≤ 2 ^ 40 → uRound * x ≤ 1 / 1000 := by
    intro x hx
    have h1 := mul_le_mul_of_nonneg_left hx hu.le
    have h2 : uRound * 2 ^ 40 ≤ 1 / 1000 := by unfold uRound; norm_num
    exact h1.trans h2
  obtain ⟨p1, p2, p3, p4⟩ := shrink (p' := w - a) (δ := uRound * D) hP (by rwa [show w - a - P = w - (P + a) by ring]) (by rw [mul_assoc]; exact hcap _ (by linarith))
  obtain ⟨q1, q2, q3, q4⟩ := shrink (p' := b - w) (δ := uRound * D) hQ (by
    rw [show b - w - Q = -(w - (P + a)) by linarith, abs_neg]; exact hδ) (by rw [mul_assoc]; exact hcap _ (by linarith))
  have hw' : |w| ≤ 2 ^ (300 : ℤ) := by
    rw [abs_le]
    have := (abs_le.mp ha').1
    have := (abs_le.mp hb').2
    constructor <;> linarith
  have hbig : (2:ℝ) ^ (-299 : ℤ) ≤ (b - a) / 2 ^ 40 := by
    rw [le_div_iff₀ (by norm_num)]
    calc (2:ℝ) ^ (-299 : ℤ) * 2 ^ 40 = 2 ^ (-259 : ℤ) := by rw [← zpow_natCast, ← zpow_split]; norm_num
      _ ≤ 2 ^ (-200 : ℤ) := small_zpow (by norm_num)
      _ ≤ b - a := hab
  have hlow : ∀ x : ℝ, 0 < x → D * x⁻¹ ≤ 2 ^ 40 → 2 ^ (-299 : ℤ) ≤ x := by
    intro x hx hle
    refine hbig.trans ?_
    rw [div_le_iff₀ (by norm_num)]
    rw [← div_eq_mul_inv, div_le_iff₀ hx] at hle
    have : b - a ≤ D := by rw [hD]; linarith [abs_nonneg a, abs_nonneg b]
    linarith
  have hp : 2 ^ (-300 : ℤ) ≤ w - a := halve_zpow (by simpa using hlow P hP (by linarith)) p1
  have hq : 2 ^ (-300 : ℤ) ≤ b - w := halve_zpow (by simpa using hlow Q hQ (by linarith)) q1
  obtain ⟨y, z, hy, hz, hyz⟩ := two_sided_flatten h hL ha hb hwm ha' hb' hw' hp hq
  have hz' : z = Real.log (w - a) - Real.log (b - w) := by
    simp only [unconstrain1, Flt.eq, Bool.false_eq_true, if_false, sub_fin, log_fin p3, log_fin q3] at hz
    injection hz with hz; exact hz.symm
  subst hz'
  refine ⟨w, y, hw, hy, by linarith, by linarith, ?_⟩
  have hc1 := hcap _ (show D * P⁻¹ ≤ 2 ^ 40 by linarith)
  have hc2 := hcap _ (show D * Q⁻¹ ≤ 2 ^ 40 by linarith)
  rw [mul_assoc] at p4 q4
  have g1 : |Real.log (w - a)| ≤ |Real.log (b - a)| + |t| + 2 := by
    have := abs_sub_abs_le_abs_sub (Real.log (w - a)) (Real.log P)
    linarith
  have g2 : |Real.log (b - w)| ≤ |Real.log (b - a)| + |t| + 2 := by
    have := abs_sub_abs_le_abs_sub (Real.log (b - w)) (Real.log Q)
    linarith
  have g3 : |y - t| ≤ |y - (Real.log (w - a) - Real.log (b - w))| + (|Real.log (w - a) - Real.log P| + |Real.log (b - w) - Real.log Q|) := by
    have e : y - t = (y - (Real.log (w - a) - Real.log (b - w))) + ((Real.log (w - a) - Real.log P) - (Real.log (b - w) - Real.log Q)) := by
      linarith
    rw [e]
    exact (abs_add_le _ _).trans (add_le_add le_rfl (abs_sub _ _))
  have g4 : uRound * (3 * |Real.log (w - a)| + 3 * |Real.log (b - w)| + 7) ≤ uRound * (6 * |Real.log (b - a)| + 6 * |t| + 19) :=
    mul_le_mul_of_nonneg_left (by linarith) hu.le
  have g5 : 56 ≤ D * P⁻¹ + D * Q⁻¹ := by
    rw [← hκ']
    have : 2 ≤ Real.exp t + Real.exp (-t) := by
      have := Real.add_one_le_exp t
      have := Real.add_one_le_exp (-t)
      linarith
    calc (56:ℝ) = 14 * 4 := by norm_num
      _ ≤ ((|a| + |b|) / (b - a) + 14) * (Real.exp t + Real.exp (-t) + 2) := mul_le_mul (by linarith) (by linarith) (by norm_num) (by linarith)
  have g6 : uRound * 56 ≤ uRound * (D * P⁻¹ + D * Q⁻¹) := mul_le_mul_of_nonneg_left g5 hu.le
  rw [mul_add] at g6
  generalize D * P⁻¹ = X at *
  generalize D * Q⁻¹ = Y at *
  have g7 : uRound * (6 * |Real.log (b - a)| + 6 * |t| + 19) = 6 * (uRound * |Real.log (b - a)|) + 6 * (uRound * |t|) + 19 * uRound := by ring
  have g8 : uRound * (2 * (X + Y) + 6 * |Real.log (b - a)| + 6 * |t|) =
    2 * (uRound * X) + 2 * (uRound * Y) + 6 * (uRound * |Real.log (b - a)|) + 6 * (uRound * |t|) := by ring
  clear hbig hlow hp hq hw' hab ha' hb'
  linarith

end Arith

end Paragami
