import Verif.Spec.RoundingTrip
import Verif.Proofs.RoundingSimplex

/-! # Round trips in rounded arithmetic -/

set_option linter.unusedSimpArgs false

namespace Paragami
open NDArray Flt

theorem rndReal_normal {x : ℝ} (hx : 2 ^ (-1022 : ℤ) ≤ |x|) : |rndReal x - x| ≤ 2 ^ (-53 : ℤ) * |x| := by
  have h := rndReal_near x
  have hpos : 0 < |x| := lt_of_lt_of_le (two_zpow_pos _) hx
  have h1 : (2:ℝ) ^ Int.log 2 |x| ≤ |x| := by
    have := Int.zpow_log_le_self (b := 2) (r := |x|) (by norm_num) hpos
    exact_mod_cast this
  have hk : (-1022 : ℤ) ≤ Int.log 2 |x| := by
    have := (Int.zpow_le_iff_le_log (b := 2) (x := -1022) (by norm_num) hpos).mp (by exact_mod_cast hx)
    exact this
  have hq : lastPlace x = Int.log 2 |x| - 52 := by unfold lastPlace; omega
  have h3 : (2:ℝ) ^ (Int.log 2 |x| - 52) = 2 ^ Int.log 2 |x| * (2 * 2 ^ (-53 : ℤ)) := by
    rw [sub_eq_add_neg, zpow_add₀ (by norm_num)]; norm_num
  have h53 := two_zpow_pos (-53)
  rw [hq, h3] at h
  generalize (2:ℝ) ^ Int.log 2 |x| = a at *
  generalize (2:ℝ) ^ (-53 : ℤ) = b at *
  nlinarith

namespace Arith
variable {A : Arith}

theorem zpow_split (a b : ℤ) : (2:ℝ) ^ (a + b) = 2 ^ a * 2 ^ b := zpow_add₀ (by norm_num) a b

theorem uRound_small : uRound * 2 ^ 53 = 1 := by unfold uRound; norm_num
theorem uRound_le : uRound ≤ 1 / 2 ^ 50 := by unfold uRound; norm_num

theorem Accurate.round_le (h : A.Accurate) {x : ℝ} (hx : |x| ≤ 2 ^ (1010 : ℤ)) : A.round (.fin x) = .fin (rndReal x) := by
  rw [h.round_fin]
  apply rnd64_of rfl
  have h1 := rndReal_rel x
  rw [uRound_val] at h1
  have h2 := tiny_le (e := -1075) (by norm_num)
  have h3 := uRound_le
  have h0 := uRound_pos
  have h4 : overflow64 = 2 ^ (1010 : ℤ) * 16384 := by
    rw [overflow64, show (1024 : ℤ) = 1010 + 14 by norm_num, zpow_split]; norm_num
  have h5 : (1:ℝ) ≤ 2 ^ (1010 : ℤ) := one_le_zpow₀ (by norm_num) (by norm_num)
  have h6 : |rndReal x| ≤ |x| + |rndReal x - x| := by
    have := abs_sub_abs_le_abs_sub (rndReal x) x; linarith
  rw [h4]
  generalize (2:ℝ) ^ (1010 : ℤ) = M at *
  generalize (2:ℝ) ^ (-1075 : ℤ) = t at *
  have h7 : uRound ≤ 1 := by norm_num at h3 ⊢; linarith
  have h8 : uRound / 2 ^ 100 ≤ 1 := by
    rw [div_le_one (by positivity)]; exact h7.trans (by norm_num)
  nlinarith [abs_nonneg x]

/-- Sums and differences of machine numbers. -/
theorem Accurate.add_rel (h : A.Accurate) {x y : ℝ} (hx : A.Machine (.fin x)) (hy : A.Machine (.fin y)) (hb : |x + y| ≤ 2 ^ (1010 : ℤ)) :
    ∃ z, A.add (.fin x) (.fin y) = .fin z ∧ |z - (x + y)| ≤ uRound * |x + y| := by
  refine ⟨rndReal (x + y), ?_, ?_⟩
  · rw [Arith.add, add_fin, h.round_le hb]
  · have := rndReal_add_rel (h.machine hx) (h.machine hy)
    rwa [uRound_val] at this

theorem Accurate.sub_rel (h : A.Accurate) {x y : ℝ} (hx : A.Machine (.fin x)) (hy : A.Machine (.fin y)) (hb : |x - y| ≤ 2 ^ (1010 : ℤ)) :
    ∃ z, A.sub (.fin x) (.fin y) = .fin z ∧ |z - (x - y)| ≤ uRound * |x - y| := by
  refine ⟨rndReal (x - y), ?_, ?_⟩
  · rw [Arith.sub, sub_fin, h.round_le hb]
  · have := rndReal_add_rel (y := -y) (h.machine hx) (by rw [rndReal_neg, h.machine hy])
    rwa [uRound_val, ← sub_eq_add_neg] at this

/-- Any result that is neither tiny nor huge. -/
theorem Accurate.round_rel (h : A.Accurate) {x : ℝ} (h1 : 2 ^ (-1022 : ℤ) ≤ |x|) (h2 : |x| ≤ 2 ^ (1010 : ℤ)) :
    ∃ z, A.round (.fin x) = .fin z ∧ |z - x| ≤ uRound * |x| := by
  refine ⟨rndReal x, h.round_le h2, ?_⟩
  have := rndReal_normal h1
  rwa [uRound_val] at this

/-- The logarithms of the numbers considered. -/
theorem abs_log_le {d : ℝ} (h1 : 2 ^ (-1005 : ℤ) ≤ d) (h2 : d ≤ 2 ^ (1005 : ℤ)) : |Real.log d| ≤ 699 := by
  have hd : 0 < d := lt_of_lt_of_le (two_zpow_pos _) h1
  have h3 := Real.log_le_log (two_zpow_pos _) h1
  have h4 := Real.log_le_log hd h2
  rw [Real.log_zpow] at h3 h4
  have := Real.log_two_lt_d9
  push_cast at h3 h4
  rw [abs_le]; constructor <;> linarith

/-- The computed logarithm of a slightly wrong number. -/
theorem LogAccurate.near (hL : A.LogAccurate) {d d' : ℝ} (h1 : 2 ^ (-1005 : ℤ) ≤ d) (h2 : d ≤ 2 ^ (1005 : ℤ)) (hd : |d' - d| ≤ uRound * d) :
    ∃ y, A.log (.fin d') = .fin y ∧ A.Machine (.fin y) ∧ |y - Real.log d| ≤ (2 * |Real.log d| + 3) * uRound := by
  have hu := uRound_pos
  have hu' := uRound_le
  have hd0 : 0 < d := lt_of_lt_of_le (two_zpow_pos _) h1
  have hu2 : uRound ≤ 1 / 8 := hu'.trans (by norm_num)
  have hd' := abs_le.mp hd
  obtain ⟨y, hy1, hy2⟩ := hL.log d' (by
      have e : (2:ℝ) ^ (-1074 : ℤ) * 2 ≤ 2 ^ (-1005 : ℤ) := by
        have := small_zpow (e := -1074 + 1) (f := -1005) (by norm_num)
        rwa [zpow_split, zpow_one] at this
      generalize (2:ℝ) ^ (-1074 : ℤ) = t at *
      generalize (2:ℝ) ^ (-1005 : ℤ) = s at *
      nlinarith) (by
      have e : (2:ℝ) ^ (1005 : ℤ) * 2 < overflow64 := by
        have : (2:ℝ) ^ (1005 + 1 : ℤ) < 2 ^ (1024 : ℤ) := zpow_lt_zpow_right₀ (by norm_num) (by norm_num)
        rwa [zpow_split, zpow_one] at this
      generalize (2:ℝ) ^ (1005 : ℤ) = s at *
      nlinarith)
  have hm := hL.machine (.fin d')
  rw [hy1] at hm
  refine ⟨y, hy1, hm, ?_⟩
  have h3 := log_perturbed hd0 (S' := d') (c := 1) (by simpa using hd) (by norm_num) (by norm_num)
  have h4 := tiny_le (e := -1074) (by norm_num)
  rw [uRound_val2] at hy2
  generalize (2:ℝ) ^ (-1074 : ℤ) = t at *
  have h5 : |Real.log d'| ≤ |Real.log d| + 2 * uRound := by
    have := abs_sub_abs_le_abs_sub (Real.log d') (Real.log d); linarith
  have h6 : |y - Real.log d| ≤ |y - Real.log d'| + |Real.log d' - Real.log d| := by
    have := abs_add_le (y - Real.log d') (Real.log d' - Real.log d)
    rwa [sub_add_sub_cancel] at this
  have h7 : uRound / 2 ^ 100 ≤ uRound / 4 := div_le_div_of_nonneg_left hu.le (by norm_num) (by norm_num)
  nlinarith

/-- The computed exponential, relative to its value. -/
theorem Accurate.exp_near (h : A.Accurate) {t t' c : ℝ} (hc : |t' - t| ≤ c * uRound) (hc1 : c ≤ 10000) (ht : |t| ≤ 700) :
    ∃ v, A.exp (.fin t') = .fin v ∧ |v - Real.exp t| ≤ (c + 4) * uRound * Real.exp t := by
  have hu := uRound_pos
  have hcu : c * uRound ≤ 1 / 2 ^ 36 := by
    have : uRound = 1 / 2 ^ 53 := rfl
    rw [this]
    have h7 : c * (1 / 2 ^ 53) ≤ 10000 * (1 / 2 ^ 53) := mul_le_mul_of_nonneg_right hc1 (by norm_num)
    refine h7.trans ?_
    norm_num
  have ht' := abs_le.mp ht
  have hδ' := abs_le.mp hc
  obtain ⟨v, h1, h2⟩ := h.exp t' (by
    have : (1:ℝ) / 2 ^ 36 ≤ 1 := by norm_num
    linarith)
  refine ⟨v, h1, ?_⟩
  rw [uRound_val2] at h2
  have hE := Real.exp_pos t
  have htiny : (2:ℝ) ^ (-1074 : ℤ) ≤ uRound / 4 * Real.exp t := by
    have h3 : Real.exp (-700) ≤ Real.exp t := Real.exp_le_exp.mpr ht'.1
    have h4 : (2:ℝ) ^ (-1010 : ℤ) ≤ Real.exp (-700) := by
      rw [Real.exp_neg, zpow_neg]
      exact inv_anti₀ (Real.exp_pos _) exp_sevenhundred
    have h5 : (2:ℝ) ^ (-1074 : ℤ) ≤ uRound / 4 * 2 ^ (-1010 : ℤ) := by
      rw [show (-1074 : ℤ) = -64 + -1010 by norm_num, zpow_split]
      refine mul_le_mul_of_nonneg_right ?_ (two_zpow_pos _).le
      unfold uRound; norm_num
    refine h5.trans (mul_le_mul_of_nonneg_left (h4.trans h3) (by positivity))
  set δ := t' - t with hδ
  have hd1 : |δ| ≤ 1 := hc.trans (hcu.trans (by norm_num))
  have h4 := exp_sub_one_le hd1
  have h5 : |Real.exp δ - 1| ≤ (c + 1) * uRound := by
    have h6 : δ ^ 2 ≤ uRound := by
      rw [← sq_abs]
      have h8 : |δ| ^ 2 ≤ (10000 * uRound) ^ 2 := by
        apply pow_le_pow_left₀ (abs_nonneg _)
        refine hc.trans ?_
        nlinarith
      refine h8.trans ?_
      unfold uRound; norm_num
    linarith
  have e1 : Real.exp t' = Real.exp t * Real.exp δ := by rw [← Real.exp_add, hδ]; ring_nf
  have h6 : |Real.exp t' - Real.exp t| ≤ (c + 1) * uRound * Real.exp t := by
    rw [e1, show Real.exp t * Real.exp δ - Real.exp t = Real.exp t * (Real.exp δ - 1) by ring, abs_mul, abs_of_pos hE]
    nlinarith
  have h7 : Real.exp t' ≤ (5 / 4) * Real.exp t := by
    have := (abs_le.mp h6).2
    have h8 : (c + 1) * uRound ≤ 1 / 4 := by
      have h9 := uRound_le
      have : (c + 1) * uRound = c * uRound + uRound := by ring
      rw [this]
      have : (1:ℝ) / 2 ^ 36 + 1 / 2 ^ 50 ≤ 1 / 4 := by norm_num
      linarith
    nlinarith
  have e2 : v - Real.exp t = (v - Real.exp t') + (Real.exp t' - Real.exp t) := by ring
  rw [e2]
  refine (abs_add_le _ _).trans ?_
  have h9 : 2 * uRound * Real.exp t' ≤ 5 / 2 * uRound * Real.exp t := by nlinarith
  generalize (2:ℝ) ^ (-1074 : ℤ) = tt at *
  nlinarith

/-- `exp` of `log`. -/
theorem exp_log_near (h : A.Accurate) (hL : A.LogAccurate) {d d' : ℝ} (h1 : 2 ^ (-1005 : ℤ) ≤ d) (h2 : d ≤ 2 ^ (1005 : ℤ))
    (hd : |d' - d| ≤ uRound * d) :
    ∃ y e, A.log (.fin d') = .fin y ∧ A.Machine (.fin y) ∧ A.exp (.fin y) = .fin e ∧ |e - d| ≤ (2 * |Real.log d| + 7) * uRound * d := by
  obtain ⟨y, hy1, hy2, hy3⟩ := hL.near h1 h2 hd
  have hb := abs_log_le h1 h2
  obtain ⟨e, he1, he2⟩ := h.exp_near hy3 (by linarith) (by linarith)
  rw [Real.exp_log (lt_of_lt_of_le (two_zpow_pos _) h1)] at he2
  exact ⟨y, e, hy1, hy2, he1, by rw [show 2 * |Real.log d| + 7 = 2 * |Real.log d| + 3 + 4 by ring]; exact he2⟩

end Arith

theorem binary64_logAccurate : binary64.LogAccurate where
  zero := by change round64 (Flt.log (.fin 0)) = _; rw [log_zero]; rfl
  machine x := by
    change round64 (round64 _) = round64 _
    cases x.log with
    | fin r => exact binary64_sane.idem r
    | _ => rfl
  log r hr hr' := by
    have h0 : 0 < r := lt_of_lt_of_le (two_zpow_pos _) hr
    have hb : |Real.log r| ≤ 1074 := by
      have h1 := Real.log_le_log (two_zpow_pos _) hr
      have h2 := Real.log_le_log h0 hr'.le
      rw [overflow64] at h2
      rw [Real.log_zpow] at h1 h2
      have := Real.log_two_lt_d9
      have := Real.log_two_gt_d9
      push_cast at h1 h2
      rw [abs_le]; constructor <;> linarith
    have hrel : |rndReal (Real.log r) - Real.log r| ≤ 2 ^ (-52 : ℤ) * |Real.log r| + 2 ^ (-1074 : ℤ) := by
      have h := rndReal_rel (Real.log r)
      have h1 : (2:ℝ) ^ (-53 : ℤ) ≤ 2 ^ (-52 : ℤ) := zpow_le_zpow_right₀ (by norm_num) (by norm_num)
      have h2 : (2:ℝ) ^ (-1075 : ℤ) ≤ 2 ^ (-1074 : ℤ) := zpow_le_zpow_right₀ (by norm_num) (by norm_num)
      nlinarith [abs_nonneg (Real.log r)]
    refine ⟨rndReal (Real.log r), ?_, hrel⟩
    change round64 (Flt.log (.fin r)) = _
    rw [log_fin h0]
    exact binary64_accurate.round_le (hb.trans ((show (1074:ℝ) ≤ 2 ^ (11:ℤ) by norm_num).trans (Arith.small_zpow (by norm_num))))

namespace Arith
variable {A : Arith}

/-! ### One-sided bounds -/

theorem size_sub {a v : ℝ} (ha : |a| ≤ 2 ^ (1000 : ℤ)) (hv : |v| ≤ 2 ^ (1000 : ℤ)) : |v - a| ≤ 2 ^ (1001 : ℤ) := by
  have e : (2:ℝ) ^ (1001 : ℤ) = 2 ^ (1000 : ℤ) * 2 := by rw [show (1001 : ℤ) = 1000 + 1 by norm_num, zpow_split, zpow_one]
  rw [e]
  have := abs_sub v a
  generalize (2:ℝ) ^ (1000 : ℤ) = M at *
  linarith

/-- The last step: a slightly wrong distance is added to a bound. -/
theorem add_back {d e v w c : ℝ} (hd : 0 ≤ d) (he : |e - d| ≤ c * uRound * d) (hcu : c * uRound ≤ 1)
    (hw : |w - (v + (e - d))| ≤ uRound * |v + (e - d)|) : |w - v| ≤ uRound * (|v| + (c + 1) * d) := by
  have hu := uRound_pos
  have h1 : |v + (e - d)| ≤ |v| + |e - d| := abs_add_le _ _
  have h2 : |w - v| ≤ |w - (v + (e - d))| + |e - d| := by
    have := abs_add_le (w - (v + (e - d))) (e - d)
    rwa [show w - (v + (e - d)) + (e - d) = w - v by ring] at this
  have h3 : |e - d| ≤ d := he.trans (by nlinarith)
  have h4 : uRound * |v + (e - d)| ≤ uRound * (|v| + d) := mul_le_mul_of_nonneg_left (by linarith) hu.le
  nlinarith

theorem small_coeff {c : ℝ} (hc : c ≤ 10000) : c * uRound ≤ 1 / 2 := by
  have : uRound = 1 / 2 ^ 53 := rfl
  rw [this]
  have h7 : c * (1 / 2 ^ 53) ≤ 10000 * (1 / 2 ^ 53) := mul_le_mul_of_nonneg_right hc (by norm_num)
  refine h7.trans ?_
  norm_num

theorem size_result {v e d : ℝ} (hv : |v| ≤ 2 ^ (1000 : ℤ)) (hd : d ≤ 2 ^ (1001 : ℤ)) (he : |e - d| ≤ d) : |v + (e - d)| ≤ 2 ^ (1010 : ℤ) := by
  have e1 : (2:ℝ) ^ (1001 : ℤ) = 2 ^ (1000 : ℤ) * 2 := by rw [show (1001 : ℤ) = 1000 + 1 by norm_num, zpow_split, zpow_one]
  have e2 : (2:ℝ) ^ (1010 : ℤ) = 2 ^ (1000 : ℤ) * 1024 := by rw [show (1010 : ℤ) = 1000 + 10 by norm_num, zpow_split]; norm_num
  have h1 : |v + (e - d)| ≤ |v| + |e - d| := abs_add_le _ _
  have h0 := two_zpow_pos 1000
  rw [e1] at hd
  rw [e2]
  clear e1 e2
  generalize (2:ℝ) ^ (1000 : ℤ) = M at *
  linarith

theorem lower_trip (hs : A.Sane) (h : A.Accurate) (hL : A.LogAccurate) {a v : ℝ} (ha : A.Machine (.fin a)) (hv : A.Machine (.fin v))
    (ha' : |a| ≤ 2 ^ (1000 : ℤ)) (hv' : |v| ≤ 2 ^ (1000 : ℤ)) (hd : 2 ^ (-1000 : ℤ) ≤ v - a) :
    ∃ y w, unconstrain1A A (.fin a) .pinf (.fin v) = .fin y ∧ constrain1A A (.fin a) .pinf (.fin y) = .fin w ∧
      |w - v| ≤ uRound * (|v| + (2 * |Real.log (v - a)| + 8) * (v - a)) := by
  have hd0 : 0 < v - a := lt_of_lt_of_le (two_zpow_pos _) hd
  have hsz := size_sub ha' hv'
  rw [abs_of_pos hd0] at hsz
  have hsz' : v - a ≤ 2 ^ (1005 : ℤ) := hsz.trans (small_zpow (by norm_num))
  have hd' : 2 ^ (-1005 : ℤ) ≤ v - a := (small_zpow (by norm_num)).trans hd
  obtain ⟨d', hd1, hd2⟩ := h.sub_rel hv ha (by rw [abs_of_pos hd0]; exact hsz.trans (small_zpow (by norm_num)))
  rw [abs_of_pos hd0] at hd2
  obtain ⟨y, e, hy, _, he, hed⟩ := exp_log_near h hL hd' hsz' hd2
  have hb := abs_log_le hd' hsz'
  have hc := small_coeff (c := 2 * |Real.log (v - a)| + 7) (by linarith)
  have hem := hs.exp_machine (.fin y)
  rw [he] at hem
  have hle : |e - (v - a)| ≤ v - a := hed.trans (by nlinarith)
  have e1 : e + a = v + (e - (v - a)) := by ring
  obtain ⟨w, hw1, hw2⟩ := h.add_rel hem ha (by rw [e1]; exact size_result hv' hsz hle)
  rw [e1] at hw2
  refine ⟨y, w, ?_, ?_, ?_⟩
  · simp only [unconstrain1A, Flt.eq, if_true, hd1, hy, Bool.false_eq_true, if_false]
  · simp only [constrain1A, Flt.eq, if_true, he, hw1, Bool.false_eq_true, if_false]
  · have := add_back hd0.le hed (by linarith) hw2
    rwa [show 2 * |Real.log (v - a)| + 7 + 1 = 2 * |Real.log (v - a)| + 8 by ring] at this

theorem neg_one_mul_machine (hs : A.Sane) {y : ℝ} (hy : A.Machine (.fin y)) : A.mul (.fin (-1)) (.fin y) = .fin (-y) := by
  rw [Arith.mul, mul_fin, neg_one_mul]
  exact hs.neg y hy

theorem upper_trip (hs : A.Sane) (h : A.Accurate) (hL : A.LogAccurate) {b v : ℝ} (hb : A.Machine (.fin b)) (hv : A.Machine (.fin v))
    (hb' : |b| ≤ 2 ^ (1000 : ℤ)) (hv' : |v| ≤ 2 ^ (1000 : ℤ)) (hd : 2 ^ (-1000 : ℤ) ≤ b - v) :
    ∃ y w, unconstrain1A A .ninf (.fin b) (.fin v) = .fin y ∧ constrain1A A .ninf (.fin b) (.fin y) = .fin w ∧
      |w - v| ≤ uRound * (|v| + (2 * |Real.log (b - v)| + 8) * (b - v)) := by
  have hd0 : 0 < b - v := lt_of_lt_of_le (two_zpow_pos _) hd
  have hsz := size_sub hv' hb'
  rw [abs_of_pos hd0] at hsz
  have hsz' : b - v ≤ 2 ^ (1005 : ℤ) := hsz.trans (small_zpow (by norm_num))
  have hd' : 2 ^ (-1005 : ℤ) ≤ b - v := (small_zpow (by norm_num)).trans hd
  obtain ⟨d', hd1, hd2⟩ := h.sub_rel hb hv (by rw [abs_of_pos hd0]; exact hsz.trans (small_zpow (by norm_num)))
  rw [abs_of_pos hd0] at hd2
  obtain ⟨y, e, hy, hym, he, hed⟩ := exp_log_near h hL hd' hsz' hd2
  have hbd := abs_log_le hd' hsz'
  have hc := small_coeff (c := 2 * |Real.log (b - v)| + 7) (by linarith)
  have hem := hs.exp_machine (.fin y)
  rw [he] at hem
  have hle : |e - (b - v)| ≤ b - v := hed.trans (by nlinarith)
  have hsz2 : |b - e| ≤ 2 ^ (1010 : ℤ) := by
    have := size_result (e := 2 * (b - v) - e) hv' hsz (by
      rw [show 2 * (b - v) - e - (b - v) = -(e - (b - v)) by ring, abs_neg]; exact hle)
    rwa [show v + (2 * (b - v) - e - (b - v)) = b - e by ring] at this
  obtain ⟨w, hw1, hw2⟩ := h.sub_rel hb hem hsz2
  refine ⟨-y, w, ?_, ?_, ?_⟩
  · simp only [unconstrain1A, Flt.eq, if_true, hd1, hy, Bool.false_eq_true, if_false]
    exact neg_one_mul_machine hs hym
  · simp only [constrain1A, Flt.eq, if_true, Bool.false_eq_true, if_false]
    rw [neg_one_mul_machine hs (hs.neg _ hym), neg_neg, he, hw1]
  · have := add_back (v := v) (w := w) (e := 2 * (b - v) - e) hd0.le (c := 2 * |Real.log (b - v)| + 7) (by
      rw [show 2 * (b - v) - e - (b - v) = -(e - (b - v)) by ring, abs_neg]; exact hed) (by linarith) (by
      rw [show v + (2 * (b - v) - e - (b - v)) = b - e by ring]; exact hw2)
    rwa [show 2 * |Real.log (b - v)| + 7 + 1 = 2 * |Real.log (b - v)| + 8 by ring] at this

/-! ### Two bounds -/

theorem ratio_near {W W' E N D Q : ℝ} (hW : 0 < W) (hE : 0 < E) (h1 : |W' - W| ≤ uRound * W) (h2 : |N - W' * E| ≤ uRound * (W' * E))
    (h3 : |D - (1 + E)| ≤ uRound * (1 + E)) (h4 : |Q - N / D| ≤ uRound * (N / D)) :
    |Q - W * E / (1 + E)| ≤ 6 * uRound * (W * E / (1 + E)) := by
  have hu := uRound_pos
  have hu' : uRound ≤ 1 / 100 := uRound_le.trans (by norm_num)
  generalize uRound = u at *
  rw [abs_le] at h1 h2 h3 h4
  have hF : 0 < 1 + E := by linarith
  have hWE : 0 < W * E := mul_pos hW hE
  have hW1 : (1 - u) * W ≤ W' := by linarith
  have hW2 : W' ≤ (1 + u) * W := by linarith
  have hWE1 : (1 - u) * (W * E) ≤ W' * E := by nlinarith
  have hWE2 : W' * E ≤ (1 + u) * (W * E) := by nlinarith
  have hN1 : (1 - u) * ((1 - u) * (W * E)) ≤ N := by nlinarith
  have hN2 : N ≤ (1 + u) * ((1 + u) * (W * E)) := by nlinarith
  have hD1 : (1 - u) * (1 + E) ≤ D := by linarith
  have hD2 : D ≤ (1 + u) * (1 + E) := by linarith
  have hD0 : 0 < D := lt_of_lt_of_le (by nlinarith) hD1
  set X := W * E / (1 + E) with hX
  have hXF : X * (1 + E) = W * E := by rw [hX]; field_simp
  have hX0 : 0 < X := by positivity
  have hR1 : (1 - 4 * u) * X ≤ N / D := by
    rw [le_div_iff₀ hD0]
    have a1 : (1 - 4 * u) * X * D ≤ (1 - 4 * u) * X * ((1 + u) * (1 + E)) := mul_le_mul_of_nonneg_left hD2 (by nlinarith)
    have a2 : (1 - 4 * u) * X * ((1 + u) * (1 + E)) = (1 - 4 * u) * (1 + u) * (W * E) := by rw [← hXF]; ring
    have a3 : (1 - 4 * u) * (1 + u) * (W * E) ≤ (1 - u) * (1 - u) * (W * E) := mul_le_mul_of_nonneg_right (by nlinarith) hWE.le
    nlinarith
  have hR2 : N / D ≤ (1 + 4 * u) * X := by
    rw [div_le_iff₀ hD0]
    have a1 : (1 + 4 * u) * X * ((1 - u) * (1 + E)) ≤ (1 + 4 * u) * X * D := mul_le_mul_of_nonneg_left hD1 (by positivity)
    have a2 : (1 + 4 * u) * X * ((1 - u) * (1 + E)) = (1 + 4 * u) * (1 - u) * (W * E) := by rw [← hXF]; ring
    have a3 : (1 + u) * (1 + u) * (W * E) ≤ (1 + 4 * u) * (1 - u) * (W * E) := mul_le_mul_of_nonneg_right (by nlinarith) hWE.le
    nlinarith
  generalize N / D = R at *
  rw [abs_le]
  constructor
  · have : (1 - u) * ((1 - 4 * u) * X) ≤ (1 - u) * R := mul_le_mul_of_nonneg_left hR1 (by linarith)
    nlinarith [mul_pos hu hX0]
  · have : (1 + u) * R ≤ (1 + u) * ((1 + 4 * u) * X) := mul_le_mul_of_nonneg_left hR2 (by linarith)
    have : u * u * X ≤ u * (1 / 100) * X := by nlinarith [mul_pos hu hX0]
    nlinarith [mul_pos hu hX0]

/-- How an error in the ratio of the distances moves the value. -/
theorem logistic_near {p q E c : ℝ} (hp : 0 < p) (hq : 0 < q) (hc0 : 0 ≤ c) (hc : c ≤ 10000) (hE : |E - p / q| ≤ c * uRound * (p / q)) :
    0 < E ∧ |(p + q) * E / (1 + E) - p| ≤ (c + 1) * uRound * (p * q / (p + q)) := by
  have hu := uRound_pos
  have hcu := small_coeff hc
  set r := p / q with hr
  have hr0 : 0 < r := div_pos hp hq
  have hpr : p = r * q := by rw [hr]; field_simp
  have hE' := abs_le.mp hE
  have hE0 : 0 < E := by nlinarith
  refine ⟨hE0, ?_⟩
  have hW : p + q = (1 + r) * q := by rw [hpr]; ring
  have e1 : (p + q) * E / (1 + E) - p = q * (E - r) / (1 + E) := by
    rw [hW, hpr]; field_simp; ring
  have e2 : p * q / (p + q) = q * r / (1 + r) := by
    rw [hW, hpr]; field_simp
  rw [e1, e2, abs_div, abs_mul, abs_of_pos hq, abs_of_pos (show 0 < 1 + E by linarith), div_le_iff₀ (by linarith)]
  have h1 : (1 - c * uRound) * (1 + r) ≤ 1 + E := by nlinarith
  have h2 : q * |E - r| ≤ q * (c * uRound * r) := mul_le_mul_of_nonneg_left hE hq.le
  have h3 : (c + 1) * uRound * (q * r / (1 + r)) * ((1 - c * uRound) * (1 + r)) ≤ (c + 1) * uRound * (q * r / (1 + r)) * (1 + E) :=
    mul_le_mul_of_nonneg_left h1 (by positivity)
  have h4 : (c + 1) * uRound * (q * r / (1 + r)) * ((1 - c * uRound) * (1 + r)) = ((c + 1) * (1 - c * uRound)) * uRound * (q * r) := by
    field_simp
  have h5 : c ≤ (c + 1) * (1 - c * uRound) := by
    have : c * ((c + 1) * uRound) ≤ 1 := by
      have hh : uRound = 1 / 2 ^ 53 := rfl
      rw [hh]
      have : c * ((c + 1) * (1 / 2 ^ 53)) ≤ 10000 * (10001 * (1 / 2 ^ 53)) := by
        apply mul_le_mul hc _ (by positivity) (by norm_num)
        apply mul_le_mul_of_nonneg_right (by linarith) (by norm_num)
      refine this.trans ?_
      norm_num
    nlinarith
  have h6 : c * (uRound * (q * r)) ≤ ((c + 1) * (1 - c * uRound)) * (uRound * (q * r)) := mul_le_mul_of_nonneg_right h5 (by positivity)
  nlinarith

theorem size_sub' {a v : ℝ} (ha : |a| ≤ 2 ^ (300 : ℤ)) (hv : |v| ≤ 2 ^ (300 : ℤ)) : |v - a| ≤ 2 ^ (301 : ℤ) := by
  have e : (2:ℝ) ^ (301 : ℤ) = 2 ^ (300 : ℤ) * 2 := by rw [show (301 : ℤ) = 300 + 1 by norm_num, zpow_split, zpow_one]
  rw [e]
  have := abs_sub v a
  generalize (2:ℝ) ^ (300 : ℤ) = M at *
  linarith

theorem abs_log_le' {d : ℝ} (h1 : 2 ^ (-300 : ℤ) ≤ d) (h2 : d ≤ 2 ^ (301 : ℤ)) : |Real.log d| ≤ 210 := by
  have hd : 0 < d := lt_of_lt_of_le (two_zpow_pos _) h1
  have h3 := Real.log_le_log (two_zpow_pos _) h1
  have h4 := Real.log_le_log hd h2
  rw [Real.log_zpow] at h3 h4
  have := Real.log_two_lt_d9
  push_cast at h3 h4
  rw [abs_le]; constructor <;> linarith

theorem up_zpow {x : ℝ} {e f : ℤ} (hx : x ≤ 2 ^ e) (h : e ≤ f) : x ≤ 2 ^ f := hx.trans (small_zpow h)
theorem dn_zpow {x : ℝ} {e f : ℤ} (hx : 2 ^ e ≤ x) (h : f ≤ e) : 2 ^ f ≤ x := (small_zpow h).trans hx

theorem double_zpow {x y : ℝ} {e : ℤ} (hx : x ≤ 2 ^ e) (hy : y ≤ 2 * x) : y ≤ 2 ^ (e + 1) := by
  rw [zpow_split, zpow_one]
  generalize (2:ℝ) ^ e = t at *
  linarith

theorem halve_zpow {x y : ℝ} {e : ℤ} (hx : 2 ^ (e + 1) ≤ x) (hy : x ≤ 2 * y) : 2 ^ e ≤ y := by
  rw [zpow_split, zpow_one] at hx
  generalize (2:ℝ) ^ e = t at *
  linarith

/-- The difference of two computed logarithms. -/
theorem log_ratio (h : A.Accurate) {P Q lp lq : ℝ} (hbp : |Real.log P| ≤ 210) (hbq : |Real.log Q| ≤ 210)
    (hlp : A.Machine (.fin lp)) (hlq : A.Machine (.fin lq)) (h1 : |lp - Real.log P| ≤ (2 * |Real.log P| + 3) * uRound)
    (h2 : |lq - Real.log Q| ≤ (2 * |Real.log Q| + 3) * uRound) :
    ∃ y, A.sub (.fin lp) (.fin lq) = .fin y ∧
      |y - (Real.log P - Real.log Q)| ≤ (3 * |Real.log P| + 3 * |Real.log Q| + 7) * uRound := by
  have hu := uRound_pos
  have hll : |lp - lq| ≤ |Real.log P| + |Real.log Q| + 1 := by
    have g1 : |lp - lq| ≤ |lp - Real.log P| + (|Real.log P| + |Real.log Q|) + |lq - Real.log Q| := by
      rw [abs_le]
      have b1 := abs_le.mp (le_refl |lp - Real.log P|)
      have b2 := abs_le.mp (le_refl |lq - Real.log Q|)
      have b3 := abs_le.mp (le_refl |Real.log P|)
      have b4 := abs_le.mp (le_refl |Real.log Q|)
      constructor <;> linarith
    have g2 : (2 * |Real.log P| + 3) * uRound ≤ 1 / 2 := small_coeff (by linarith)
    have g3 : (2 * |Real.log Q| + 3) * uRound ≤ 1 / 2 := small_coeff (by linarith)
    linarith
  obtain ⟨y, hy1, hy2⟩ := h.sub_rel hlp hlq (hll.trans (up_zpow (e := 9) (by norm_num; linarith) (by norm_num)))
  refine ⟨y, hy1, ?_⟩
  have g1 : |y - (Real.log P - Real.log Q)| ≤ |y - (lp - lq)| + (|lp - Real.log P| + |lq - Real.log Q|) := by
    rw [abs_le]
    have b1 := abs_le.mp (le_refl |lp - Real.log P|)
    have b2 := abs_le.mp (le_refl |lq - Real.log Q|)
    have b3 := abs_le.mp (le_refl |y - (lp - lq)|)
    constructor <;> linarith
  have g2 : uRound * |lp - lq| ≤ uRound * (|Real.log P| + |Real.log Q| + 1) := mul_le_mul_of_nonneg_left hll hu.le
  nlinarith

/-- `(ub - lb) * exp_vec / (1 + exp_vec)` with a slightly wrong `exp_vec`. -/
theorem scaled_logistic (hs : A.Sane) (h : A.Accurate) {P Q W' E c : ℝ} (hp : 2 ^ (-300 : ℤ) ≤ P) (hq : 2 ^ (-300 : ℤ) ≤ Q)
    (hps : P ≤ 2 ^ (301 : ℤ)) (hqs : Q ≤ 2 ^ (301 : ℤ)) (hW2 : |W' - (P + Q)| ≤ uRound * (P + Q)) (hEm : A.Machine (.fin E))
    (hc0 : 0 ≤ c) (hc1 : c ≤ 2000) (hE2 : |E - P / Q| ≤ (c + 4) * uRound * (P / Q)) :
    ∃ R, A.div (A.mul (.fin W') (.fin E)) (A.add 1 (.fin E)) = .fin R ∧ A.Machine (.fin R) ∧
      |R - P| ≤ 7 * uRound * P + (c + 5) * uRound * (P * Q / (P + Q)) ∧ |R - P| ≤ P := by
  have hu := uRound_pos
  have hu' : uRound ≤ 1 / 100000 := uRound_le.trans (by norm_num)
  have hp0 : 0 < P := lt_of_lt_of_le (two_zpow_pos _) hp
  have hq0 : 0 < Q := lt_of_lt_of_le (two_zpow_pos _) hq
  obtain ⟨hE0, hnear⟩ := logistic_near (c := c + 4) hp0 hq0 (by linarith) (by linarith) hE2
  have hcu := small_coeff (c := c + 4) (by linarith)
  have hr0 : 0 < P / Q := div_pos hp0 hq0
  have hE3 : P / Q ≤ 2 * E ∧ E ≤ 2 * (P / Q) := by
    have := abs_le.mp hE2
    clear hp hq hps hqs hW2 hnear
    generalize P / Q = r at *
    constructor <;> nlinarith
  have hru : P / Q ≤ 2 ^ (601 : ℤ) := by
    rw [div_le_iff₀ hq0]
    have e : (2:ℝ) ^ (601 : ℤ) * 2 ^ (-300 : ℤ) = 2 ^ (301 : ℤ) := by rw [← zpow_split]; norm_num
    have := mul_le_mul_of_nonneg_left hq (two_zpow_pos 601).le
    rw [e] at this
    exact hps.trans this
  have hrl : 2 ^ (-601 : ℤ) ≤ P / Q := by
    rw [le_div_iff₀ hq0]
    have e : (2:ℝ) ^ (-601 : ℤ) * 2 ^ (301 : ℤ) = 2 ^ (-300 : ℤ) := by rw [← zpow_split]; norm_num
    have := mul_le_mul_of_nonneg_left hqs (two_zpow_pos (-601)).le
    rw [e] at this
    exact this.trans hp
  have hEu : E ≤ 2 ^ (602 : ℤ) := double_zpow (e := 601) hru hE3.2
  have hEl : 2 ^ (-602 : ℤ) ≤ E := halve_zpow (e := -602) (by simpa using hrl) hE3.1
  have hW3 : P + Q ≤ 2 * W' ∧ W' ≤ 2 * (P + Q) := by
    have := abs_le.mp hW2
    clear hp hq hps hqs hW2 hnear hru hrl hEu hEl
    constructor <;> nlinarith
  have hwu : P + Q ≤ 2 ^ (302 : ℤ) := by
    have e : (2:ℝ) ^ (302 : ℤ) = 2 ^ (301 : ℤ) + 2 ^ (301 : ℤ) := by
      rw [show (302 : ℤ) = 301 + 1 by norm_num, zpow_split, zpow_one]; ring
    rw [e]; exact add_le_add hps hqs
  have hWu : W' ≤ 2 ^ (303 : ℤ) := double_zpow (e := 302) hwu hW3.2
  have hWl : 2 ^ (-301 : ℤ) ≤ W' := halve_zpow (e := -301) (show 2 ^ (-301 + 1 : ℤ) ≤ P + Q from hp.trans (by linarith)) hW3.1
  have hW0 : 0 < W' := lt_of_lt_of_le (two_zpow_pos _) hWl
  have hWE : 0 < W' * E := mul_pos hW0 hE0
  obtain ⟨N, hN1, hN2⟩ := h.round_rel (x := W' * E) (by
    rw [abs_of_pos hWE]
    refine (small_zpow (show (-1022 : ℤ) ≤ -301 + -602 by norm_num)).trans ?_
    rw [zpow_split]
    exact mul_le_mul hWl hEl (two_zpow_pos _).le hW0.le) (by
    rw [abs_of_pos hWE]
    refine le_trans ?_ (small_zpow (show (303 + 602 : ℤ) ≤ 1010 by norm_num))
    rw [zpow_split]
    exact mul_le_mul hWu hEu hE0.le (two_zpow_pos _).le)
  rw [abs_of_pos hWE] at hN2
  have h1E : 0 < 1 + E := by linarith
  obtain ⟨D, hD1, hD2⟩ := h.add_rel hs.one_machine hEm (by
    rw [abs_of_pos h1E]
    have e : (2:ℝ) ^ (603 : ℤ) = 2 ^ (602 : ℤ) + 2 ^ (602 : ℤ) := by
      rw [show (603 : ℤ) = 602 + 1 by norm_num, zpow_split, zpow_one]; ring
    have h1 : (1:ℝ) ≤ 2 ^ (602 : ℤ) := one_le_zpow₀ (by norm_num) (by norm_num)
    have h2 : 1 + E ≤ 2 ^ (603 : ℤ) := by rw [e]; exact add_le_add h1 hEu
    exact up_zpow h2 (by norm_num))
  rw [abs_of_pos h1E] at hD2
  have hN0 : 0 < N := by
    have := (abs_le.mp hN2).1
    have : uRound * (W' * E) ≤ 1 / 100000 * (W' * E) := mul_le_mul_of_nonneg_right hu' hWE.le
    linarith
  have hD0 : 0 < D := by
    have := (abs_le.mp hD2).1
    have : uRound * (1 + E) ≤ 1 / 100000 * (1 + E) := mul_le_mul_of_nonneg_right hu' h1E.le
    linarith
  have hX := abs_le.mp hnear
  have hPQ' : 0 < P * Q / (P + Q) := by positivity
  have hmin : P * Q / (P + Q) ≤ P := by
    rw [div_le_iff₀ (by linarith)]
    have := mul_pos hp0 hp0
    linarith [mul_add P P Q]
  have hpre := ratio_near (W := P + Q) (Q := N / D) (by linarith) hE0 hW2 hN2 hD2 (by
    rw [sub_self, abs_zero]; positivity)
  set X := (P + Q) * E / (1 + E) with hXdef
  have hsm : (c + 4 + 1) * uRound ≤ 1 / 10 := by
    have : (c + 4 + 1) * uRound ≤ 2005 * (1 / 100000) := mul_le_mul (by linarith) hu' hu.le (by norm_num)
    linarith
  have hbd : (c + 4 + 1) * uRound * (P * Q / (P + Q)) ≤ 1 / 10 * P := mul_le_mul hsm hmin hPQ'.le (by norm_num)
  have hX1 : 9 / 10 * P ≤ X := by linarith
  have hX2 : X ≤ 11 / 10 * P := by linarith
  have hX0 : 0 < X := by linarith
  have hsix : 6 * uRound * X ≤ 1 / 10 * X := mul_le_mul_of_nonneg_right (by linarith) hX0.le
  have hND1 : P ≤ 2 * (N / D) := by have := (abs_le.mp hpre).1; linarith
  have hND2 : N / D ≤ 2 * P := by have := (abs_le.mp hpre).2; linarith
  have hND0 : 0 < N / D := div_pos hN0 hD0
  obtain ⟨R, hR1, hR2⟩ := h.round_rel (x := N / D) (by
    rw [abs_of_pos hND0]
    exact dn_zpow (halve_zpow (e := -301) (show 2 ^ (-301 + 1 : ℤ) ≤ P from hp) hND1) (by norm_num)) (by
    rw [abs_of_pos hND0]
    exact up_zpow (double_zpow hps hND2) (by norm_num))
  rw [abs_of_pos hND0] at hR2
  have hRX := ratio_near (W := P + Q) (by linarith) hE0 hW2 hN2 hD2 hR2
  rw [← hXdef] at hRX
  have hRm : A.Machine (.fin R) := by
    have := hs.idem (N / D)
    rwa [show A.rnd (N / D) = .fin R from hR1] at this
  have h1 : |R - P| ≤ |R - X| + |X - P| := by
    have := abs_add_le (R - X) (X - P)
    rwa [sub_add_sub_cancel] at this
  have h3 : 6 * uRound * X ≤ 6 * uRound * (11 / 10 * P) := mul_le_mul_of_nonneg_left hX2 (by positivity)
  have h4 : c + 4 + 1 = c + 5 := by ring
  rw [h4] at hnear hbd
  have hup := mul_pos hu hp0
  refine ⟨R, ?_, hRm, ?_, ?_⟩
  · have h1 : (1 : Flt) = .fin 1 := by change Flt.fin ((1:ℕ):ℝ) = _; simp
    have hm : A.mul (.fin W') (.fin E) = .fin N := by rw [Arith.mul, mul_fin, hN1]
    rw [h1, hm, hD1, Arith.div, div_fin _ _ hD0.ne', hR1]
  · linarith
  · linarith

theorem two_sided_trip (hs : A.Sane) (h : A.Accurate) (hL : A.LogAccurate) {a b v : ℝ} (ha : A.Machine (.fin a)) (hb : A.Machine (.fin b))
    (hv : A.Machine (.fin v)) (ha' : |a| ≤ 2 ^ (300 : ℤ)) (hb' : |b| ≤ 2 ^ (300 : ℤ)) (hv' : |v| ≤ 2 ^ (300 : ℤ))
    (hp : 2 ^ (-300 : ℤ) ≤ v - a) (hq : 2 ^ (-300 : ℤ) ≤ b - v) :
    ∃ y w, unconstrain1A A (.fin a) (.fin b) (.fin v) = .fin y ∧ constrain1A A (.fin a) (.fin b) (.fin y) = .fin w ∧
      |w - v| ≤ uRound * (|v| + 8 * (v - a) +
        (3 * |Real.log (v - a)| + 3 * |Real.log (b - v)| + 13) * ((v - a) * (b - v) / (b - a))) := by
  have hu := uRound_pos
  have hp0 : 0 < v - a := lt_of_lt_of_le (two_zpow_pos _) hp
  have hq0 : 0 < b - v := lt_of_lt_of_le (two_zpow_pos _) hq
  have hps := size_sub' ha' hv'
  have hqs := size_sub' hv' hb'
  have hws := size_sub' ha' hb'
  rw [abs_of_pos hp0] at hps
  rw [abs_of_pos hq0] at hqs
  have hw0 : 0 < b - a := by linarith
  have up' : ∀ {x : ℝ}, 0 < x → x ≤ 2 ^ (301 : ℤ) → |x| ≤ 2 ^ (1010 : ℤ) := fun h0 hx => by
    rw [abs_of_pos h0]; exact up_zpow hx (by norm_num)
  obtain ⟨p', hp1, hp2⟩ := h.sub_rel hv ha (up' hp0 hps)
  obtain ⟨q', hq1, hq2⟩ := h.sub_rel hb hv (up' hq0 hqs)
  obtain ⟨W', hW1, hW2⟩ := h.sub_rel hb ha (up_zpow hws (by norm_num))
  rw [abs_of_pos hp0] at hp2
  rw [abs_of_pos hq0] at hq2
  rw [abs_of_pos hw0, show b - a = (v - a) + (b - v) by ring] at hW2
  obtain ⟨lp, hlp1, hlp2, hlp3⟩ := hL.near (dn_zpow hp (by norm_num)) (up_zpow hps (by norm_num)) hp2
  obtain ⟨lq, hlq1, hlq2, hlq3⟩ := hL.near (dn_zpow hq (by norm_num)) (up_zpow hqs (by norm_num)) hq2
  have hbp := abs_log_le' hp hps
  have hbq := abs_log_le' hq hqs
  obtain ⟨y, hy1, hyt⟩ := log_ratio h hbp hbq hlp2 hlq2 hlp3 hlq3
  obtain ⟨E, hE1, hE2⟩ := h.exp_near hyt (by linarith) (by
    have b3 := abs_le.mp hbp
    have b4 := abs_le.mp hbq
    rw [abs_le]; constructor <;> linarith)
  rw [Real.exp_sub, Real.exp_log hp0, Real.exp_log hq0] at hE2
  have hEm := hs.exp_machine (.fin y)
  rw [hE1] at hEm
  obtain ⟨R, hR1, hRm, hRP, hRP'⟩ := scaled_logistic hs h hp hq hps hqs hW2 hEm
    (c := 3 * |Real.log (v - a)| + 3 * |Real.log (b - v)| + 7) (by positivity) (by linarith) hE2
  have e1 : R + a = v + (R - (v - a)) := by ring
  obtain ⟨w, hw1, hw2⟩ := h.add_rel hRm ha (by
    rw [e1]; exact size_result (up_zpow hv' (by norm_num)) (up_zpow hps (by norm_num)) hRP')
  rw [e1] at hw2
  refine ⟨y, w, ?_, ?_, ?_⟩
  · simp only [unconstrain1A, Flt.eq, Bool.false_eq_true, if_false, hp1, hq1, hlp1, hlq1, hy1]
  · simp only [constrain1A, Flt.eq, Bool.false_eq_true, if_false, hE1, hW1, hR1, hw1]
  · have hPQ' : 0 < (v - a) * (b - v) / ((v - a) + (b - v)) := by positivity
    rw [show b - a = (v - a) + (b - v) by ring]
    clear hp hq hps hqs hws hW2 hp2 hq2 hE2 hlp3 hlq3 ha' hb' hv'
    have h2 : |w - v| ≤ |w - (v + (R - (v - a)))| + |R - (v - a)| := by
      have := abs_add_le (w - (v + (R - (v - a)))) (R - (v - a))
      rwa [show w - (v + (R - (v - a))) + (R - (v - a)) = w - v by ring] at this
    have h3 : |v + (R - (v - a))| ≤ |v| + (v - a) := (abs_add_le _ _).trans (by linarith)
    have h4 : uRound * |v + (R - (v - a))| ≤ uRound * (|v| + (v - a)) := mul_le_mul_of_nonneg_left h3 hu.le
    have h5 := mul_pos hu hPQ'
    generalize (v - a) * (b - v) / ((v - a) + (b - v)) = Z at *
    nlinarith

/-! ### From free vectors -/

theorem log_ratio_le {q ε : ℝ} (hq : |q - 1| ≤ ε) (hε : ε ≤ 1 / 1000) : |Real.log q| ≤ 1001 / 1000 * ε + 2 * ε ^ 2 := by
  have h := abs_le.mp hq
  have hε0 : 0 ≤ ε := (abs_nonneg _).trans hq
  have hq0 : 0 < q := by linarith
  have h1 := Real.one_sub_inv_le_log_of_pos hq0
  have h2 := Real.log_le_sub_one_of_pos hq0
  rw [abs_le]
  constructor
  · have h3 : q⁻¹ ≤ 1 + 1001 / 1000 * ε + 2 * ε ^ 2 := by
      rw [inv_le_iff_one_le_mul₀ hq0]
      have : (1 + 1001 / 1000 * ε + 2 * ε ^ 2) * (1 - ε) ≤ (1 + 1001 / 1000 * ε + 2 * ε ^ 2) * q :=
        mul_le_mul_of_nonneg_left (by linarith) (by positivity)
      nlinarith [pow_nonneg hε0 2, pow_nonneg hε0 3]
    linarith
  · nlinarith [sq_nonneg ε]

theorem exp_small : Real.exp 690 ≤ 2 ^ (1000 : ℤ) := by
  have h1 : Real.exp 690 ≤ Real.exp (Real.log 2 * (1000:ℤ)) := by
    apply Real.exp_le_exp.mpr
    have := Real.log_two_gt_d9
    push_cast; linarith
  rwa [Real.exp_mul, Real.exp_log (by norm_num), Real.rpow_intCast] at h1

theorem exp_size {t : ℝ} (ht : |t| ≤ 690) : 2 ^ (-1000 : ℤ) ≤ Real.exp t ∧ Real.exp t ≤ 2 ^ (1000 : ℤ) := by
  have ht' := abs_le.mp ht
  refine ⟨?_, (Real.exp_le_exp.mpr ht'.2).trans exp_small⟩
  have h4 : (2:ℝ) ^ (-1000 : ℤ) ≤ Real.exp (-690) := by
    rw [Real.exp_neg, zpow_neg]
    exact inv_anti₀ (Real.exp_pos _) exp_small
  exact h4.trans (Real.exp_le_exp.mpr ht'.1)

/-- The logarithm of a computed distance to a bound of size `α`. -/
theorem free_core (hL : A.LogAccurate) {t e x d' α : ℝ} (ht : |t| ≤ 690) (hα0 : 0 ≤ α) (hα : α ≤ 2 ^ 40 * Real.exp t)
    (he : |e - Real.exp t| ≤ 4 * uRound * Real.exp t) (hx : |x - e| ≤ uRound * (e + α)) (hd : |d' - x| ≤ uRound * |x|) :
    ∃ y, A.log (.fin d') = .fin y ∧ A.Machine (.fin y) ∧ |y - t| ≤ uRound * (2 * |t| + 10 + 3 * (α * Real.exp (-t))) := by
  have hu := uRound_pos
  have hu' : uRound ≤ 1 / 100000 := uRound_le.trans (by norm_num)
  have hu2 : uRound * 2 ^ 53 = 1 := uRound_small
  obtain ⟨hE1, hE2⟩ := exp_size ht
  have hE := Real.exp_pos t
  set E := Real.exp t with hEdef
  set β := α * Real.exp (-t) with hβ
  have hβE : α = β * E := by rw [hβ, hEdef, Real.exp_neg]; field_simp
  have hβ0 : 0 ≤ β := by rw [hβ]; positivity
  have hβ1 : β ≤ 2 ^ 40 := by
    rw [hβE] at hα; exact le_of_mul_le_mul_right hα hE
  have he' := abs_le.mp he
  have he1 : e ≤ 1001 / 1000 * E := by nlinarith
  have he0 : 0 ≤ e := by nlinarith
  have hx1 : |x| ≤ e + uRound * (e + α) := by
    have := abs_sub_abs_le_abs_sub x e
    rw [abs_of_nonneg he0] at this
    linarith
  have hdE : |d' - E| ≤ uRound * (7 + 2 * β) * E := by
    have h1 : |d' - E| ≤ |d' - x| + |x - e| + |e - E| := by
      have g1 := abs_add_le (d' - x) (x - e)
      have g2 := abs_add_le (d' - x + (x - e)) (e - E)
      rw [show d' - x + (x - e) + (e - E) = d' - E by ring] at g2
      linarith
    have h2 : uRound * |x| ≤ uRound * (e + uRound * (e + α)) := mul_le_mul_of_nonneg_left hx1 hu.le
    have h3 : uRound * (e + α) ≤ uRound * (1001 / 1000 * E + β * E) := mul_le_mul_of_nonneg_left (by rw [hβE]; linarith) hu.le
    have h4 : uRound * (uRound * (e + α)) ≤ 1 / 100000 * (uRound * (e + α)) := mul_le_mul_of_nonneg_right hu' (by positivity)
    have h5 : uRound * e ≤ uRound * (1001 / 1000 * E) := mul_le_mul_of_nonneg_left he1 hu.le
    have h6 : 0 ≤ uRound * (β * E) := by positivity
    have h7 : 0 < uRound * E := by positivity
    clear hE1 hE2
    nlinarith
  set ε := uRound * (7 + 2 * β) with hεdef
  have hε0 : 0 ≤ ε := by rw [hεdef]; positivity
  have hε : ε ≤ 1 / 2 ^ 11 := by
    have h1 : uRound * (7 + 2 * β) ≤ uRound * (7 + 2 * 2 ^ 40) := mul_le_mul_of_nonneg_left (by linarith) hu.le
    have h2 : uRound * (7 + 2 * 2 ^ 40) ≤ 1 / 2 ^ 11 := by unfold uRound; norm_num
    exact h1.trans h2
  have hdp := abs_le.mp hdE
  have hd1 : E ≤ 2 * d' := by clear hE1 hE2; norm_num at hε; nlinarith
  have hd2 : d' ≤ 2 * E := by clear hE1 hE2; norm_num at hε; nlinarith
  have hd0 : 0 < d' := by linarith
  obtain ⟨y, hy1, hy2⟩ := hL.log d' (dn_zpow (halve_zpow (e := -1001) (by simpa using hE1) hd1) (by norm_num))
    (lt_of_le_of_lt (double_zpow hE2 hd2) (zpow_lt_zpow_right₀ (by norm_num) (by norm_num)))
  have hm := hL.machine (.fin d')
  rw [hy1] at hm
  refine ⟨y, hy1, hm, ?_⟩
  have hq : |d' / E - 1| ≤ ε := by
    rw [show d' / E - 1 = (d' - E) / E by field_simp, abs_div, abs_of_pos hE, div_le_iff₀ hE]; exact hdE
  have hlog := log_ratio_le hq (hε.trans (by norm_num))
  rw [Real.log_div hd0.ne' hE.ne', hEdef, Real.log_exp] at hlog
  have hlog' : |Real.log d' - t| ≤ 1002 / 1000 * ε := by
    have : ε ^ 2 ≤ 1 / 2 ^ 11 * ε := by rw [sq]; exact mul_le_mul_of_nonneg_right hε hε0
    norm_num at this ⊢
    linarith
  have h4 := tiny_le (e := -1074) (by norm_num)
  rw [uRound_val2] at hy2
  have h5 : |Real.log d'| ≤ |t| + 1 / 100 := by
    have := abs_sub_abs_le_abs_sub (Real.log d') t
    have : 1002 / 1000 * ε ≤ 1002 / 1000 * (1 / 2 ^ 11) := mul_le_mul_of_nonneg_left hε (by norm_num)
    norm_num at this
    linarith
  have h6 : |y - t| ≤ |y - Real.log d'| + |Real.log d' - t| := by
    have := abs_add_le (y - Real.log d') (Real.log d' - t)
    rwa [sub_add_sub_cancel] at this
  have h7 : uRound / 2 ^ 100 ≤ uRound / 4 := div_le_div_of_nonneg_left hu.le (by norm_num) (by norm_num)
  have h8 : 2 * uRound * |Real.log d'| ≤ 2 * uRound * (|t| + 1 / 100) := mul_le_mul_of_nonneg_left h5 (by positivity)
  have h9 : 0 ≤ uRound * β := by positivity
  have h10 : 1002 / 1000 * ε = 1002 / 1000 * (7 * uRound) + 1002 / 1000 * 2 * (uRound * β) := by rw [hεdef]; ring
  have h11 : uRound * (2 * |t| + 10 + 3 * β) = 2 * (uRound * |t|) + 10 * uRound + 3 * (uRound * β) := by ring
  rw [h11]
  have h12 : 2 * uRound * (|t| + 1 / 100) = 2 * (uRound * |t|) + uRound / 50 := by ring
  generalize (2:ℝ) ^ (-1074 : ℤ) = tt at *
  linarith

theorem size_add {a e : ℝ} (ha : |a| ≤ 2 ^ (1000 : ℤ)) (he : |e| ≤ 2 ^ (1001 : ℤ)) : |e + a| ≤ 2 ^ (1002 : ℤ) := by
  have e1 : (2:ℝ) ^ (1002 : ℤ) = 2 ^ (1001 : ℤ) + 2 ^ (1001 : ℤ) := by
    rw [show (1002 : ℤ) = 1001 + 1 by norm_num, zpow_split, zpow_one]; ring
  rw [e1]
  exact (abs_add_le e a).trans (add_le_add he (up_zpow ha (by norm_num)))

theorem exp_bound (h : A.Accurate) (hs : A.Sane) {t : ℝ} (ht : |t| ≤ 690) :
    ∃ e, A.exp (.fin t) = .fin e ∧ A.Machine (.fin e) ∧ 0 ≤ e ∧ |e - Real.exp t| ≤ 4 * uRound * Real.exp t ∧ |e| ≤ 2 ^ (1001 : ℤ) := by
  obtain ⟨e, he1, he2⟩ := h.exp_near (t := t) (t' := t) (c := 0) (by simp) (by norm_num) (by linarith)
  rw [zero_add] at he2
  have hm := hs.exp_machine (.fin t)
  have h0 := hs.exp_nonneg t
  rw [he1] at hm h0
  have h0' : 0 ≤ e := by simpa using h0
  have hE := Real.exp_pos t
  have hu' : uRound ≤ 1 / 100000 := uRound_le.trans (by norm_num)
  refine ⟨e, he1, hm, h0', he2, ?_⟩
  rw [abs_of_nonneg h0']
  refine double_zpow (e := 1000) (exp_size ht).2 ?_
  have := (abs_le.mp he2).2
  nlinarith

theorem lower_free_trip (hs : A.Sane) (h : A.Accurate) (hL : A.LogAccurate) {a t : ℝ} (ha : A.Machine (.fin a))
    (ha' : |a| ≤ 2 ^ (1000 : ℤ)) (ht : |t| ≤ 690) (hα : |a| ≤ 2 ^ 40 * Real.exp t) :
    ∃ w y, constrain1A A (.fin a) .pinf (.fin t) = .fin w ∧ unconstrain1A A (.fin a) .pinf (.fin w) = .fin y ∧
      |y - t| ≤ uRound * (2 * |t| + 10 + 3 * (|a| * Real.exp (-t))) := by
  obtain ⟨e, he1, hem, he0, he2, hes⟩ := exp_bound h hs ht
  obtain ⟨w, hw1, hw2⟩ := h.add_rel hem ha (up_zpow (size_add ha' hes) (by norm_num))
  have hwm : A.Machine (.fin w) := by
    have := hs.idem (e + a)
    rw [Arith.add, add_fin] at hw1
    rwa [show A.rnd (e + a) = .fin w from hw1] at this
  have hx : |(w - a) - e| ≤ uRound * (e + |a|) := by
    rw [show (w - a) - e = w - (e + a) by ring]
    refine hw2.trans (mul_le_mul_of_nonneg_left ?_ uRound_pos.le)
    have := abs_add_le e a
    rwa [abs_of_nonneg he0] at this
  have hxs : |w - a| ≤ 2 ^ (1010 : ℤ) := by
    have h1 : |w - a| ≤ 2 * (|e| + |a|) := by
      have g1 := abs_sub_abs_le_abs_sub (w - a) e
      have g2 : uRound * (e + |a|) ≤ 1 * (e + |a|) := mul_le_mul_of_nonneg_right (uRound_le.trans (by norm_num)) (by positivity)
      rw [abs_of_nonneg he0] at g1 ⊢
      have := abs_nonneg a
      linarith
    have h2 : |e| + |a| ≤ 2 ^ (1002 : ℤ) := by
      have e1 : (2:ℝ) ^ (1002 : ℤ) = 2 ^ (1001 : ℤ) + 2 ^ (1001 : ℤ) := by
        rw [show (1002 : ℤ) = 1001 + 1 by norm_num, zpow_split, zpow_one]; ring
      rw [e1]
      exact add_le_add hes (up_zpow ha' (by norm_num))
    exact up_zpow (double_zpow h2 h1) (by norm_num)
  obtain ⟨d', hd1, hd2⟩ := h.sub_rel hwm ha hxs
  obtain ⟨y, hy1, _, hy3⟩ := free_core hL ht (abs_nonneg a) hα he2 hx hd2
  refine ⟨w, y, ?_, ?_, hy3⟩
  · simp only [constrain1A, Flt.eq, if_true, he1, hw1, Bool.false_eq_true, if_false]
  · simp only [unconstrain1A, Flt.eq, if_true, hd1, hy1, Bool.false_eq_true, if_false]

theorem upper_free_trip (hs : A.Sane) (h : A.Accurate) (hL : A.LogAccurate) {b t : ℝ} (hb : A.Machine (.fin b))
    (htm : A.Machine (.fin t)) (hb' : |b| ≤ 2 ^ (1000 : ℤ)) (ht : |t| ≤ 690) (hα : |b| ≤ 2 ^ 40 * Real.exp (-t)) :
    ∃ w y, constrain1A A .ninf (.fin b) (.fin t) = .fin w ∧ unconstrain1A A .ninf (.fin b) (.fin w) = .fin y ∧
      |y - t| ≤ uRound * (2 * |t| + 10 + 3 * (|b| * Real.exp t)) := by
  have ht' : |-t| ≤ 690 := by rwa [abs_neg]
  obtain ⟨e, he1, hem, he0, he2, hes⟩ := exp_bound h hs ht'
  have hsz := size_add hb' (show |-e| ≤ 2 ^ (1001 : ℤ) by rwa [abs_neg])
  rw [neg_add_eq_sub] at hsz
  obtain ⟨w, hw1, hw2⟩ := h.sub_rel hb hem (up_zpow hsz (by norm_num))
  have hwm : A.Machine (.fin w) := by
    have := hs.idem (b - e)
    rw [Arith.sub, sub_fin] at hw1
    rwa [show A.rnd (b - e) = .fin w from hw1] at this
  have hx : |(b - w) - e| ≤ uRound * (e + |b|) := by
    rw [show (b - w) - e = -(w - (b - e)) by ring, abs_neg]
    refine hw2.trans (mul_le_mul_of_nonneg_left ?_ uRound_pos.le)
    have := abs_sub b e
    rw [abs_of_nonneg he0] at this
    linarith
  have hxs : |b - w| ≤ 2 ^ (1010 : ℤ) := by
    have h1 : |b - w| ≤ 2 * (|e| + |b|) := by
      have g1 := abs_sub_abs_le_abs_sub (b - w) e
      have g2 : uRound * (e + |b|) ≤ 1 * (e + |b|) := mul_le_mul_of_nonneg_right (uRound_le.trans (by norm_num)) (by positivity)
      rw [abs_of_nonneg he0] at g1 ⊢
      have := abs_nonneg b
      linarith
    have h2 : |e| + |b| ≤ 2 ^ (1002 : ℤ) := by
      have e1 : (2:ℝ) ^ (1002 : ℤ) = 2 ^ (1001 : ℤ) + 2 ^ (1001 : ℤ) := by
        rw [show (1002 : ℤ) = 1001 + 1 by norm_num, zpow_split, zpow_one]; ring
      rw [e1]
      exact add_le_add hes (up_zpow hb' (by norm_num))
    exact up_zpow (double_zpow h2 h1) (by norm_num)
  obtain ⟨d', hd1, hd2⟩ := h.sub_rel hb hwm hxs
  obtain ⟨y, hy1, hy2, hy3⟩ := free_core hL ht' (abs_nonneg b) hα he2 hx hd2
  rw [abs_neg, neg_neg] at hy3
  refine ⟨w, -y, ?_, ?_, ?_⟩
  · simp only [constrain1A, Flt.eq, if_true, Bool.false_eq_true, if_false]
    rw [neg_one_mul_machine hs htm, he1, hw1]
  · simp only [unconstrain1A, Flt.eq, if_true, hd1, hy1, Bool.false_eq_true, if_false]
    exact neg_one_mul_machine hs hy2
  · rwa [show -y - t = -(y - -t) by ring, abs_neg]

/-! ### Free values that are lost -/

theorem absorb_exp (h : A.Accurate) {a t : ℝ} (ha : A.Machine (.fin a)) (ha1 : 2 ^ (-1000 : ℤ) ≤ |a|)
    (ha2 : |a| ≤ 2 ^ (1000 : ℤ)) (ht : Real.exp t ≤ 2 ^ (-57 : ℤ) * |a|) :
    ∃ e, A.exp (.fin t) = .fin e ∧ A.add (.fin e) (.fin a) = .fin a ∧ A.sub (.fin a) (.fin e) = .fin a := by
  have hpos : 0 < |a| := lt_of_lt_of_le (two_zpow_pos _) ha1
  have ht7 : t ≤ 709 := by
    have h1 : Real.exp t ≤ Real.exp (Real.log 2 * (1000:ℤ)) := by
      rw [Real.exp_mul, Real.exp_log (by norm_num), Real.rpow_intCast]
      refine ht.trans (le_trans ?_ ha2)
      have : (2:ℝ) ^ (-57 : ℤ) ≤ 1 := zpow_le_one_of_nonpos₀ (by norm_num) (by norm_num)
      exact mul_le_of_le_one_left hpos.le this
    have := Real.exp_le_exp.mp h1
    have := Real.log_two_lt_d9
    push_cast at *
    linarith
  obtain ⟨e, he1, he2⟩ := h.exp t ht7
  refine ⟨e, he1, ?_⟩
  set k := Int.log 2 |a| with hk
  have h1 : (2:ℝ) ^ k ≤ |a| := by
    have := Int.zpow_log_le_self (b := 2) (r := |a|) (by norm_num) hpos
    exact_mod_cast this
  have h2 : |a| < (2:ℝ) ^ (k + 1) := by exact_mod_cast Int.lt_zpow_succ_log_self (by norm_num) |a|
  have hk1 : (-1000 : ℤ) ≤ k := (Int.zpow_le_iff_le_log (b := 2) (x := -1000) (by norm_num) hpos).mp (by exact_mod_cast ha1)
  have he3 : |e| ≤ 2 ^ (k - 55) := by
    have g1 : |e| ≤ 3 / 2 * Real.exp t + 2 ^ (-1074 : ℤ) := by
      have hE := Real.exp_pos t
      have g2 := abs_sub_abs_le_abs_sub e (Real.exp t)
      rw [abs_of_pos hE] at g2
      have g3 : (2:ℝ) ^ (-52 : ℤ) ≤ 1 / 2 := (small_zpow (f := -1) (by norm_num)).trans_eq (by norm_num)
      have g4 : (2:ℝ) ^ (-52 : ℤ) * Real.exp t ≤ 1 / 2 * Real.exp t := mul_le_mul_of_nonneg_right g3 hE.le
      generalize (2:ℝ) ^ (-1074 : ℤ) = tt at *
      generalize (2:ℝ) ^ (-52 : ℤ) * Real.exp t = ss at *
      linarith
    have g2 : (2:ℝ) ^ (-57 : ℤ) * |a| ≤ 2 ^ (k - 56) := by
      have e1 : (2:ℝ) ^ (k - 56) = 2 ^ (-57 : ℤ) * 2 ^ (k + 1) := by rw [← zpow_split]; congr 1; ring
      rw [e1]
      exact mul_le_mul_of_nonneg_left h2.le (two_zpow_pos _).le
    have g3 : (2:ℝ) ^ (-1074 : ℤ) ≤ 2 ^ (k - 57) := small_zpow (by omega)
    have e2 : (2:ℝ) ^ (k - 56) = 2 ^ (k - 57) * 2 := by
      rw [show k - 56 = (k - 57) + 1 by ring, zpow_split, zpow_one]
    have e3 : (2:ℝ) ^ (k - 55) = 2 ^ (k - 57) * 4 := by
      rw [show k - 55 = (k - 57) + 2 by ring, zpow_split]; norm_num
    rw [e3]
    rw [e2] at g2
    clear e2 e3
    generalize (2:ℝ) ^ (k - 57) = s at *
    generalize (2:ℝ) ^ (-1074 : ℤ) = tt at *
    generalize (2:ℝ) ^ (-57 : ℤ) * |a| = r at *
    linarith
  have hm := h.machine ha
  have r1 := rndReal_absorb (d := e) hm h1 (by omega) he3
  have r2 := rndReal_absorb (d := -e) hm h1 (by omega) (by rwa [abs_neg])
  have hov : |a| < overflow64 := lt_of_le_of_lt ha2 (zpow_lt_zpow_right₀ (by norm_num) (by norm_num))
  constructor
  · rw [Arith.add, add_fin, h.round_fin]
    exact rnd64_of (by rw [add_comm]; exact r1) hov
  · rw [Arith.sub, sub_fin, h.round_fin]
    exact rnd64_of (by rw [sub_eq_add_neg]; exact r2) hov

theorem lower_lost (hs : A.Sane) (h : A.Accurate) (hL : A.LogAccurate) {a t : ℝ} (ha : A.Machine (.fin a)) (ha1 : 2 ^ (-1000 : ℤ) ≤ |a|)
    (ha2 : |a| ≤ 2 ^ (1000 : ℤ)) (ht : Real.exp t ≤ 2 ^ (-57 : ℤ) * |a|) :
    constrain1A A (.fin a) .pinf (.fin t) = .fin a ∧ unconstrain1A A (.fin a) .pinf (.fin a) = .ninf := by
  obtain ⟨e, he1, he2, _⟩ := absorb_exp h ha ha1 ha2 ht
  constructor
  · simp only [constrain1A, Flt.eq, if_true, he1, he2, Bool.false_eq_true, if_false]
  · have : A.sub (.fin a) (.fin a) = .fin 0 := by rw [Arith.sub, sub_fin, sub_self]; exact hs.zero
    simp only [unconstrain1A, Flt.eq, if_true, this, hL.zero, Bool.false_eq_true, if_false]

theorem upper_lost (hs : A.Sane) (h : A.Accurate) (hL : A.LogAccurate) {b t : ℝ} (hb : A.Machine (.fin b)) (htm : A.Machine (.fin t))
    (hb1 : 2 ^ (-1000 : ℤ) ≤ |b|) (hb2 : |b| ≤ 2 ^ (1000 : ℤ)) (ht : Real.exp (-t) ≤ 2 ^ (-57 : ℤ) * |b|) :
    constrain1A A .ninf (.fin b) (.fin t) = .fin b ∧ unconstrain1A A .ninf (.fin b) (.fin b) = .pinf := by
  obtain ⟨e, he1, _, he2⟩ := absorb_exp h hb hb1 hb2 ht
  constructor
  · simp only [constrain1A, Flt.eq, if_true, Bool.false_eq_true, if_false]
    rw [neg_one_mul_machine hs htm, he1, he2]
  · have : A.sub (.fin b) (.fin b) = .fin 0 := by rw [Arith.sub, sub_fin, sub_self]; exact hs.zero
    simp only [unconstrain1A, Flt.eq, if_true, this, hL.zero, Bool.false_eq_true, if_false]
    simp [Arith.mul, Arith.round, HMul.hMul, Mul.mul, Flt.mul, Flt.scaleInf]

/-! ### Against exact arithmetic -/

theorem lower_fold (hs : A.Sane) (h : A.Accurate) {a t : ℝ} (ha : A.Machine (.fin a)) (ha' : |a| ≤ 2 ^ (1000 : ℤ)) (ht : |t| ≤ 690) :
    ∃ w v, constrain1A A (.fin a) .pinf (.fin t) = .fin w ∧ constrain1 (.fin a) .pinf (.fin t) = .fin v ∧
      |w - v| ≤ uRound * (|v| + 5 * (v - a)) := by
  obtain ⟨e, he1, hem, he0, he2, hes⟩ := exp_bound h hs ht
  obtain ⟨w, hw1, hw2⟩ := h.add_rel hem ha (up_zpow (size_add ha' hes) (by norm_num))
  have hE := Real.exp_pos t
  refine ⟨w, Real.exp t + a, ?_, ?_, ?_⟩
  · simp only [constrain1A, Flt.eq, if_true, he1, hw1, Bool.false_eq_true, if_false]
  · simp only [constrain1, Flt.eq, if_true, Bool.false_eq_true, if_false, exp_fin, add_fin]
  · have := add_back (v := Real.exp t + a) (d := Real.exp t) (w := w) (c := 4) hE.le he2 (by have := small_coeff (c := 4) (by norm_num); linarith)
      (by rwa [show Real.exp t + a + (e - Real.exp t) = e + a by ring])
    rwa [show Real.exp t + a - a = Real.exp t by ring, show (5:ℝ) = 4 + 1 by norm_num]

theorem upper_fold (hs : A.Sane) (h : A.Accurate) {b t : ℝ} (hb : A.Machine (.fin b)) (htm : A.Machine (.fin t))
    (hb' : |b| ≤ 2 ^ (1000 : ℤ)) (ht : |t| ≤ 690) :
    ∃ w v, constrain1A A .ninf (.fin b) (.fin t) = .fin w ∧ constrain1 .ninf (.fin b) (.fin t) = .fin v ∧
      |w - v| ≤ uRound * (|v| + 5 * (b - v)) := by
  obtain ⟨e, he1, hem, he0, he2, hes⟩ := exp_bound h hs (t := -t) (by rwa [abs_neg])
  have hsz := size_add hb' (show |-e| ≤ 2 ^ (1001 : ℤ) by rwa [abs_neg])
  rw [neg_add_eq_sub] at hsz
  obtain ⟨w, hw1, hw2⟩ := h.sub_rel hb hem (up_zpow hsz (by norm_num))
  have hE := Real.exp_pos (-t)
  refine ⟨w, b - Real.exp (-t), ?_, ?_, ?_⟩
  · simp only [constrain1A, Flt.eq, if_true, Bool.false_eq_true, if_false]
    rw [neg_one_mul_machine hs htm, he1, hw1]
  · simp only [constrain1, Flt.eq, if_true, Bool.false_eq_true, if_false, mul_fin, neg_one_mul, exp_fin, sub_fin]
  · have := add_back (v := b - Real.exp (-t)) (d := Real.exp (-t)) (e := 2 * Real.exp (-t) - e) (w := w) (c := 4) hE.le
      (by rwa [show 2 * Real.exp (-t) - e - Real.exp (-t) = -(e - Real.exp (-t)) by ring, abs_neg])
      (by have := small_coeff (c := 4) (by norm_num); linarith)
      (by rwa [show b - Real.exp (-t) + (2 * Real.exp (-t) - e - Real.exp (-t)) = b - e by ring])
    rwa [show b - (b - Real.exp (-t)) = Real.exp (-t) by ring, show (5:ℝ) = 4 + 1 by norm_num]

theorem two_sided_fold (hs : A.Sane) (h : A.Accurate) {a b t : ℝ} (ha : A.Machine (.fin a)) (hb : A.Machine (.fin b))
    (ha' : |a| ≤ 2 ^ (300 : ℤ)) (hb' : |b| ≤ 2 ^ (300 : ℤ)) (hab : 2 ^ (-200 : ℤ) ≤ b - a) (ht : |t| ≤ 60) :
    ∃ w v, constrain1A A (.fin a) (.fin b) (.fin t) = .fin w ∧ constrain1 (.fin a) (.fin b) (.fin t) = .fin v ∧
      |w - v| ≤ uRound * (|v| + 14 * (v - a)) := by
  have hu := uRound_pos
  have hw0 : 0 < b - a := lt_of_lt_of_le (two_zpow_pos _) hab
  have hws := size_sub' ha' hb'
  obtain ⟨W', hW1, hW2⟩ := h.sub_rel hb ha (up_zpow hws (by norm_num))
  rw [abs_of_pos hw0] at hW2 hws
  obtain ⟨E, hE1, hEm, _, hE2, _⟩ := exp_bound h hs (t := t) (by linarith)
  have ht' := abs_le.mp ht
  have hX := Real.exp_pos t
  set X := Real.exp t with hXdef
  set P := (b - a) * X / (1 + X) with hP
  set Q := (b - a) / (1 + X) with hQ
  have h1X : 0 < 1 + X := by linarith
  have hPQ : P + Q = b - a := by rw [hP, hQ]; field_simp; ring
  have hP0 : 0 < P := by positivity
  have hQ0 : 0 < Q := by positivity
  have hr : P / Q = X := by rw [hP, hQ]; field_simp
  have h99 : Real.exp 60 ≤ 2 ^ (90 : ℤ) := by
    have h1 : Real.exp 60 ≤ Real.exp (Real.log 2 * (90:ℤ)) := by
      apply Real.exp_le_exp.mpr
      have := Real.log_two_gt_d9
      push_cast; linarith
    rwa [Real.exp_mul, Real.exp_log (by norm_num), Real.rpow_intCast] at h1
  have hXu : X ≤ 2 ^ (90 : ℤ) := (Real.exp_le_exp.mpr ht'.2).trans h99
  have hXl : 2 ^ (-90 : ℤ) ≤ X := by
    have h4 : (2:ℝ) ^ (-90 : ℤ) ≤ Real.exp (-60) := by
      rw [Real.exp_neg, zpow_neg]
      exact inv_anti₀ (Real.exp_pos _) h99
    exact h4.trans (Real.exp_le_exp.mpr ht'.1)
  have hd : 2 ^ (-290 : ℤ) * (1 + X) ≤ b - a := by
    have h1 : (1:ℝ) ≤ 2 ^ (89 : ℤ) := one_le_zpow₀ (by norm_num) (by norm_num)
    have h2 : 1 + X ≤ 2 ^ (90 : ℤ) := by
      by_cases hX1 : X ≤ 1
      · exact (show 1 + X ≤ 2 by linarith).trans ((by norm_num : (2:ℝ) ≤ 2 ^ (1:ℤ)).trans (small_zpow (by norm_num)))
      · have h60 : Real.exp 60 ≤ 2 ^ (89 : ℤ) := by
          have h1 : Real.exp 60 ≤ Real.exp (Real.log 2 * (89:ℤ)) := by
            apply Real.exp_le_exp.mpr
            have := Real.log_two_gt_d9
            push_cast; linarith
          rwa [Real.exp_mul, Real.exp_log (by norm_num), Real.rpow_intCast] at h1
        have : X ≤ 2 ^ (89 : ℤ) := (Real.exp_le_exp.mpr ht'.2).trans h60
        exact double_zpow (e := 89) this (by linarith)
    have e : (2:ℝ) ^ (-290 : ℤ) * 2 ^ (90 : ℤ) = 2 ^ (-200 : ℤ) := by rw [← zpow_split]; norm_num
    have := mul_le_mul_of_nonneg_left h2 (two_zpow_pos (-290)).le
    rw [e] at this
    exact this.trans hab
  have hq : 2 ^ (-300 : ℤ) ≤ Q := by
    rw [hQ]
    exact dn_zpow ((le_div_iff₀ h1X).mpr hd) (by norm_num)
  have hp : 2 ^ (-300 : ℤ) ≤ P := by
    -- P = W / (1 + 1 / X)
    have hP' : P * (1 + X) = (b - a) * X := by rw [hP]; field_simp
    by_cases hX1 : 1 ≤ X
    · have : Q ≤ P := by
        rw [hQ, hP]
        apply div_le_div_of_nonneg_right _ h1X.le
        nlinarith
      exact hq.trans this
    · have h2 : (b - a) * X / 2 ≤ P := by
        rw [hP]
        apply div_le_div_of_nonneg_left (by positivity) h1X (by linarith)
      have h3 : 2 ^ (-290 : ℤ) ≤ (b - a) * X := by
        have e : (2:ℝ) ^ (-290 : ℤ) = 2 ^ (-200 : ℤ) * 2 ^ (-90 : ℤ) := by rw [← zpow_split]; norm_num
        rw [e]
        exact mul_le_mul hab hXl (two_zpow_pos _).le hw0.le
      exact dn_zpow (halve_zpow (e := -291) (y := P) (x := (b - a) * X) (by simpa using h3) (by linarith)) (by norm_num)
  have hps : P ≤ 2 ^ (301 : ℤ) := le_trans (by linarith) hws
  have hqs : Q ≤ 2 ^ (301 : ℤ) := le_trans (by linarith) hws
  obtain ⟨R, hR1, hRm, hRP, hRP'⟩ := scaled_logistic hs h (W' := W') (E := E) (c := 0) hp hq hps hqs (by rw [hPQ]; exact hW2) hEm
    le_rfl (by norm_num) (by rw [hr, zero_add]; exact hE2)
  have e1 : R + a = (P + a) + (R - P) := by ring
  have hva : |P + a| ≤ 2 ^ (1000 : ℤ) := by
    have : |P + a| ≤ |P| + |a| := abs_add_le _ _
    rw [abs_of_pos hP0] at this
    have e : (2:ℝ) ^ (302 : ℤ) = 2 ^ (301 : ℤ) + 2 ^ (301 : ℤ) := by
      rw [show (302 : ℤ) = 301 + 1 by norm_num, zpow_split, zpow_one]; ring
    have h2 : |P + a| ≤ 2 ^ (302 : ℤ) := by
      rw [e]; exact this.trans (add_le_add hps (up_zpow ha' (by norm_num)))
    exact up_zpow h2 (by norm_num)
  obtain ⟨w, hw1, hw2⟩ := h.add_rel hRm ha (by
    rw [e1]; exact size_result hva (up_zpow hps (by norm_num)) hRP')
  rw [e1] at hw2
  refine ⟨w, P + a, ?_, ?_, ?_⟩
  · simp only [constrain1A, Flt.eq, Bool.false_eq_true, if_false, hE1, hW1, hR1, hw1]
  · have h1 : (1 : Flt) = .fin 1 := by change Flt.fin ((1:ℕ):ℝ) = _; simp
    simp only [constrain1, Flt.eq, Bool.false_eq_true, if_false, h1, exp_fin, sub_fin, mul_fin, add_fin]
    rw [div_fin _ _ h1X.ne', add_fin]
  · have hmin : P * Q / (P + Q) ≤ P := by
      rw [div_le_iff₀ (by linarith)]
      have := mul_pos hP0 hP0
      linarith [mul_add P P Q]
    clear hp hq hps hqs hws hW2 hE2 ha' hb' hXu hXl hd hab hva
    have h2 : |w - (P + a)| ≤ |w - (P + a + (R - P))| + |R - P| := by
      have := abs_add_le (w - (P + a + (R - P))) (R - P)
      rwa [show w - (P + a + (R - P)) + (R - P) = w - (P + a) by ring] at this
    have h3 : |P + a + (R - P)| ≤ |P + a| + |R - P| := abs_add_le _ _
    have hRP2 : |R - P| ≤ 12 * uRound * P := by
      have : (0 + 5) * uRound * (P * Q / (P + Q)) ≤ 5 * uRound * P := by
        rw [zero_add]; exact mul_le_mul_of_nonneg_left hmin (by positivity)
      linarith
    have h4 : uRound * |P + a + (R - P)| ≤ uRound * (|P + a| + P) := mul_le_mul_of_nonneg_left (by linarith) hu.le
    rw [show P + a - a = P by ring]
    nlinarith [mul_pos hu hP0]

theorem lower_flatten (h : A.Accurate) (hL : A.LogAccurate) {a v : ℝ} (ha : A.Machine (.fin a)) (hv : A.Machine (.fin v))
    (ha' : |a| ≤ 2 ^ (1000 : ℤ)) (hv' : |v| ≤ 2 ^ (1000 : ℤ)) (hd : 2 ^ (-1000 : ℤ) ≤ v - a) :
    ∃ w y, unconstrain1A A (.fin a) .pinf (.fin v) = .fin w ∧ unconstrain1 (.fin a) .pinf (.fin v) = .fin y ∧
      |w - y| ≤ uRound * (2 * |y| + 3) := by
  have hd0 : 0 < v - a := lt_of_lt_of_le (two_zpow_pos _) hd
  have hsz := size_sub ha' hv'
  rw [abs_of_pos hd0] at hsz
  obtain ⟨d', hd1, hd2⟩ := h.sub_rel hv ha (by rw [abs_of_pos hd0]; exact up_zpow hsz (by norm_num))
  rw [abs_of_pos hd0] at hd2
  obtain ⟨y, hy1, _, hy3⟩ := hL.near (dn_zpow hd (by norm_num)) (up_zpow hsz (by norm_num)) hd2
  refine ⟨y, Real.log (v - a), ?_, ?_, by rwa [mul_comm]⟩
  · simp only [unconstrain1A, Flt.eq, if_true, hd1, hy1, Bool.false_eq_true, if_false]
  · simp only [unconstrain1, Flt.eq, if_true, Bool.false_eq_true, if_false, sub_fin, log_fin hd0]

theorem upper_flatten (hs : A.Sane) (h : A.Accurate) (hL : A.LogAccurate) {b v : ℝ} (hb : A.Machine (.fin b)) (hv : A.Machine (.fin v))
    (hb' : |b| ≤ 2 ^ (1000 : ℤ)) (hv' : |v| ≤ 2 ^ (1000 : ℤ)) (hd : 2 ^ (-1000 : ℤ) ≤ b - v) :
    ∃ w y, unconstrain1A A .ninf (.fin b) (.fin v) = .fin w ∧ unconstrain1 .ninf (.fin b) (.fin v) = .fin y ∧
      |w - y| ≤ uRound * (2 * |y| + 3) := by
  have hd0 : 0 < b - v := lt_of_lt_of_le (two_zpow_pos _) hd
  have hsz := size_sub hv' hb'
  rw [abs_of_pos hd0] at hsz
  obtain ⟨d', hd1, hd2⟩ := h.sub_rel hb hv (by rw [abs_of_pos hd0]; exact up_zpow hsz (by norm_num))
  rw [abs_of_pos hd0] at hd2
  obtain ⟨y, hy1, hym, hy3⟩ := hL.near (dn_zpow hd (by norm_num)) (up_zpow hsz (by norm_num)) hd2
  refine ⟨-y, -Real.log (b - v), ?_, ?_, ?_⟩
  · simp only [unconstrain1A, Flt.eq, if_true, hd1, hy1, Bool.false_eq_true, if_false]
    exact neg_one_mul_machine hs hym
  · simp only [unconstrain1, Flt.eq, if_true, Bool.false_eq_true, if_false, sub_fin, log_fin hd0, mul_fin, neg_one_mul]
  · rw [abs_neg, show -y - -Real.log (b - v) = -(y - Real.log (b - v)) by ring, abs_neg, mul_comm]; exact hy3

theorem two_sided_flatten (h : A.Accurate) (hL : A.LogAccurate) {a b v : ℝ} (ha : A.Machine (.fin a)) (hb : A.Machine (.fin b))
    (hv : A.Machine (.fin v)) (ha' : |a| ≤ 2 ^ (300 : ℤ)) (hb' : |b| ≤ 2 ^ (300 : ℤ)) (hv' : |v| ≤ 2 ^ (300 : ℤ))
    (hp : 2 ^ (-300 : ℤ) ≤ v - a) (hq : 2 ^ (-300 : ℤ) ≤ b - v) :
    ∃ w y, unconstrain1A A (.fin a) (.fin b) (.fin v) = .fin w ∧ unconstrain1 (.fin a) (.fin b) (.fin v) = .fin y ∧
      |w - y| ≤ uRound * (3 * |Real.log (v - a)| + 3 * |Real.log (b - v)| + 7) := by
  have hp0 : 0 < v - a := lt_of_lt_of_le (two_zpow_pos _) hp
  have hq0 : 0 < b - v := lt_of_lt_of_le (two_zpow_pos _) hq
  have hps := size_sub' ha' hv'
  have hqs := size_sub' hv' hb'
  rw [abs_of_pos hp0] at hps
  rw [abs_of_pos hq0] at hqs
  have up' : ∀ {x : ℝ}, 0 < x → x ≤ 2 ^ (301 : ℤ) → |x| ≤ 2 ^ (1010 : ℤ) := fun h0 hx => by
    rw [abs_of_pos h0]; exact up_zpow hx (by norm_num)
  obtain ⟨p', hp1, hp2⟩ := h.sub_rel hv ha (up' hp0 hps)
  obtain ⟨q', hq1, hq2⟩ := h.sub_rel hb hv (up' hq0 hqs)
  rw [abs_of_pos hp0] at hp2
  rw [abs_of_pos hq0] at hq2
  obtain ⟨lp, hlp1, hlp2, hlp3⟩ := hL.near (dn_zpow hp (by norm_num)) (up_zpow hps (by norm_num)) hp2
  obtain ⟨lq, hlq1, hlq2, hlq3⟩ := hL.near (dn_zpow hq (by norm_num)) (up_zpow hqs (by norm_num)) hq2
  obtain ⟨y, hy1, hyt⟩ := log_ratio h (abs_log_le' hp hps) (abs_log_le' hq hqs) hlp2 hlq2 hlp3 hlq3
  refine ⟨y, Real.log (v - a) - Real.log (b - v), ?_, ?_, by rwa [mul_comm]⟩
  · simp only [unconstrain1A, Flt.eq, Bool.false_eq_true, if_false, hp1, hq1, hlp1, hlq1, hy1]
  · simp only [unconstrain1, Flt.eq, Bool.false_eq_true, if_false, sub_fin, log_fin hp0, log_fin hq0]

end Arith

end Paragami
