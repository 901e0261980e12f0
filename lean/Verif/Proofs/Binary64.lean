import Verif.Spec.Rounding
import Mathlib.Tactic.Linarith
import Mathlib.Tactic.Positivity

/-! # Binary64 rounding -/

namespace Paragami

/-! ### Rounding to an integer -/

theorem roundEven_int (n : ℤ) : roundEven n = n := by
  simp [roundEven]

theorem roundEven_floor_le (x : ℝ) : ⌊x⌋ ≤ roundEven x := by
  unfold roundEven; split_ifs <;> omega

theorem roundEven_le_floor (x : ℝ) : roundEven x ≤ ⌊x⌋ + 1 := by
  unfold roundEven; split_ifs <;> omega

theorem roundEven_mono {x y : ℝ} (h : x ≤ y) : roundEven x ≤ roundEven y := by
  rcases (Int.floor_mono h).lt_or_eq with h1 | h1
  · calc roundEven x ≤ ⌊x⌋ + 1 := roundEven_le_floor x
      _ ≤ ⌊y⌋ := h1
      _ ≤ roundEven y := roundEven_floor_le y
  · have hf : Int.fract x ≤ Int.fract y := by
      unfold Int.fract; rw [h1]; linarith
    unfold roundEven
    rw [h1]
    split_ifs <;> first | omega | (exfalso; linarith)

theorem roundEven_near (x : ℝ) : |(roundEven x : ℝ) - x| ≤ 1 / 2 := by
  have h0 := Int.fract_add_floor x
  have h1 := Int.fract_nonneg x
  have h2 := Int.fract_lt_one x
  rw [abs_le]
  unfold roundEven
  split_ifs <;> push_cast <;> constructor <;> linarith

/-- The integer nearest to `x`. -/
theorem roundEven_of_near {x : ℝ} {n : ℤ} (h : |x - n| < 1 / 2) : roundEven x = n := by
  have h1 := roundEven_near x
  rw [abs_le] at h1
  rw [abs_lt] at h
  have h2 : (roundEven x : ℝ) < n + 1 := by linarith
  have h3 : (n : ℝ) - 1 < roundEven x := by linarith
  have h2' : roundEven x < n + 1 := by exact_mod_cast h2
  have h3' : n - 1 < roundEven x := by exact_mod_cast h3
  omega

theorem roundEven_neg (x : ℝ) : roundEven (-x) = -roundEven x := by
  by_cases hx : Int.fract x = 0
  · obtain ⟨n, rfl⟩ := Int.fract_eq_zero_iff.mp hx
    rw [show (-(n:ℝ)) = ((-n : ℤ) : ℝ) by push_cast; rfl, roundEven_int, roundEven_int]
  · have hf : Int.fract (-x) = 1 - Int.fract x := Int.fract_neg hx
    have hfl : ⌊-x⌋ = -⌊x⌋ - 1 := by
      have h1 := Int.fract_add_floor x
      have h2 := Int.fract_add_floor (-x)
      have : ((⌊-x⌋ : ℤ) : ℝ) = ((-⌊x⌋ - 1 : ℤ) : ℝ) := by push_cast; linarith
      exact_mod_cast this
    by_cases hlt : Int.fract x < 1 / 2
    · have h1 : ¬ (Int.fract (-x) < 1 / 2) := by rw [hf]; linarith
      have h2 : 1 / 2 < Int.fract (-x) := by rw [hf]; linarith
      simp only [roundEven, if_pos hlt, if_neg h1, if_pos h2, hfl]; ring
    · by_cases hgt : 1 / 2 < Int.fract x
      · have h1 : Int.fract (-x) < 1 / 2 := by rw [hf]; linarith
        simp only [roundEven, if_neg hlt, if_pos hgt, if_pos h1, hfl]; ring
      · have h1 : ¬ (Int.fract (-x) < 1 / 2) := by rw [hf]; linarith
        have h2 : ¬ (1 / 2 < Int.fract (-x)) := by rw [hf]; linarith
        simp only [roundEven, if_neg hlt, if_neg hgt, if_neg h1, if_neg h2, hfl]
        by_cases he : Even ⌊x⌋
        · have : ¬ Even (-⌊x⌋ - 1) := by rw [Int.not_even_iff_odd]; exact he.neg.sub_odd odd_one
          rw [if_pos he, if_neg this]; ring
        · have : Even (-⌊x⌋ - 1) := by
            rw [Int.not_even_iff_odd] at he; exact he.neg.sub_odd odd_one
          rw [if_neg he, if_pos this]; ring

/-! ### The last place -/

theorem lastPlace_neg (x : ℝ) : lastPlace (-x) = lastPlace x := by simp [lastPlace]

theorem two_zpow_pos (e : ℤ) : (0:ℝ) < 2 ^ e := zpow_pos (by norm_num) e

theorem rndReal_neg (x : ℝ) : rndReal (-x) = -rndReal x := by
  simp only [rndReal, lastPlace_neg, neg_div, roundEven_neg]; push_cast; ring

theorem rndReal_zero : rndReal 0 = 0 := by
  have : roundEven 0 = 0 := by simpa using roundEven_int 0
  simp [rndReal, this]

theorem rndReal_nonneg {x : ℝ} (h : 0 ≤ x) : 0 ≤ rndReal x := by
  have h1 : roundEven 0 ≤ roundEven (x / 2 ^ lastPlace x) := roundEven_mono (by have := two_zpow_pos (lastPlace x); positivity)
  have h0 : roundEven 0 = 0 := by simpa using roundEven_int 0
  rw [h0] at h1
  have : (0:ℝ) ≤ (roundEven (x / 2 ^ lastPlace x) : ℤ) := by exact_mod_cast h1
  exact mul_nonneg this (two_zpow_pos _).le

/-- A multiple of the last place is not moved across. -/
theorem rndReal_le_of_mul {x : ℝ} {m : ℤ} (h : x ≤ m * 2 ^ lastPlace x) : rndReal x ≤ m * 2 ^ lastPlace x := by
  have hp := two_zpow_pos (lastPlace x)
  have h1 : roundEven (x / 2 ^ lastPlace x) ≤ roundEven (m : ℝ) := roundEven_mono (by rwa [div_le_iff₀ hp])
  rw [roundEven_int] at h1
  exact mul_le_mul_of_nonneg_right (by exact_mod_cast h1) hp.le

theorem le_rndReal_of_mul {x : ℝ} {m : ℤ} (h : m * 2 ^ lastPlace x ≤ x) : m * 2 ^ lastPlace x ≤ rndReal x := by
  have hp := two_zpow_pos (lastPlace x)
  have h1 : roundEven (m : ℝ) ≤ roundEven (x / 2 ^ lastPlace x) := roundEven_mono (by rwa [le_div_iff₀ hp])
  rw [roundEven_int] at h1
  exact mul_le_mul_of_nonneg_right (by exact_mod_cast h1) hp.le

theorem zpow_eq_mul {e q : ℤ} (h : q ≤ e) : (2:ℝ) ^ e = ((2 ^ (e - q).toNat : ℤ) : ℝ) * 2 ^ q := by
  obtain ⟨k, rfl⟩ := Int.le.dest h
  simp only [add_sub_cancel_left, Int.toNat_natCast]
  rw [zpow_add₀ (by norm_num), zpow_natCast]; push_cast; ring

theorem log_mono_abs {x y : ℝ} (hx : 0 < x) (h : x ≤ y) : Int.log 2 |x| ≤ Int.log 2 |y| := by
  rw [abs_of_pos hx, abs_of_pos (hx.trans_le h)]; exact Int.log_mono_right hx h

theorem rndReal_mono_nonneg {x y : ℝ} (hx : 0 ≤ x) (h : x ≤ y) : rndReal x ≤ rndReal y := by
  rcases hx.lt_or_eq with hx | rfl
  · have hy := hx.trans_le h
    have hl := log_mono_abs hx h
    by_cases hq : lastPlace x = lastPlace y
    · have hp := two_zpow_pos (lastPlace y)
      unfold rndReal
      rw [hq]
      refine mul_le_mul_of_nonneg_right ?_ hp.le
      exact_mod_cast roundEven_mono (div_le_div_of_nonneg_right h hp.le)
    · have hq' : lastPlace x < lastPlace y := by
        unfold lastPlace at hq ⊢; omega
      set e := Int.log 2 |y| with he
      have hy' : lastPlace y = e - 52 := by
        unfold lastPlace at hq' ⊢; omega
      have hxe : Int.log 2 |x| < e := by unfold lastPlace at hq'; omega
      have h1 : x ≤ 2 ^ e := by
        have h2 : |x| < (2:ℝ) ^ (Int.log 2 |x| + 1) := by exact_mod_cast Int.lt_zpow_succ_log_self (by norm_num) |x|
        have h3 : (2:ℝ) ^ (Int.log 2 |x| + 1) ≤ 2 ^ e := zpow_le_zpow_right₀ (by norm_num) (by omega)
        have := le_abs_self x
        linarith
      have h2 : (2:ℝ) ^ e ≤ y := by
        have := Int.zpow_log_le_self (b := 2) (r := |y|) (by norm_num) (by rw [abs_of_pos hy]; exact hy)
        rw [abs_of_pos hy] at this he
        rw [he]; exact_mod_cast this
      have e1 := zpow_eq_mul (e := e) (q := lastPlace x) (by omega)
      have e2 := zpow_eq_mul (e := e) (q := lastPlace y) (by omega)
      calc rndReal x ≤ 2 ^ e := by rw [e1] at h1 ⊢; exact rndReal_le_of_mul h1
        _ ≤ rndReal y := by rw [e2] at h2 ⊢; exact le_rndReal_of_mul h2
  · rw [rndReal_zero]; exact rndReal_nonneg h

theorem rndReal_mono {x y : ℝ} (h : x ≤ y) : rndReal x ≤ rndReal y := by
  rcases le_total 0 x with hx | hx
  · exact rndReal_mono_nonneg hx h
  · rcases le_total 0 y with hy | hy
    · have h1 := rndReal_nonneg (x := -x) (by linarith)
      rw [rndReal_neg] at h1
      have := rndReal_nonneg hy
      linarith
    · have := rndReal_mono_nonneg (x := -y) (y := -x) (by linarith) (by linarith)
      rw [rndReal_neg, rndReal_neg] at this
      linarith

/-- A number with at most 53 binary digits is not rounded. -/
theorem rndReal_fix {m e : ℤ} (hm : |m| ≤ 2 ^ 53) (he : -1074 ≤ e) : rndReal (m * 2 ^ e) = m * 2 ^ e := by
  wlog hpos : 0 ≤ m with H
  · have := H (m := -m) (e := e) (by simpa using hm) he (by omega)
    push_cast at this
    rw [neg_mul, rndReal_neg] at this
    linarith
  rcases hpos.lt_or_eq with hpos | rfl
  · set x : ℝ := m * 2 ^ e with hx
    have hmr : (0:ℝ) < m := by exact_mod_cast hpos
    have hx0 : 0 < x := mul_pos hmr (two_zpow_pos e)
    have key : ∀ q : ℤ, lastPlace x = q → q ≤ e → rndReal x = x := by
      intro q hq hqe
      have h1 : x = ((m * 2 ^ (e - q).toNat : ℤ) : ℝ) * 2 ^ q := by
        rw [hx, zpow_eq_mul hqe]; push_cast; ring
      have hp := two_zpow_pos q
      unfold rndReal
      rw [hq]
      have h2 : x / 2 ^ q = ((m * 2 ^ (e - q).toNat : ℤ) : ℝ) := by
        rw [div_eq_iff hp.ne']; exact h1
      rw [h2, roundEven_int, ← h1]
    by_cases hq : lastPlace x ≤ e
    · exact key _ rfl hq
    · -- the exponent of the last place is one too large only for `m = 2 ^ 53`
      push Not at hq
      have hlog : e < Int.log 2 |x| - 52 := by
        unfold lastPlace at hq; omega
      have h3 : (2:ℝ) ^ (e + 53) ≤ x := by
        have := Int.zpow_log_le_self (b := 2) (r := |x|) (by norm_num) (by rw [abs_of_pos hx0]; exact hx0)
        rw [abs_of_pos hx0] at this hlog
        calc (2:ℝ) ^ (e + 53) ≤ 2 ^ (Int.log 2 x) := zpow_le_zpow_right₀ (by norm_num) (by omega)
          _ ≤ x := by exact_mod_cast this
      have h4 : (m : ℝ) ≤ 2 ^ 53 := by
        have := le_trans (le_abs_self m) hm
        exact_mod_cast this
      have h5 : x ≤ 2 ^ (e + 53) := by
        rw [hx, zpow_add₀ (by norm_num), mul_comm]
        exact mul_le_mul_of_nonneg_left (by exact_mod_cast h4) (two_zpow_pos e).le
      have h6 : x = 2 ^ (e + 53) := le_antisymm h5 h3
      have h7 : Int.log 2 |x| = e + 53 := by
        rw [h6, abs_of_pos (two_zpow_pos _)]
        exact_mod_cast Int.log_zpow (R := ℝ) (b := 2) (by norm_num) (e + 53)
      have h8 : lastPlace x = e + 1 := by
        unfold lastPlace; omega
      have hp := two_zpow_pos (e + 1)
      have h9 : x / 2 ^ lastPlace x = ((2 ^ 52 : ℤ) : ℝ) := by
        rw [h8, div_eq_iff hp.ne', h6, show e + 53 = 52 + (e + 1) by ring, zpow_add₀ (by norm_num)]
        push_cast; norm_num
      have h10 : x = ((2 ^ 52 : ℤ) : ℝ) * 2 ^ lastPlace x := by
        rw [← h9]; rw [h8]; field_simp
      conv_lhs => unfold rndReal
      rw [h9, roundEven_int]; exact h10.symm
  · simp [rndReal_zero]

/-- Rounded numbers have at most 53 binary digits. -/
theorem rndReal_form (x : ℝ) : ∃ m e : ℤ, |m| ≤ 2 ^ 53 ∧ -1074 ≤ e ∧ rndReal x = m * 2 ^ e := by
  refine ⟨roundEven (x / 2 ^ lastPlace x), lastPlace x, ?_, by unfold lastPlace; omega, rfl⟩
  have hp := two_zpow_pos (lastPlace x)
  have h1 : |x| ≤ 2 ^ 53 * 2 ^ lastPlace x := by
    have h2 : |x| < (2:ℝ) ^ (Int.log 2 |x| + 1) := by exact_mod_cast Int.lt_zpow_succ_log_self (by norm_num) |x|
    have h3 : (2:ℝ) ^ (Int.log 2 |x| + 1) ≤ 2 ^ (53 + lastPlace x) :=
      zpow_le_zpow_right₀ (by norm_num) (by unfold lastPlace; omega)
    have h4 : (2:ℝ) ^ (53 + lastPlace x) = 2 ^ 53 * 2 ^ lastPlace x := by
      rw [zpow_add₀ (by norm_num)]; norm_num
    rw [h4] at h3
    linarith
  have h2 : |x / 2 ^ lastPlace x| ≤ ((2 ^ 53 : ℤ) : ℝ) := by
    rw [abs_div, abs_of_pos hp, div_le_iff₀ hp]; norm_num at h1 ⊢; exact h1
  rw [abs_le] at h2 ⊢
  constructor
  · have := roundEven_mono (x := ((-2 ^ 53 : ℤ) : ℝ)) (y := x / 2 ^ lastPlace x) (by push_cast; push_cast at h2; exact h2.1)
    rwa [roundEven_int] at this
  · have := roundEven_mono h2.2
    rwa [roundEven_int] at this

theorem rndReal_idem (x : ℝ) : rndReal (rndReal x) = rndReal x := by
  obtain ⟨m, e, hm, he, h⟩ := rndReal_form x
  rw [h]; exact rndReal_fix hm he

theorem rndReal_near (x : ℝ) : |rndReal x - x| ≤ 2 ^ lastPlace x / 2 := by
  have hp := two_zpow_pos (lastPlace x)
  have h := roundEven_near (x / 2 ^ lastPlace x)
  have : rndReal x - x = ((roundEven (x / 2 ^ lastPlace x) : ℝ) - x / 2 ^ lastPlace x) * 2 ^ lastPlace x := by
    unfold rndReal; field_simp
  rw [this, abs_mul, abs_of_pos hp]
  nlinarith

/-! ### With overflow -/

theorem overflow64_pos : 0 < overflow64 := two_zpow_pos _

theorem rnd64_zero : rnd64 0 = .fin 0 := by
  simp only [rnd64, rndReal_zero]
  have := overflow64_pos
  rw [if_neg (by linarith), if_neg (by linarith)]

theorem rnd64_of {x y : ℝ} (h : rndReal x = y) (hy : |y| < overflow64) : rnd64 x = .fin y := by
  rw [abs_lt] at hy
  simp only [rnd64, h]
  rw [if_neg (by linarith), if_neg (by linarith)]

theorem rnd64_fix {m e : ℤ} (hm : |m| ≤ 2 ^ 53) (he : -1074 ≤ e) (he' : e ≤ 970) : rnd64 (m * 2 ^ e) = .fin (m * 2 ^ e) := by
  refine rnd64_of (rndReal_fix hm he) ?_
  rw [abs_mul, abs_of_pos (two_zpow_pos e)]
  have h1 : |(m:ℝ)| ≤ 2 ^ (53:ℤ) := by
    have : ((|m| : ℤ) : ℝ) ≤ ((2 ^ 53 : ℤ) : ℝ) := by exact_mod_cast hm
    push_cast at this
    exact le_of_le_of_eq this (by norm_num)
  calc |(m:ℝ)| * 2 ^ e ≤ 2 ^ (53:ℤ) * 2 ^ e := mul_le_mul_of_nonneg_right h1 (two_zpow_pos e).le
    _ = 2 ^ (53 + e) := by rw [zpow_add₀ (by norm_num)]
    _ < overflow64 := zpow_lt_zpow_right₀ (by norm_num) (by omega)

theorem rnd64_mono {x y : ℝ} (h : x ≤ y) : (rnd64 x).le (rnd64 y) = true := by
  have h1 := rndReal_mono h
  unfold rnd64
  split_ifs with a b c d <;> simp [Flt.le, Flt.lt, Flt.eq] <;> try linarith
  exact h1.lt_or_eq

theorem rnd64_neg_fin {x y : ℝ} (h : rnd64 x = .fin y) : rnd64 (-x) = .fin (-y) := by
  unfold rnd64 at h
  split_ifs at h with h1 h2
  injection h with h
  apply rnd64_of
  · rw [rndReal_neg, h]
  · rw [← h, abs_neg, abs_lt]; constructor <;> linarith

theorem rnd64_idem {x y : ℝ} (h : rnd64 x = .fin y) : rnd64 y = .fin y := by
  have h0 := h
  unfold rnd64 at h
  split_ifs at h with h1 h2
  injection h with h
  subst h
  unfold rnd64
  rw [rndReal_idem]
  rw [if_neg h1, if_neg h2]

theorem rnd64_one : rnd64 1 = .fin 1 := by
  have := rnd64_fix (m := 1) (e := 0) (by norm_num) (by norm_num) (by norm_num)
  simpa using this

/-- The result of rounding, given where the number lies. -/
theorem rnd64_eq {x : ℝ} {e m : ℤ} (h1 : 2 ^ e ≤ |x|) (h2 : |x| < 2 ^ (e + 1)) (he : -1022 ≤ e) (he' : e ≤ 1022)
    (h3 : |x / 2 ^ (e - 52) - m| < 1 / 2) : rnd64 x = .fin (m * 2 ^ (e - 52)) := by
  have hl : Int.log 2 |x| = e := by
    have hx : 0 < |x| := lt_of_lt_of_le (two_zpow_pos e) h1
    apply le_antisymm
    · have := (Int.lt_zpow_iff_log_lt (b := 2) (x := e + 1) (by norm_num) hx).mp (by exact_mod_cast h2)
      omega
    · exact (Int.zpow_le_iff_le_log (b := 2) (x := e) (by norm_num) hx).mp (by exact_mod_cast h1)
  have hq : lastPlace x = e - 52 := by unfold lastPlace; omega
  have hr : rndReal x = m * 2 ^ (e - 52) := by
    unfold rndReal
    rw [hq, roundEven_of_near h3]
  refine rnd64_of hr ?_
  rw [← hr]
  have h4 := rndReal_near x
  rw [hq] at h4
  have h5 : |rndReal x| ≤ |x| + 2 ^ (e - 52) / 2 := by
    have := abs_sub_abs_le_abs_sub (rndReal x) x; linarith
  have h6 : (2:ℝ) ^ (e - 52) ≤ 2 ^ e := zpow_le_zpow_right₀ (by norm_num) (by omega)
  have h7 : (2:ℝ) ^ (e + 1) = 2 * 2 ^ e := by rw [zpow_add₀ (by norm_num)]; ring
  have h8 : (2:ℝ) ^ (e + 2) ≤ overflow64 := zpow_le_zpow_right₀ (by norm_num) (by omega)
  have h9 : (2:ℝ) ^ (e + 2) = 4 * 2 ^ e := by rw [zpow_add₀ (by norm_num)]; norm_num; ring
  have := two_zpow_pos e
  linarith

/-! ### Absorption -/

theorem log_eq_of {x : ℝ} {e : ℤ} (h1 : 2 ^ e ≤ |x|) (h2 : |x| < 2 ^ (e + 1)) : Int.log 2 |x| = e := by
  have hx : 0 < |x| := lt_of_lt_of_le (two_zpow_pos e) h1
  apply le_antisymm
  · have := (Int.lt_zpow_iff_log_lt (b := 2) (x := e + 1) (by norm_num) hx).mp (by exact_mod_cast h2)
    omega
  · exact (Int.zpow_le_iff_le_log (b := 2) (x := e) (by norm_num) hx).mp (by exact_mod_cast h1)

theorem rndReal_eq {x : ℝ} {e m : ℤ} (h1 : 2 ^ e ≤ |x|) (h2 : |x| < 2 ^ (e + 1)) (he : -1022 ≤ e)
    (h3 : |x / 2 ^ (e - 52) - m| < 1 / 2) : rndReal x = m * 2 ^ (e - 52) := by
  have hl := log_eq_of h1 h2
  have hq : lastPlace x = e - 52 := by unfold lastPlace; omega
  unfold rndReal
  rw [hq, roundEven_of_near h3]

/-- A machine number that is `2 ^ k` or more absorbs terms below `2 ^ (k - 55)`. -/
theorem rndReal_absorb {x d : ℝ} {k : ℤ} (hm : rndReal x = x) (hk : 2 ^ k ≤ |x|) (hk' : -1020 ≤ k) (hd : |d| ≤ 2 ^ (k - 55)) :
    rndReal (x + d) = x := by
  wlog hpos : 0 ≤ x with H
  · have := H (x := -x) (d := -d) (k := k) (by rw [rndReal_neg, hm]) (by rwa [abs_neg]) hk' (by rwa [abs_neg])
      (by linarith)
    rw [← neg_add, rndReal_neg] at this
    linarith
  rw [abs_of_nonneg hpos] at hk
  have hx : 0 < x := lt_of_lt_of_le (two_zpow_pos k) hk
  set K := Int.log 2 |x| with hK
  have h1 : (2:ℝ) ^ K ≤ x := by
    have := Int.zpow_log_le_self (b := 2) (r := |x|) (by norm_num) (by rw [abs_of_pos hx]; exact hx)
    rw [abs_of_pos hx] at this hK
    rw [hK]; exact_mod_cast this
  have h2 : x < (2:ℝ) ^ (K + 1) := by
    have h2 : |x| < (2:ℝ) ^ (Int.log 2 |x| + 1) := by exact_mod_cast Int.lt_zpow_succ_log_self (by norm_num) |x|
    rwa [abs_of_pos hx, ← abs_of_pos hx, ← hK, abs_of_pos hx] at h2
  have hkK : k ≤ K := by
    rw [hK, abs_of_pos hx]
    exact (Int.zpow_le_iff_le_log (b := 2) (x := k) (by norm_num) hx).mp (by exact_mod_cast hk)
  have hd' : |d| ≤ 2 ^ (K - 55) := hd.trans (zpow_le_zpow_right₀ (by norm_num) (by omega))
  set P : ℝ := 2 ^ (K - 55) with hP
  have hP0 : 0 < P := two_zpow_pos _
  have p1 : (2:ℝ) ^ (K - 52) = 8 * P := by
    rw [hP, show K - 52 = 3 + (K - 55) by ring, zpow_add₀ (by norm_num)]; norm_num
  have p2 : (2:ℝ) ^ (K - 53) = 4 * P := by
    rw [hP, show K - 53 = 2 + (K - 55) by ring, zpow_add₀ (by norm_num)]; norm_num
  have p3 : (2:ℝ) ^ K = 2 ^ 52 * (8 * P) := by
    rw [hP, show K = 55 + (K - 55) by ring, zpow_add₀ (by norm_num)]; norm_num
    ring
  have p4 : (2:ℝ) ^ (K + 1) = 2 ^ 53 * (8 * P) := by
    rw [zpow_add₀ (by norm_num), p3]; norm_num; ring
  have hq : lastPlace x = K - 52 := by unfold lastPlace; omega
  obtain ⟨m, hmx⟩ : ∃ m : ℤ, x = m * (8 * P) := by
    refine ⟨roundEven (x / 2 ^ lastPlace x), ?_⟩
    conv_lhs => rw [← hm]
    rw [rndReal, hq, p1]
  have hm1 : 2 ^ 52 ≤ m := by
    have : ((2:ℝ) ^ 52) ≤ m := by
      have : 2 ^ 52 * (8 * P) ≤ m * (8 * P) := by rw [← hmx, ← p3]; exact h1
      exact le_of_mul_le_mul_right this (by positivity)
    exact_mod_cast this
  have hm2 : m ≤ 2 ^ 53 - 1 := by
    have : (m : ℝ) < ((2:ℝ) ^ 53) := by
      have : m * (8 * P) < 2 ^ 53 * (8 * P) := by rw [← hmx, ← p4]; exact h2
      exact lt_of_mul_lt_mul_right this (by positivity)
    have : m < 2 ^ 53 := by exact_mod_cast this
    omega
  rw [abs_le] at hd'
  have hm2' : (m : ℝ) ≤ 2 ^ 53 - 1 := by exact_mod_cast hm2
  have hm1' : (2 : ℝ) ^ 52 ≤ m := by exact_mod_cast hm1
  by_cases hlow : (2:ℝ) ^ K ≤ x + d
  · have hup : x + d < 2 ^ (K + 1) := by
      rw [p4, hmx]; nlinarith
    have hpos' : 0 < x + d := lt_of_lt_of_le (two_zpow_pos K) hlow
    have := rndReal_eq (x := x + d) (e := K) (m := m) (by rwa [abs_of_pos hpos']) (by rwa [abs_of_pos hpos']) (by omega) ?_
    · rw [this, p1]; exact hmx.symm
    · rw [p1, hmx, abs_lt]
      have : (m * (8 * P) + d) / (8 * P) - m = d / (8 * P) := by field_simp; ring
      rw [this]
      constructor
      · rw [lt_div_iff₀ (by positivity)]; linarith
      · rw [div_lt_iff₀ (by positivity)]; linarith
  · push Not at hlow
    have hm3 : m = 2 ^ 52 := by
      have : (m : ℝ) < 2 ^ 52 + 1 := by
        have : m * (8 * P) < (2 ^ 52 + 1) * (8 * P) := by rw [← hmx]; rw [p3] at hlow; linarith
        exact lt_of_mul_lt_mul_right this (by positivity)
      have : m < 2 ^ 52 + 1 := by exact_mod_cast this
      omega
    subst hm3
    have hlow2 : (2:ℝ) ^ (K - 1) ≤ x + d := by
      have : (2:ℝ) ^ (K - 1) = 2 ^ K / 2 := by rw [zpow_sub₀ (by norm_num)]; norm_num
      rw [this, p3, hmx]; push_cast; nlinarith
    have hpos' : 0 < x + d := lt_of_lt_of_le (two_zpow_pos _) hlow2
    have := rndReal_eq (x := x + d) (e := K - 1) (m := 2 ^ 53) (by rwa [abs_of_pos hpos'])
      (by rw [abs_of_pos hpos']; simpa using hlow) (by omega) ?_
    · rw [this, show K - 1 - 52 = K - 53 by ring, p2, hmx]; push_cast; ring
    · rw [show K - 1 - 52 = K - 53 by ring, p2, hmx, abs_lt]
      have : (((2 ^ 52 : ℤ) : ℝ) * (8 * P) + d) / (4 * P) - ((2 ^ 53 : ℤ) : ℝ) = d / (4 * P) := by
        push_cast; field_simp; ring
      rw [this]
      constructor
      · rw [lt_div_iff₀ (by positivity)]; linarith
      · rw [div_lt_iff₀ (by positivity)]; linarith

/-! ### Relative error -/

theorem rndReal_rel (x : ℝ) : |rndReal x - x| ≤ 2 ^ (-53 : ℤ) * |x| + 2 ^ (-1075 : ℤ) := by
  have h := rndReal_near x
  have hq : lastPlace x ≤ Int.log 2 |x| - 52 ∨ lastPlace x = -1074 := by unfold lastPlace; omega
  have h0 := two_zpow_pos (-1075)
  have h53 := two_zpow_pos (-53)
  rcases eq_or_ne x 0 with rfl | hx
  · rw [rndReal_zero]; simp
  have hxa := abs_pos.mpr hx
  rcases hq with hq | hq
  · have h1 : (2:ℝ) ^ Int.log 2 |x| ≤ |x| := by
      have := Int.zpow_log_le_self (b := 2) (r := |x|) (by norm_num) hxa
      exact_mod_cast this
    have h2 : (2:ℝ) ^ lastPlace x ≤ 2 ^ (Int.log 2 |x| - 52) := zpow_le_zpow_right₀ (by norm_num) hq
    have h3 : (2:ℝ) ^ (Int.log 2 |x| - 52) = 2 ^ Int.log 2 |x| * (2 * 2 ^ (-53 : ℤ)) := by
      rw [sub_eq_add_neg, zpow_add₀ (by norm_num)]; norm_num
    nlinarith
  · rw [hq] at h
    have h3 : (2:ℝ) ^ (-1074 : ℤ) = 2 * 2 ^ (-1075 : ℤ) := by
      rw [show (-1074 : ℤ) = 1 + -1075 by norm_num, zpow_add₀ (by norm_num)]; norm_num
    rw [h3] at h
    have := mul_nonneg h53.le hxa.le
    linarith

end Paragami
