import Verif.Proofs.Binary64
import Verif.Proofs.Rounding
import Mathlib.Analysis.Complex.ExponentialBounds

/-! # The machine `binary64` satisfies the assumptions -/

set_option linter.unusedSimpArgs false

namespace Paragami
open Flt

theorem round64_eq (x : Flt) : binary64.round x = round64 x := by cases x <;> rfl

theorem rnd64_notNaN (r : ℝ) : (rnd64 r).NotNaN := (le_notNaN (rnd64_mono (le_refl r))).1

theorem round64_idem (x : Flt) : round64 (round64 x) = round64 x := by
  cases x with
  | fin r =>
    change round64 (rnd64 r) = rnd64 r
    cases h : rnd64 r with
    | fin y => exact rnd64_idem h
    | _ => rfl
  | _ => rfl

theorem round64_mono {a b : Flt} (hab : a.le b = true) : (round64 a).le (round64 b) = true := by
  have key := rnd64_notNaN
  cases a with
  | fin r =>
    cases b with
    | fin q => exact rnd64_mono (by simpa using hab)
    | pinf => have := key r; simp only [round64]; cases hr : rnd64 r <;> simp_all [le, lt, eq, NotNaN]
    | ninf => simp [le, lt, eq] at hab
    | nan => simp [le, lt, eq] at hab
  | pinf => cases b <;> simp_all [le, lt, eq, round64]
  | ninf =>
    cases b with
    | fin q => have := key q; simp only [round64]; cases hr : rnd64 q <;> simp_all [le, lt, eq, NotNaN]
    | pinf => rfl
    | ninf => rfl
    | nan => simp [le, lt, eq] at hab
  | nan => cases b <;> simp_all [le, lt, eq]

theorem add_nonneg' {a b : Flt} (ha : (Flt.fin 0).le a = true) (hb : (Flt.fin 0).le b = true) :
    a.le (a + b) = true ∧ b.le (a + b) = true ∧ (Flt.fin 0).le (a + b) = true := by
  rcases nonneg_cases ha with rfl | ⟨p, hp, rfl⟩ <;> rcases nonneg_cases hb with rfl | ⟨q, hq, rfl⟩
  · exact ⟨rfl, rfl, rfl⟩
  · exact ⟨rfl, rfl, rfl⟩
  · exact ⟨rfl, rfl, rfl⟩
  · simp only [add_fin, le_fin_iff]; exact ⟨by linarith, by linarith, by linarith⟩

theorem foldl_round_ge : ∀ (l : List Flt) (a : Flt), (Flt.fin 0).le a = true → round64 a = a →
    (∀ x ∈ l, (Flt.fin 0).le x = true ∧ round64 x = x) →
    a.le (l.foldl (fun a x => round64 (a + x)) a) = true ∧
      ∀ x ∈ l, x.le (l.foldl (fun a x => round64 (a + x)) a) = true
  | [], a, ha, _, _ => ⟨le_refl' (le_notNaN ha).2, by simp⟩
  | x :: l, a, ha, hm, h => by
    obtain ⟨hx, hxm⟩ := h x (by simp)
    obtain ⟨h1, h2, h3⟩ := add_nonneg' ha hx
    have h1' := round64_mono h1; rw [hm] at h1'
    have h2' := round64_mono h2; rw [hxm] at h2'
    have h3' := round64_mono h3; rw [show round64 (.fin 0) = .fin 0 from rnd64_zero] at h3'
    obtain ⟨h4, h5⟩ := foldl_round_ge l (round64 (a + x)) h3' (round64_idem _) (fun y hy => h y (by simp [hy]))
    refine ⟨le_trans' h1' h4, fun y hy => ?_⟩
    rcases List.mem_cons.mp hy with rfl | hy
    · exact le_trans' h2' h4
    · exact h5 y hy

theorem foldl_dot_ge : ∀ (l : List (Flt × Flt)) (a : Flt), (Flt.fin 0).le a = true →
    (∀ p ∈ l, (Flt.fin 0).le (p.1 * p.2) = true) →
    (Flt.fin 0).le (l.foldl (fun a p => round64 (a + round64 (p.1 * p.2))) a) = true
  | [], a, ha, _ => ha
  | p :: l, a, ha, h => by
    have h1 := round64_mono (h p (by simp)); rw [show round64 (.fin 0) = .fin 0 from rnd64_zero] at h1
    have h2 := round64_mono (add_nonneg' ha h1).2.2; rw [show round64 (.fin 0) = .fin 0 from rnd64_zero] at h2
    exact foldl_dot_ge l _ h2 (fun q hq => h q (by simp [hq]))

theorem sq_nonneg' {x : Flt} (h : x.NotNaN) : (Flt.fin 0).le (x * x) = true := by
  cases x with
  | fin r => simp only [mul_fin, le_fin_iff]; exact mul_self_nonneg r
  | pinf => rfl
  | ninf => rfl
  | nan => exact h.elim

theorem mul_comm' (a b : Flt) : a * b = b * a := by
  cases a <;> cases b <;> first | rfl | (simp only [mul_fin, mul_comm])

theorem binary64_sane : binary64.Sane where
  mono a b h := rnd64_mono h
  idem a := by rw [Arith.Machine, round64_eq]; exact round64_idem (.fin a)
  zero := rnd64_zero
  one := rnd64_one
  neg a h := rnd64_neg_fin h
  exp_nan := rfl
  exp_pinf := rfl
  exp_ninf := rnd64_zero
  exp_zero := by change rnd64 (Real.exp 0) = _; rw [Real.exp_zero, rnd64_one]
  exp_machine x := by rw [Arith.Machine, round64_eq]; exact round64_idem _
  exp_nonneg r := by
    have := rnd64_mono (Real.exp_pos r).le; rwa [rnd64_zero] at this
  exp_le_one r hr := by
    have := rnd64_mono (Real.exp_le_one_iff.mpr hr); rwa [rnd64_one] at this
  log_nonneg x hx := by
    have h0 : (0:ℝ) ≤ 1 := zero_le_one
    rcases nonneg_cases (le_trans' (by simp) hx) with rfl | ⟨r, hr, rfl⟩
    · rfl
    · have hr : 1 ≤ r := by simpa using hx
      change (Flt.fin 0).le (round64 (Flt.log (.fin r))) = true
      rw [log_fin (by linarith)]
      have := rnd64_mono (Real.log_nonneg hr); rwa [rnd64_zero] at this
  sum_ge l h x hx := by
    refine (foldl_round_ge l (.fin 0) (by simp) rnd64_zero (fun y hy => ⟨(h y hy).1, ?_⟩)).2 x hx
    have := (h y hy).2
    rwa [Arith.Machine, round64_eq] at this
  dot_comm l := by
    change (l.map Prod.swap).foldl _ _ = l.foldl _ _
    rw [List.foldl_map]
    congr 1
    funext a p
    rw [Prod.fst_swap, Prod.snd_swap, mul_comm']
  dot_sq l h := foldl_dot_ge l _ (by simp) fun p hp => by
    obtain ⟨h1, h2⟩ := h p hp
    rw [← h1]; exact sq_nonneg' h2
  dot_zero l h := by
    change l.foldl _ _ = _
    induction l with
    | nil => rfl
    | cons p l ih =>
      obtain ⟨h1, h2⟩ := h p (by simp)
      rw [List.foldl_cons, h1, h2]
      have : round64 (.fin 0 + round64 (.fin 0 * .fin 0)) = .fin 0 := by
        have h0 : round64 (.fin 0) = .fin 0 := rnd64_zero
        simp only [mul_fin, mul_zero, h0, add_fin, add_zero]
      rw [this]
      exact ih fun q hq => h q (by simp [hq])
  chol_fails n a hn h := by
    change (if _ then _ else _) = _
    rw [if_pos ⟨h, hn⟩]

/-! ### Accuracy -/

theorem machine_mul {x : ℝ} (h : rndReal x = x) : ∃ m : ℤ, x = m * 2 ^ (-1074 : ℤ) := by
  obtain ⟨m, e, _, he, hx⟩ := rndReal_form x
  rw [h] at hx
  refine ⟨m * 2 ^ (e - -1074).toNat, ?_⟩
  rw [hx, zpow_eq_mul he]; push_cast; ring

theorem rndReal_of_machine {x : ℝ} (h : rnd64 x = .fin x) : rndReal x = x := by
  unfold rnd64 at h
  split_ifs at h
  injection h

theorem rndReal_add_rel {x y : ℝ} (hx : rndReal x = x) (hy : rndReal y = y) : |rndReal (x + y) - (x + y)| ≤ 2 ^ (-53 : ℤ) * |x + y| := by
  obtain ⟨m, hm⟩ := machine_mul hx
  obtain ⟨n, hn⟩ := machine_mul hy
  have hz : x + y = ((m + n : ℤ) : ℝ) * 2 ^ (-1074 : ℤ) := by
    conv_lhs => rw [hm, hn]
    push_cast; ring
  generalize x + y = z at *
  have h53 := two_zpow_pos (-53)
  have hq : lastPlace z ≤ Int.log 2 |z| - 52 ∨ lastPlace z = -1074 := by unfold lastPlace; omega
  rcases eq_or_ne z 0 with rfl | hz0
  · rw [rndReal_zero]; simp
  have hza := abs_pos.mpr hz0
  rcases hq with hq | hq
  · have h := rndReal_near z
    have h1 : (2:ℝ) ^ Int.log 2 |z| ≤ |z| := by
      have := Int.zpow_log_le_self (b := 2) (r := |z|) (by norm_num) hza
      exact_mod_cast this
    have h2 : (2:ℝ) ^ lastPlace z ≤ 2 ^ (Int.log 2 |z| - 52) := zpow_le_zpow_right₀ (by norm_num) hq
    have h3 : (2:ℝ) ^ (Int.log 2 |z| - 52) = 2 ^ Int.log 2 |z| * (2 * 2 ^ (-53 : ℤ)) := by
      rw [sub_eq_add_neg, zpow_add₀ (by norm_num)]; norm_num
    nlinarith
  · have : rndReal z = z := by
      unfold rndReal
      rw [hq]
      have hp := two_zpow_pos (-1074)
      have h1 : z / 2 ^ (-1074 : ℤ) = ((m + n : ℤ) : ℝ) := by rw [div_eq_iff hp.ne']; exact hz
      rw [h1, roundEven_int]; exact hz.symm
    rw [this, sub_self, abs_zero]
    positivity

theorem u_val : (2:ℝ) ^ (-52 : ℤ) = 2 * 2 ^ (-53 : ℤ) := by
  rw [show (-52 : ℤ) = 1 + -53 by norm_num, zpow_add₀ (by norm_num)]; norm_num

theorem overflow64_big : (2:ℝ) ^ (40 : ℤ) ≤ overflow64 := zpow_le_zpow_right₀ (by norm_num) (by norm_num)

theorem foldl_sum_acc : ∀ (l : List ℝ) (k : ℕ) (s T : ℝ), rndReal s = s → 0 ≤ s → 0 ≤ T → T ≤ 2 * k →
    |s - T| ≤ k * 2 ^ (-52 : ℤ) * T → k + l.length ≤ 2 ^ 20 →
    (∀ x ∈ l, 0 ≤ x ∧ x ≤ 2 ∧ rndReal x = x) →
    ∃ v, (l.map Flt.fin).foldl (fun a x => round64 (a + x)) (.fin s) = .fin v ∧ rndReal v = v ∧
      |v - (T + l.sum)| ≤ (k + l.length : ℕ) * 2 ^ (-52 : ℤ) * (T + l.sum)
  | [], k, s, T, hs, _, _, _, h, _, _ => ⟨s, rfl, hs, by simpa using h⟩
  | x :: l, k, s, T, hs, hs0, hT, hT2, h, hk, hl => by
    obtain ⟨hx0, hx2, hxm⟩ := hl x (by simp)
    have hr := rndReal_add_rel hs hxm
    have hu := two_zpow_pos (-53)
    rw [u_val] at h
    have hk' : (k:ℝ) ≤ 2 ^ 20 := by
      have : k ≤ 2 ^ 20 := by omega
      exact_mod_cast this
    have hu' : (2:ℝ) ^ (-53 : ℤ) * 2 ^ 53 = 1 := by
      rw [zpow_neg]; norm_num
    set u : ℝ := 2 ^ (-53 : ℤ) with hudef
    have hz0 : 0 ≤ s + x := by linarith
    rw [abs_of_nonneg hz0] at hr
    have hku : k * (2 * u) ≤ 1 := by nlinarith
    have hk0 : (0:ℝ) ≤ k := by positivity
    have hsT : s ≤ 2 * T := by
      have := (abs_le.mp h).2; nlinarith
    have hz' : rndReal (s + x) ≤ 2 ^ (40 : ℤ) - 1 := by
      have := (abs_le.mp hr).2
      have h40 : (2:ℝ) ^ (40:ℤ) = 1099511627776 := by norm_num
      rw [h40]
      have hu1 : u ≤ 1 := by nlinarith
      have hkk : (k:ℝ) ≤ 1048576 := le_of_le_of_eq hk' (by norm_num)
      nlinarith
    have hz1 : 0 ≤ rndReal (s + x) := rndReal_nonneg hz0
    have hstep : round64 (Flt.fin s + Flt.fin x) = .fin (rndReal (s + x)) := by
      apply rnd64_of rfl
      rw [abs_of_nonneg hz1]
      have := overflow64_big; linarith
    have hT' : T + x ≤ 2 * ((k + 1 : ℕ) : ℝ) := by push_cast; linarith
    have hacc : |rndReal (s + x) - (T + x)| ≤ ((k + 1 : ℕ) : ℝ) * 2 ^ (-52 : ℤ) * (T + x) := by
      rw [u_val, ← hudef]
      have e1 : rndReal (s + x) - (T + x) = (rndReal (s + x) - (s + x)) + (s - T) := by ring
      rw [e1]
      refine (abs_add_le _ _).trans ?_
      have h2 := (abs_le.mp h).2
      have h3 : s + x ≤ (1 + k * (2 * u)) * (T + x) := by
        nlinarith [mul_nonneg (mul_nonneg hk0 hu.le) hx0]
      have h4 : u * (s + x) ≤ u * (2 * (T + x)) := by
        apply mul_le_mul_of_nonneg_left _ hu.le; nlinarith
      push_cast
      nlinarith [mul_nonneg (mul_nonneg hk0 hu.le) hx0]
    obtain ⟨v, h1, h2, h3⟩ := foldl_sum_acc l (k + 1) (rndReal (s + x)) (T + x) (rndReal_idem _) hz1 (by linarith) hT' hacc
      (by simp only [List.length_cons] at hk; omega) (fun y hy => hl y (by simp [hy]))
    refine ⟨v, ?_, h2, ?_⟩
    · rw [List.map_cons, List.foldl_cons, hstep]; exact h1
    · rw [List.sum_cons, List.length_cons, ← add_assoc, show k + (l.length + 1) = k + 1 + l.length by ring]; exact h3

theorem binary64_accurate : binary64.Accurate where
  rnd := rfl
  exp r hr := by
    have h := rndReal_rel (Real.exp r)
    have he := Real.exp_pos r
    rw [abs_of_pos he] at h
    refine ⟨rndReal (Real.exp r), rnd64_of rfl ?_, h.trans ?_⟩
    · rw [abs_of_nonneg (rndReal_nonneg he.le)]
      have h709 : Real.exp r ≤ 2 ^ (1023 : ℤ) := by
        have h1 : Real.exp r ≤ Real.exp ((1023:ℤ) * Real.log 2) := by
          apply Real.exp_le_exp.mpr
          have := Real.log_two_gt_d9
          push_cast; linarith
        rwa [mul_comm, Real.exp_mul, Real.exp_log (by norm_num), Real.rpow_intCast] at h1
      have h2 := (abs_le.mp h).2
      have h3 : (2:ℝ) ^ (-53 : ℤ) ≤ 1 / 4 := by
        calc (2:ℝ) ^ (-53 : ℤ) ≤ 2 ^ (-2 : ℤ) := zpow_le_zpow_right₀ (by norm_num) (by norm_num)
          _ = 1 / 4 := by norm_num
      have h4 : (2:ℝ) ^ (-1075 : ℤ) ≤ 1 / 4 := by
        calc (2:ℝ) ^ (-1075 : ℤ) ≤ 2 ^ (-2 : ℤ) := zpow_le_zpow_right₀ (by norm_num) (by norm_num)
          _ = 1 / 4 := by norm_num
      have h5 : overflow64 = 2 * 2 ^ (1023 : ℤ) := by
        rw [overflow64, show (1024 : ℤ) = 1 + 1023 by norm_num, zpow_add₀ (by norm_num)]; norm_num
      have h6 : (1:ℝ) ≤ 2 ^ (1023 : ℤ) := one_le_zpow₀ (by norm_num) (by norm_num)
      have h7 : (2:ℝ) ^ (-53 : ℤ) * Real.exp r ≤ 1 / 4 * Real.exp r := mul_le_mul_of_nonneg_right h3 he.le
      rw [h5]
      generalize (2:ℝ) ^ (1023 : ℤ) = M at *
      generalize (2:ℝ) ^ (-53 : ℤ) * Real.exp r = a at *
      generalize (2:ℝ) ^ (-1075 : ℤ) = b at *
      linarith
    · have h1 : (2:ℝ) ^ (-53 : ℤ) ≤ 2 ^ (-52 : ℤ) := zpow_le_zpow_right₀ (by norm_num) (by norm_num)
      have h2 : (2:ℝ) ^ (-1075 : ℤ) ≤ 2 ^ (-1074 : ℤ) := zpow_le_zpow_right₀ (by norm_num) (by norm_num)
      nlinarith
  log r hr hr' := by
    have hl := Real.log_nonneg hr
    have hl2 : Real.log r ≤ 1024 := by
      have h1 : Real.log r ≤ Real.log overflow64 := Real.log_le_log (by linarith) hr'.le
      have h2 : Real.log overflow64 = 1024 * Real.log 2 := by
        rw [overflow64, Real.log_zpow]; norm_num
      have := Real.log_two_lt_d9
      rw [h2] at h1; linarith
    have hrel : |rndReal (Real.log r) - Real.log r| ≤ 2 ^ (-52 : ℤ) * Real.log r + 2 ^ (-1074 : ℤ) := by
      have h := rndReal_rel (Real.log r)
      rw [abs_of_nonneg hl] at h
      have h1 : (2:ℝ) ^ (-53 : ℤ) ≤ 2 ^ (-52 : ℤ) := zpow_le_zpow_right₀ (by norm_num) (by norm_num)
      have h2 : (2:ℝ) ^ (-1075 : ℤ) ≤ 2 ^ (-1074 : ℤ) := zpow_le_zpow_right₀ (by norm_num) (by norm_num)
      nlinarith
    refine ⟨rndReal (Real.log r), ?_, hrel⟩
    change round64 (Flt.log (.fin r)) = _
    rw [log_fin (by linarith)]
    apply rnd64_of rfl
    rw [abs_of_nonneg (rndReal_nonneg hl)]
    have h2 := (abs_le.mp hrel).2
    have h3 : (2:ℝ) ^ (-52 : ℤ) ≤ 1 := zpow_le_one_of_nonpos₀ (by norm_num) (by norm_num)
    have h4 : (2:ℝ) ^ (-1074 : ℤ) ≤ 1 := zpow_le_one_of_nonpos₀ (by norm_num) (by norm_num)
    have := overflow64_big
    have h40 : (2:ℝ) ^ (40:ℤ) = 1099511627776 := by norm_num
    nlinarith
  sum l hl hn := by
    obtain ⟨v, h1, _, h3⟩ := foldl_sum_acc l 0 0 0 rndReal_zero le_rfl le_rfl (by simp) (by simp) (by omega)
      (fun x hx => ⟨(hl x hx).1, (hl x hx).2.1, rndReal_of_machine (hl x hx).2.2⟩)
    exact ⟨v, h1, by simpa using h3⟩

end Paragami
