import Verif.Proofs.RoundingOptimization

/-! # Preconditioners in floating point: `check_preconditioner` -/

namespace Paragami
open NDArray Flt Spec Optimization

variable {A : Arith}

theorem sum_sq_le {n : ℕ} {δ : ℕ → ℝ} {ε : ℝ} (h : ∀ i < n, |δ i| ≤ ε) : ∑ i ∈ Finset.range n, |δ i| * |δ i| ≤ n * (ε * ε) :=
  sum_le_card fun i hi => mul_le_mul (h i hi) (h i hi) (abs_nonneg _) ((abs_nonneg _).trans (h i hi))

/-- The norm of a vector of small numbers is not large. -/
theorem norm_small (hB : A.Accurate) (hD : A.DotAccurate) {n : ℕ} {δ : ℕ → ℝ} {ε tol : ℝ} (hn : n ≤ 2 ^ 19) (hε : 0 ≤ ε) (hε' : ε ≤ 2 ^ (400 : ℤ))
    (hm : ∀ i < n, A.Machine (.fin (δ i)) ∧ |δ i| ≤ ε) (ht : 1.01 * (n * ε) + 2 ^ (-500 : ℤ) ≤ tol) : (normA A (fvec n δ)).gt (.fin tol) = false := by
  have hu0 := Arith.uRound_pos
  have hu1 := Arith.uRound_le
  have hn' := pow19 hn
  have hS := sum_sq_le fun i hi => (hm i hi).2
  have hS' : ∑ i ∈ Finset.range n, |δ i| * |δ i| ≤ 2 ^ (819 : ℤ) := by
    refine hS.trans ?_
    have h1 : (n:ℝ) ≤ 2 ^ (19 : ℤ) := by exact_mod_cast hn
    have h2 := mul_zpow_le hε hε' hε'
    exact (mul_zpow_le (by positivity) h1 h2).trans (by norm_num)
  obtain ⟨v, e, _, hv⟩ := dot_range hD (f := δ) (g := δ) (hn.trans (by norm_num)) (fun i hi => (hm i hi).1) (fun i hi => (hm i hi).1)
    (Arith.up_zpow hS' (by norm_num))
  have e1 : normA A (fvec n δ) = A.sqrt (.fin v) := by
    rw [normA, ← e]
    simp [fvec, vec, List.map_map, Function.comp_def]
  rw [e1, Arith.sqrt, Flt.sqrt]
  by_cases h0 : 0 ≤ v
  swap
  · rw [if_neg h0]; simp [Arith.round, gt, lt]
  rw [if_pos h0]
  set r : ℝ := 2 ^ (-520 : ℤ) with hr
  have hr0 : 0 < r := two_zpow_pos _
  have hvle : v ≤ (1.001 * (n * ε) + r) ^ 2 := by
    have a1 : ∑ i ∈ Finset.range n, δ i * δ i ≤ n * (ε * ε) := (Finset.sum_le_sum fun i _ => by
      rw [← abs_mul_abs_self (δ i)]).trans hS
    have a2 := (abs_le.mp hv).2
    have a3 : (n:ℝ) * (2 * Arith.uRound) ≤ 1 / 1000 :=
      (mul_le_mul hn' (mul_le_mul_of_nonneg_left hu1 (by norm_num)) (by positivity) (by norm_num)).trans (by norm_num)
    have a4 : (n:ℝ) * (2 * Arith.uRound) * (∑ i ∈ Finset.range n, |δ i| * |δ i|) ≤ 1 / 1000 * (n * (ε * ε)) :=
      mul_le_mul a3 hS (Finset.sum_nonneg fun i _ => by positivity) (by norm_num)
    have a5 : (n:ℝ) * 2 ^ (-1074 : ℤ) ≤ r * r := by
      have h1 : (n:ℝ) ≤ 2 ^ (19 : ℤ) := by exact_mod_cast hn
      rw [hr, ← Arith.zpow_split]
      exact (mul_zpow_le (two_zpow_pos _).le h1 le_rfl).trans (Arith.small_zpow (by norm_num))
    have a6 : (n:ℝ) ≤ n * n := by exact_mod_cast Nat.le_mul_self n
    have a7 : n * (ε * ε) ≤ n * n * (ε * ε) := mul_le_mul_of_nonneg_right a6 (by positivity)
    have a8 : 0 ≤ n * ε * r := by positivity
    nlinarith
  have hroot : Real.sqrt v ≤ 1.001 * (n * ε) + r := by
    rw [← Real.sqrt_sq (show 0 ≤ 1.001 * (n * ε) + r by positivity)]
    exact Real.sqrt_le_sqrt hvle
  have hbig : |Real.sqrt v| ≤ 2 ^ (1010 : ℤ) := by
    rw [abs_of_nonneg (Real.sqrt_nonneg _)]
    refine hroot.trans ?_
    have h1 : (n:ℝ) ≤ 2 ^ (19 : ℤ) := by exact_mod_cast hn
    have h2 := mul_zpow_le hε h1 hε'
    have h3 : r ≤ 2 ^ (19 + 400 : ℤ) := Arith.small_zpow (by norm_num)
    have h4 : (3:ℝ) * 2 ^ (19 + 400 : ℤ) ≤ 2 ^ (1010 : ℤ) := (mul_zpow_le (two_zpow_pos _).le (show (3:ℝ) ≤ 2 ^ (2 : ℤ) by norm_num) le_rfl).trans (Arith.small_zpow (by norm_num))
    generalize (2:ℝ) ^ (19 + 400 : ℤ) = q at *
    generalize (2:ℝ) ^ (1010 : ℤ) = q' at *
    have : 0 ≤ n * ε := by positivity
    linarith
  rw [hB.round_le hbig]
  have h1 := rndReal_rel (Real.sqrt v)
  rw [Arith.uRound_val, abs_of_nonneg (Real.sqrt_nonneg v)] at h1
  have h2 := (abs_le.mp h1).2
  have h3 : Arith.uRound * Real.sqrt v ≤ 1 / 1000 * Real.sqrt v := mul_le_mul_of_nonneg_right (hu1.trans (by norm_num)) (Real.sqrt_nonneg _)
  have h4 : (2:ℝ) ^ (-1075 : ℤ) ≤ r := Arith.small_zpow (by norm_num)
  have h5 : 4 * r ≤ 2 ^ (-500 : ℤ) := (mul_zpow_le (two_zpow_pos _).le (show (4:ℝ) ≤ 2 ^ (2 : ℤ) by norm_num) le_rfl).trans (Arith.small_zpow (by norm_num))
  simp only [gt, lt, decide_eq_false_iff_not, not_lt]
  have : 0 ≤ n * ε := by positivity
  generalize (2:ℝ) ^ (-500 : ℤ) = q at *
  generalize (2:ℝ) ^ (-1075 : ℤ) = q' at *
  linarith

/-- `check_preconditioner` accepts when the vector comes back up to a small error. -/
theorem check_accepts (hA : A.Sane) (hB : A.Accurate) (hD : A.DotAccurate) {s : PrecondA} {n : ℕ} {v w y : ℕ → ℝ} {ε tol : ℝ} (hn : n ≤ 2 ^ 19)
    (h1 : s.aInvTimes (fvec n v) = .ok (fvec n w)) (h2 : s.aTimes (fvec n w) = .ok (fvec n y)) (hv : ∀ i < n, A.Machine (.fin (v i)))
    (hy : ∀ i < n, A.Machine (.fin (y i)) ∧ |y i - v i| ≤ ε) (hε : 0 ≤ ε) (hε' : ε ≤ 2 ^ (300 : ℤ)) (ht : 1.02 * (n * ε) + 2 ^ (-500 : ℤ) ≤ tol) :
    s.check A (fvec n v) (.fin tol) = .ok () := by
  have hu0 := Arith.uRound_pos
  have hu1 := Arith.uRound_le
  have hsub : ∀ i, ∃ δ, i < n → A.sub (.fin (v i)) (.fin (y i)) = .fin δ ∧ |δ - (v i - y i)| ≤ Arith.uRound * |v i - y i| := by
    intro i
    by_cases hi : i < n
    · obtain ⟨δ, h⟩ := hB.sub_rel (hv i hi) (hy i hi).1 (Arith.up_zpow ((abs_sub_comm (v i) (y i)).le.trans ((hy i hi).2.trans hε')) (by norm_num))
      exact ⟨δ, fun _ => h⟩
    · exact ⟨0, fun h => absurd h hi⟩
  choose δ hδ using hsub
  have hz : zipA A.sub (fvec n v) (fvec n y) = .ok (fvec n δ) := zip_fvec fun i hi => (hδ i hi).1
  have hs : ∀ i < n, |δ i| ≤ 1.001 * ε := by
    intro i hi
    have a : |δ i| ≤ |δ i - (v i - y i)| + |v i - y i| := by simpa using abs_add_le (δ i - (v i - y i)) (v i - y i)
    have b := (hδ i hi).2
    have c : |v i - y i| ≤ ε := by rw [abs_sub_comm]; exact (hy i hi).2
    have d : Arith.uRound * |v i - y i| ≤ 1 / 1000 * |v i - y i| := mul_le_mul_of_nonneg_right (hu1.trans (by norm_num)) (abs_nonneg _)
    linarith
  have hk := norm_small hB hD (tol := tol) hn (show (0:ℝ) ≤ 1.001 * ε by positivity) (by
      refine Arith.up_zpow (Arith.double_zpow hε' (show 1.001 * ε ≤ 2 * ε by linarith)) (by norm_num))
    (fun i hi => ⟨op_machine hA (hδ i hi).1, hs i hi⟩) (by
      have : 0 ≤ n * ε := by positivity
      generalize (2:ℝ) ^ (-500 : ℤ) = q at *
      linarith)
  simp only [PrecondA.check, h1, h2, hz, bind, Except.bind, hk]
  rfl

/-- `check_preconditioner` raises when one entry does not come back. -/
theorem check_rejects (hA : A.Sane) (hB : A.Accurate) (hD : A.DotAccurate) {s : PrecondA} {n : ℕ} {v w y : ℕ → ℝ} {V tol : ℝ} (hn : n ≤ 2 ^ 19)
    (h1 : s.aInvTimes (fvec n v) = .ok (fvec n w)) (h2 : s.aTimes (fvec n w) = .ok (fvec n y)) (hv : ∀ i < n, A.Machine (.fin (v i)))
    (hy : ∀ i < n, A.Machine (.fin (y i)) ∧ |y i - v i| ≤ V) (hV : V ≤ 2 ^ (450 : ℤ)) (ht : 2 ^ (-400 : ℤ) ≤ tol) {i : ℕ} (hi : i < n)
    (hb : 2 * tol ≤ |y i - v i|) :
    s.check A (fvec n v) (.fin tol) = .error (.valueError "``a_times`` does not invert ``a_inv_times``.") := by
  have hu0 := Arith.uRound_pos
  have hu1 := Arith.uRound_le
  have hn' := pow19 hn
  have hV0 : 0 ≤ V := (abs_nonneg _).trans (hy i hi).2
  have hsub : ∀ i, ∃ δ, i < n → A.sub (.fin (v i)) (.fin (y i)) = .fin δ ∧ |δ - (v i - y i)| ≤ Arith.uRound * |v i - y i| := by
    intro i
    by_cases hi : i < n
    · obtain ⟨δ, h⟩ := hB.sub_rel (hv i hi) (hy i hi).1 (Arith.up_zpow ((abs_sub_comm (v i) (y i)).le.trans ((hy i hi).2.trans hV)) (by norm_num))
      exact ⟨δ, fun _ => h⟩
    · exact ⟨0, fun h => absurd h hi⟩
  choose δ hδ using hsub
  have hz : zipA A.sub (fvec n v) (fvec n y) = .ok (fvec n δ) := zip_fvec fun i hi => (hδ i hi).1
  have hs : ∀ i < n, |δ i| ≤ 2 ^ (451 : ℤ) ∧ 0.999 * |y i - v i| ≤ |δ i| := by
    intro i hi
    have a : |δ i| ≤ |δ i - (v i - y i)| + |v i - y i| := by simpa using abs_add_le (δ i - (v i - y i)) (v i - y i)
    have a' : |v i - y i| ≤ |δ i - (v i - y i)| + |δ i| := by
      have := abs_sub (δ i) (δ i - (v i - y i))
      rw [sub_sub_cancel] at this; linarith
    have b := (hδ i hi).2
    have c : |v i - y i| ≤ V := by rw [abs_sub_comm]; exact (hy i hi).2
    have d : Arith.uRound * |v i - y i| ≤ 1 / 1000 * |v i - y i| := mul_le_mul_of_nonneg_right (hu1.trans (by norm_num)) (abs_nonneg _)
    refine ⟨Arith.double_zpow hV (show |δ i| ≤ 2 * V by linarith), ?_⟩
    rw [abs_sub_comm (y i)]
    linarith
  set S := ∑ j ∈ Finset.range n, |δ j| * |δ j| with hS
  have hS' : S ≤ 2 ^ (921 : ℤ) := by
    refine (sum_sq_le fun i hi => (hs i hi).1).trans ?_
    have h1 : (n:ℝ) ≤ 2 ^ (19 : ℤ) := by exact_mod_cast hn
    have h2 := mul_zpow_le (two_zpow_pos 451).le (le_refl ((2:ℝ) ^ (451 : ℤ))) (le_refl ((2:ℝ) ^ (451 : ℤ)))
    exact (mul_zpow_le (by positivity) h1 h2).trans (by norm_num)
  have hSge : (1.998 * tol) ^ 2 ≤ S := by
    have a : |δ i| * |δ i| ≤ S := Finset.single_le_sum (f := fun j => |δ j| * |δ j|) (fun j _ => by positivity) (Finset.mem_range.mpr hi)
    have b : 1.998 * tol ≤ |δ i| := le_trans (by linarith) (hs i hi).2
    have c : 0 ≤ 1.998 * tol := by have := (two_zpow_pos (-400)).trans_le ht; linarith
    have := mul_le_mul b b c (abs_nonneg _)
    nlinarith
  obtain ⟨q, e, _, hq⟩ := dot_range hD (f := δ) (g := δ) (hn.trans (by norm_num)) (fun i hi => op_machine hA (hδ i hi).1)
    (fun i hi => op_machine hA (hδ i hi).1) (Arith.up_zpow hS' (by norm_num))
  have e1 : normA A (fvec n δ) = A.sqrt (.fin q) := by
    rw [normA, ← e]
    simp [fvec, vec, List.map_map, Function.comp_def]
  have ht0 : 0 < tol := (two_zpow_pos _).trans_le ht
  have hqe : ∑ j ∈ Finset.range n, δ j * δ j = S := Finset.sum_congr rfl fun j _ => (abs_mul_abs_self _).symm
  have a3 : (n:ℝ) * (2 * Arith.uRound) ≤ 1 / 1000 :=
    (mul_le_mul hn' (mul_le_mul_of_nonneg_left hu1 (by norm_num)) (by positivity) (by norm_num)).trans (by norm_num)
  have hS0 : 0 ≤ S := Finset.sum_nonneg fun i _ => by positivity
  have a4 := mul_le_mul_of_nonneg_right a3 hS0
  have a5 : (n:ℝ) * 2 ^ (-1074 : ℤ) ≤ tol * tol := by
    have h1 : (n:ℝ) ≤ 2 ^ (19 : ℤ) := by exact_mod_cast hn
    refine (mul_zpow_le (two_zpow_pos _).le h1 le_rfl).trans ((Arith.small_zpow (show (19 + -1074 : ℤ) ≤ -400 + -400 by norm_num)).trans ?_)
    rw [Arith.zpow_split]
    exact mul_le_mul ht ht (two_zpow_pos _).le ht0.le
  rw [hqe] at hq
  have hqlo : (1.5 * tol) ^ 2 ≤ q := by
    have := (abs_le.mp hq).1
    nlinarith
  have hqhi : q ≤ 2 ^ (940 : ℤ) := by
    have b := (abs_le.mp hq).2
    have c := near_size hn (show |S| ≤ S by rw [abs_of_nonneg hS0]) hq hS' (one_le_zpow (by norm_num))
    exact (le_abs_self q).trans (Arith.up_zpow (Arith.double_zpow (le_refl ((2:ℝ) ^ (921 : ℤ))) c) (by norm_num))
  have hq0 : 0 ≤ q := le_trans (by positivity) hqlo
  have hroot : 1.5 * tol ≤ Real.sqrt q := Real.le_sqrt_of_sq_le hqlo
  have hbig : |Real.sqrt q| ≤ 2 ^ (1010 : ℤ) := by
    rw [abs_of_nonneg (Real.sqrt_nonneg _)]
    refine (Real.sqrt_le_sqrt (hqhi.trans (?_ : _ ≤ ((2:ℝ) ^ (470 : ℤ)) ^ 2))).trans ?_
    · rw [sq, ← Arith.zpow_split]; norm_num
    · rw [Real.sqrt_sq (two_zpow_pos _).le]; exact Arith.small_zpow (by norm_num)
  have hgt : (normA A (fvec n δ)).gt (.fin tol) = true := by
    rw [e1, Arith.sqrt, Flt.sqrt, if_pos hq0, hB.round_le hbig]
    have h1 := rndReal_rel (Real.sqrt q)
    rw [Arith.uRound_val, abs_of_nonneg (Real.sqrt_nonneg q)] at h1
    have h2 := (abs_le.mp h1).1
    have h3 : Arith.uRound * Real.sqrt q ≤ 1 / 1000 * Real.sqrt q := mul_le_mul_of_nonneg_right (hu1.trans (by norm_num)) (Real.sqrt_nonneg _)
    have h4 : (2:ℝ) ^ (-1075 : ℤ) ≤ 1 / 1000 * tol := by
      have : (2:ℝ) ^ (-1075 : ℤ) ≤ 2 ^ (-10 : ℤ) * 2 ^ (-400 : ℤ) := by rw [← Arith.zpow_split]; exact Arith.small_zpow (by norm_num)
      refine this.trans (mul_le_mul (by norm_num) ht (two_zpow_pos _).le (by norm_num))
    simp only [gt, lt, decide_eq_true_eq]
    generalize (2:ℝ) ^ (-1075 : ℤ) = q' at *
    linarith
  simp only [PrecondA.check, h1, h2, hz, bind, Except.bind, hgt]
  rfl

/-! ### The exact operators -/

theorem stretched_add {n k : ℕ} {U : ℕ → ℕ → ℝ} {d v w : ℕ → ℝ} (i : ℕ) :
    stretched n k U d (fun l => v l + w l) i = stretched n k U d v i + stretched n k U d w i := by
  unfold stretched
  simp only [mul_add, Finset.sum_add_distrib]
  ring

theorem stretched_congr {n k : ℕ} {U : ℕ → ℕ → ℝ} {d v w : ℕ → ℝ} (h : ∀ l < n, v l = w l) {i : ℕ} (hi : i < n) : stretched n k U d v i = stretched n k U d w i := by
  unfold stretched
  rw [h i hi]
  refine congrArg _ (Finset.sum_congr rfl fun j _ => ?_)
  rw [Finset.sum_congr rfl fun l hl => by rw [h l (Finset.mem_range.mp hl)]]

theorem loading_le {n : ℕ} {U : ℕ → ℕ → ℝ} {v : ℕ → ℝ} {g V : ℝ} (hU : Narrow n U g) (hV0 : 0 ≤ V) (hv : ∀ i < n, |v i| ≤ V) {j : ℕ} (hj : j < n) :
    ∑ l ∈ Finset.range n, |U l j| * |v l| ≤ g * V := by
  refine (Finset.sum_le_sum fun l hl => mul_le_mul_of_nonneg_left (hv l (Finset.mem_range.mp hl)) (abs_nonneg _)).trans ?_
  rw [← Finset.sum_mul]
  exact mul_le_mul_of_nonneg_right (hU.cols j hj) hV0

theorem stretchSize_le {n : ℕ} {U : ℕ → ℕ → ℝ} {d v : ℕ → ℝ} {g m V : ℝ} (hU : Narrow n U g) (hm0 : 0 ≤ m) (hV0 : 0 ≤ V) (hg0 : 0 ≤ g)
    (hd : ∀ j < n, |d j - 1| ≤ m) (hv : ∀ i < n, |v i| ≤ V) {i : ℕ} (hi : i < n) : stretchSize n n U d v i ≤ g * g * m * V := by
  unfold stretchSize
  refine (Finset.sum_le_sum (g := fun j => |U i j| * (m * (g * V))) fun j hj => ?_).trans ?_
  · have hj := Finset.mem_range.mp hj
    refine mul_le_mul_of_nonneg_left (mul_le_mul (hd j hj) (loading_le hU hV0 hv hj) (Finset.sum_nonneg fun _ _ => by positivity) hm0) (abs_nonneg _)
  · rw [← Finset.sum_mul]
    refine (mul_le_mul_of_nonneg_right (hU.rows i hi) (by positivity)).trans (le_of_eq (by ring))

theorem stretched_le {n : ℕ} {U : ℕ → ℕ → ℝ} {d v : ℕ → ℝ} {g m V : ℝ} (hU : Narrow n U g) (hm0 : 0 ≤ m) (hV0 : 0 ≤ V) (hg0 : 0 ≤ g)
    (hd : ∀ j < n, |d j - 1| ≤ m) (hv : ∀ i < n, |v i| ≤ V) {i : ℕ} (hi : i < n) : |stretched n n U d v i| ≤ (1 + g * g * m) * V := by
  have h1 := stretchSize_le hU hm0 hV0 hg0 hd hv hi
  have h2 : |∑ j ∈ Finset.range n, U i j * ((d j - 1) * ∑ l ∈ Finset.range n, U l j * v l)| ≤ stretchSize n n U d v i := by
    refine sum_abs_range fun j hj => ?_
    rw [abs_mul, abs_mul]
    refine mul_le_mul_of_nonneg_left (mul_le_mul_of_nonneg_left ?_ (abs_nonneg _)) (abs_nonneg _)
    exact sum_abs_range fun l _ => (abs_mul _ _).le
  have h3 := abs_add_le (v i) (∑ j ∈ Finset.range n, U i j * ((d j - 1) * ∑ l ∈ Finset.range n, U l j * v l))
  have h4 := hv i hi
  unfold stretched
  linarith

/-- One operator after the other. -/
theorem stretched_comp {n : ℕ} {U : ℕ → ℕ → ℝ} {d d' v : ℕ → ℝ} (i : ℕ) :
    stretched n n U d' (stretched n n U d v) i - v i = ∑ j ∈ Finset.range n, U i j * ((d' j * d j - 1) * (∑ l ∈ Finset.range n, U l j * v l) +
      (d' j - 1) * ∑ q ∈ Finset.range n, (∑ l ∈ Finset.range n, U l j * U l q - if j = q then 1 else 0) * ((d q - 1) * ∑ l ∈ Finset.range n, U l q * v l)) := by
  set L : ℕ → ℝ := fun j => ∑ l ∈ Finset.range n, U l j * v l with hL
  have key : ∀ j ∈ Finset.range n, ∑ l ∈ Finset.range n, U l j * stretched n n U d v l = d j * L j +
      ∑ q ∈ Finset.range n, (∑ l ∈ Finset.range n, U l j * U l q - if j = q then 1 else 0) * ((d q - 1) * L q) := by
    intro j hj
    have e1 : ∑ l ∈ Finset.range n, U l j * stretched n n U d v l = L j + ∑ q ∈ Finset.range n, (∑ l ∈ Finset.range n, U l j * U l q) * ((d q - 1) * L q) := by
      have e : ∀ X : ℕ → ℝ, ∑ l ∈ Finset.range n, U l j * (v l + ∑ q ∈ Finset.range n, U l q * X q) =
          L j + ∑ q ∈ Finset.range n, (∑ l ∈ Finset.range n, U l j * U l q) * X q := by
        intro X
        simp only [mul_add, Finset.sum_add_distrib, Finset.mul_sum, Finset.sum_mul]
        rw [Finset.sum_comm]
        simp only [mul_assoc, hL]
      exact e fun q => (d q - 1) * L q
    have e2 : ∑ q ∈ Finset.range n, (if j = q then (1:ℝ) else 0) * ((d q - 1) * L q) = (d j - 1) * L j := by
      simp [Finset.sum_ite_eq, Finset.mem_range.mp hj]
    rw [e1]
    simp only [sub_mul, Finset.sum_sub_distrib] at e2 ⊢
    rw [e2]
    ring
  have e0 : stretched n n U d' (stretched n n U d v) i = v i + ∑ j ∈ Finset.range n, U i j * ((d j - 1) * L j) +
      ∑ j ∈ Finset.range n, U i j * ((d' j - 1) * ∑ l ∈ Finset.range n, U l j * stretched n n U d v l) := rfl
  rw [e0, add_assoc, add_sub_cancel_left, ← Finset.sum_add_distrib]
  refine Finset.sum_congr rfl fun j hj => ?_
  rw [key j hj]
  ring

theorem comp_close {n : ℕ} {U : ℕ → ℕ → ℝ} {d d' v : ℕ → ℝ} {g m V η ρ : ℝ} (hU : Narrow n U g) (hm0 : 0 ≤ m) (hV0 : 0 ≤ V) (hg0 : 0 ≤ g) (hη0 : 0 ≤ η) (hρ0 : 0 ≤ ρ)
    (hO : NearOrthonormal n U η) (hd : ∀ j < n, |d j - 1| ≤ m) (hd' : ∀ j < n, |d' j - 1| ≤ m) (hp : ∀ j < n, |d' j * d j - 1| ≤ ρ) (hv : ∀ i < n, |v i| ≤ V)
    {i : ℕ} (hi : i < n) : |stretched n n U d' (stretched n n U d v) i - v i| ≤ g * g * (ρ + n * (m * m) * η) * V := by
  rw [stretched_comp]
  have hL : ∀ j < n, |∑ l ∈ Finset.range n, U l j * v l| ≤ g * V := fun j hj =>
    (sum_abs_range fun l _ => (abs_mul _ _).le).trans (loading_le hU hV0 hv hj)
  refine (sum_abs_range (g := fun j => |U i j| * (ρ * (g * V) + m * (n * (η * (m * (g * V)))))) fun j hj => ?_).trans ?_
  · rw [abs_mul]
    refine mul_le_mul_of_nonneg_left ((abs_add_le _ _).trans (add_le_add ?_ ?_)) (abs_nonneg _)
    · rw [abs_mul]
      exact mul_le_mul (hp j hj) (hL j hj) (abs_nonneg _) hρ0
    · rw [abs_mul]
      refine mul_le_mul (hd' j hj) ?_ (abs_nonneg _) hm0
      refine (Finset.abs_sum_le_sum_abs _ _).trans (sum_le_card fun q hq => ?_)
      rw [abs_mul, abs_mul]
      exact mul_le_mul (hO j hj q hq) (mul_le_mul (hd q hq) (hL q hq) (abs_nonneg _) hm0) (by positivity) hη0
  · rw [← Finset.sum_mul]
    refine (mul_le_mul_of_nonneg_right (hU.rows i hi) (by positivity)).trans (le_of_eq (by ring))

theorem orthonormal_entry {n : ℕ} {U : ℕ → ℕ → ℝ} {η : ℝ} (hO : NearOrthonormal n U η) (hη : η ≤ 1) {i j : ℕ} (hi : i < n) (hj : j < n) : |U i j| ≤ 2 := by
  have h := (abs_le.mp (hO j hj j hj)).2
  rw [if_pos rfl] at h
  have h1 : U i j * U i j ≤ ∑ l ∈ Finset.range n, U l j * U l j :=
    Finset.single_le_sum (f := fun l => U l j * U l j) (fun l _ => mul_self_nonneg _) (Finset.mem_range.mpr hi)
  exact abs_le_of_sq_le_sq (by nlinarith) (by norm_num)

/-! ### There and back -/

/-- One application with bounded rows and columns. -/
theorem apply_narrow (hA : A.Sane) (hB : A.Accurate) (hD : A.DotAccurate) {n : ℕ} {U : ℕ → ℕ → ℝ} {d v : ℕ → ℝ} {g m V : ℝ} (hn : n ≤ 2 ^ 19)
    (hU : ∀ i < n, ∀ j < n, A.Machine (.fin (U i j)) ∧ |U i j| ≤ 2) (hg : Narrow n U g) (hg0 : 0 ≤ g) (hm0 : 0 ≤ m) (hV0 : 0 ≤ V) (hd : Sized A n (2 ^ (200 : ℤ)) d)
    (hdm : ∀ j < n, |d j - 1| ≤ m) (hv : Sized A n V v) (hV : V ≤ 2 ^ (200 : ℤ)) :
    ∃ y : ℕ → ℝ, stretchA A n n U d (fvec n v) = .ok (fvec n y) ∧ ∀ i < n, A.Machine (.fin (y i)) ∧
      |y i - stretched n n U d v i| ≤ 9 * n * Arith.uRound * ((1 + g * g * m) * V) + 2 ^ (-762 : ℤ) := by
  obtain ⟨y, e, hy⟩ := apply_close hA hB hD hn hn hU hd fun i hi => ⟨(hv i hi).1, (hv i hi).2.trans hV⟩
  refine ⟨y, e, fun i hi => ⟨(hy i hi).1, (hy i hi).2.trans ?_⟩⟩
  have h1 := stretchSize_le hg hm0 hV0 hg0 hdm (fun i hi => (hv i hi).2) hi
  have h2 := stretched_le hg hm0 hV0 hg0 hdm (fun i hi => (hv i hi).2) hi
  have hu0 := Arith.uRound_pos
  have hn1 : (1:ℝ) ≤ n := by exact_mod_cast (by omega : 1 ≤ n)
  rw [Arith.uRound_val]
  have h3 : (n:ℝ) * n * 2 ^ (-800 : ℤ) ≤ 2 ^ (-762 : ℤ) := by
    have h1 : (n:ℝ) ≤ 2 ^ (19 : ℤ) := by exact_mod_cast hn
    exact (mul_zpow_le (two_zpow_pos _).le (mul_zpow_le (by positivity) h1 h1) le_rfl).trans (by norm_num)
  refine add_le_add ?_ h3
  have h4 : stretchSize n n U d v i ≤ (1 + g * g * m) * V := by linarith
  have h5 : (2 * (n:ℝ) + 2 * n + 4) * stretchSize n n U d v i ≤ (8 * n) * ((1 + g * g * m) * V) := by
    refine mul_le_mul (by linarith) h4 (Finset.sum_nonneg fun j _ => by positivity) (by positivity)
  have h6 : 0 ≤ (1 + g * g * m) * V := by positivity
  have h7 : |stretched n n U d v i| + (2 * (n:ℝ) + 2 * n + 4) * stretchSize n n U d v i ≤ 9 * n * ((1 + g * g * m) * V) := by
    have := mul_le_mul_of_nonneg_right hn1 h6
    linarith
  refine (mul_le_mul_of_nonneg_left h7 hu0.le).trans (le_of_eq (by ring))

/-- The real arithmetic of `there_and_back`. -/
theorem trip_core {u n G V g m η τ e1 W r y : ℝ} (hu : 0 ≤ u) (hn : 1 ≤ n) (hnu : 9 * n * u ≤ 1 / 1000) (hg : 1 ≤ g) (hm : 1 ≤ m) (hG : G = 1 + g * g * m) (hV : 0 ≤ V) (hη : 0 ≤ η) (hτ : 0 ≤ τ)
    (he1 : e1 ≤ 9 * n * u * (G * V) + τ) (hW : W ≤ G * V + e1) (hr : r ≤ g * g * (u + n * (m * m) * η) * V + G * e1) (hy : y ≤ r + (9 * n * u * (G * W) + τ)) :
    y ≤ 28 * n * (G * G) * (u + η) * V + 4 * (G * τ) := by
  have hG1 : 1 ≤ G := by rw [hG]; have : 0 ≤ g * g * m := by positivity
                         linarith
  have hG0 : 0 ≤ G := by linarith
  have hGV : 0 ≤ G * V := by positivity
  have hW' : W ≤ 2 * (G * V) + τ := by
    have := mul_le_mul_of_nonneg_right hnu hGV
    linarith
  have a1 : G * e1 ≤ G * (9 * n * u * (G * V) + τ) := mul_le_mul_of_nonneg_left he1 hG0
  have a2 : 9 * n * u * (G * W) ≤ 9 * n * u * (G * (2 * (G * V) + τ)) :=
    mul_le_mul_of_nonneg_left (mul_le_mul_of_nonneg_left hW' hG0) (by positivity)
  have a3 : 9 * n * u * (G * τ) ≤ 1 / 1000 * (G * τ) := mul_le_mul_of_nonneg_right hnu (by positivity)
  have ggm : g * g * m ≤ G := by rw [hG]; linarith
  have b1 : g * g ≤ G * G := by
    have c1 : g * g * 1 ≤ g * g * m := mul_le_mul_of_nonneg_left hm (by positivity)
    have c2 : G * 1 ≤ G * G := mul_le_mul_of_nonneg_left hG1 hG0
    linarith
  have b2 : g * g * (m * m) ≤ G * G := by
    have c1 : g * g * (m * m) ≤ (g * g) * (g * g * (m * m)) := by
      have := mul_le_mul_of_nonneg_right (show 1 ≤ g * g by nlinarith) (show 0 ≤ g * g * (m * m) by positivity)
      linarith
    have c2 : (g * g * m) * (g * g * m) ≤ G * G := mul_le_mul ggm ggm (by positivity) hG0
    linarith
  have d1 : g * g * (u * V) ≤ G * G * (u * V) := mul_le_mul_of_nonneg_right b1 (by positivity)
  have d1' : G * G * (u * V) ≤ n * (G * G * (u * V)) := by
    have := mul_le_mul_of_nonneg_right hn (show 0 ≤ G * G * (u * V) by positivity)
    linarith
  have d2 : g * g * (m * m) * (n * η * V) ≤ G * G * (n * η * V) := mul_le_mul_of_nonneg_right b2 (by positivity)
  have d3 : τ ≤ G * τ := by
    have := mul_le_mul_of_nonneg_right hG1 hτ
    linarith
  have d4 : 0 ≤ n * (G * G) * (η * V) := by positivity
  have key : y ≤ g * g * (u * V) + g * g * (m * m) * (n * η * V) + (9 * n * u * (G * G * V) + G * τ) + (9 * n * u * (2 * (G * G * V)) + 9 * n * u * (G * τ)) + τ := by
    refine hy.trans ?_
    linarith
  linarith

/-- `a_inv_times` and then `a_times`. -/
theorem there_and_back (hA : A.Sane) (hB : A.Accurate) (hD : A.DotAccurate) {n p : ℕ} {U : ℕ → ℕ → ℝ} {d d' v : ℕ → ℝ} {g η V : ℝ} (hn : n ≤ 2 ^ 19) (hp : p ≤ 60)
    (hUm : ∀ i < n, ∀ j < n, A.Machine (.fin (U i j))) (hO : NearOrthonormal n U η) (hη0 : 0 ≤ η) (hη : η ≤ 1) (hg : Narrow n U g) (hg1 : 1 ≤ g) (hg2 : g ≤ 2 ^ 20)
    (hV0 : 0 ≤ V) (hV : V ≤ 2 ^ (60 : ℤ)) (hv : Sized A n V v)
    (hd : ∀ j < n, A.Machine (.fin (d j)) ∧ 0 ≤ d j ∧ d j ≤ 2 ^ p) (hd' : ∀ j < n, A.Machine (.fin (d' j)) ∧ 0 ≤ d' j ∧ d' j ≤ 2 ^ p)
    (hdd : ∀ j < n, |d' j * d j - 1| ≤ Arith.uRound) :
    ∃ w y : ℕ → ℝ, stretchA A n n U d (fvec n v) = .ok (fvec n w) ∧ stretchA A n n U d' (fvec n w) = .ok (fvec n y) ∧
      ∀ i < n, A.Machine (.fin (y i)) ∧ |y i - v i| ≤ 28 * n * ((1 + g * g * 2 ^ p) * (1 + g * g * 2 ^ p)) * (Arith.uRound + η) * V + 2 ^ (-600 : ℤ) := by
  have hu0 := Arith.uRound_pos
  have hu1 := Arith.uRound_le
  have hn' := pow19 hn
  set m : ℝ := 2 ^ p with hm
  have hm1 : 1 ≤ m := one_le_pow₀ (by norm_num)
  have hm60 : m ≤ 2 ^ (60 : ℤ) := by
    rw [hm, ← zpow_natCast]; exact Arith.small_zpow (by exact_mod_cast hp)
  have hone : ∀ x : ℝ, 0 ≤ x → x ≤ m → |x - 1| ≤ m := fun x h0 h1 => abs_le.mpr ⟨by linarith, by linarith⟩
  have hbig : (2:ℝ) ^ (60 : ℤ) ≤ 2 ^ (200 : ℤ) := Arith.small_zpow (by norm_num)
  have hU : ∀ i < n, ∀ j < n, A.Machine (.fin (U i j)) ∧ |U i j| ≤ 2 := fun i hi j hj => ⟨hUm i hi j hj, orthonormal_entry hO hη hi hj⟩
  set G := 1 + g * g * m with hG
  have hG0 : 0 ≤ G := by positivity
  have hGs : G ≤ 2 ^ (101 : ℤ) := by
    have h1 : g ≤ 2 ^ (20 : ℤ) := by exact_mod_cast hg2
    have h2 := mul_zpow_le (by positivity) (mul_zpow_le (by positivity) h1 h1) hm60
    have h3 := Arith.double_zpow (x := 2 ^ (20 + 20 + 60 : ℤ)) le_rfl (y := G) (by
      have := one_le_zpow (e := 20 + 20 + 60) (by norm_num)
      generalize (2:ℝ) ^ (20 + 20 + 60 : ℤ) = q at *
      linarith)
    exact h3.trans (by norm_num)
  have hGV : G * V ≤ 2 ^ (161 : ℤ) := (mul_zpow_le hV0 hGs hV).trans (by norm_num)
  have hGV0 : 0 ≤ G * V := by positivity
  have h9 : 9 * (n:ℝ) * Arith.uRound ≤ 1 / 1000 := by
    have := mul_le_mul hn' hu1 hu0.le (by norm_num)
    norm_num at this
    linarith
  set τ : ℝ := 2 ^ (-762 : ℤ) with hτ
  have hτ0 : 0 < τ := two_zpow_pos _
  have hτ1 : τ ≤ 1 := (Arith.small_zpow (show (-762 : ℤ) ≤ 0 by norm_num)).trans (zpow_zero _).le
  obtain ⟨w, e1, hw⟩ := apply_narrow hA hB hD (V := V) (m := m) hn hU hg (by linarith) (by positivity) hV0
    (fun j hj => ⟨(hd j hj).1, by rw [abs_of_nonneg (hd j hj).2.1]; exact (hd j hj).2.2.trans (hm60.trans hbig)⟩)
    (fun j hj => hone _ (hd j hj).2.1 (hd j hj).2.2) hv (hV.trans hbig)
  set e : ℝ := 9 * n * Arith.uRound * (G * V) + τ with he
  have he0 : 0 ≤ e := by positivity
  have hws : ∀ i < n, |w i| ≤ G * V + e := by
    intro i hi
    have a := stretched_le hg (by positivity) hV0 (by linarith) (fun j hj => hone _ (hd j hj).2.1 (hd j hj).2.2) (fun i hi => (hv i hi).2) hi
    have b := (hw i hi).2
    have c : |w i| ≤ |w i - stretched n n U d v i| + |stretched n n U d v i| := by simpa using abs_add_le (w i - stretched n n U d v i) (stretched n n U d v i)
    linarith
  have hWs : G * V + e ≤ 2 ^ (200 : ℤ) := by
    have a := mul_le_mul_of_nonneg_right h9 hGV0
    have b : G * V + e ≤ 4 * 2 ^ (161 : ℤ) := by
      have := one_le_zpow (e := 161) (by norm_num)
      generalize (2:ℝ) ^ (161 : ℤ) = q at *
      linarith
    exact b.trans ((mul_zpow_le (two_zpow_pos _).le (show (4:ℝ) ≤ 2 ^ (2 : ℤ) by norm_num) le_rfl).trans (Arith.small_zpow (by norm_num)))
  obtain ⟨y, e2, hy⟩ := apply_narrow hA hB hD (V := G * V + e) (m := m) hn hU hg (by linarith) (by positivity) (by positivity)
    (fun j hj => ⟨(hd' j hj).1, by rw [abs_of_nonneg (hd' j hj).2.1]; exact (hd' j hj).2.2.trans (hm60.trans hbig)⟩)
    (fun j hj => hone _ (hd' j hj).2.1 (hd' j hj).2.2) (fun i hi => ⟨(hw i hi).1, hws i hi⟩) hWs
  refine ⟨w, y, e1, e2, fun i hi => ⟨(hy i hi).1, ?_⟩⟩
  have hn1 : (1:ℝ) ≤ n := by exact_mod_cast (by omega : 1 ≤ n)
  have hmid : |stretched n n U d' w i - v i| ≤ g * g * (Arith.uRound + n * (m * m) * η) * V + G * e := by
    have s1 : stretched n n U d' w i = stretched n n U d' (stretched n n U d v) i + stretched n n U d' (fun l => w l - stretched n n U d v l) i := by
      rw [← stretched_add]
      exact stretched_congr (fun l _ => by ring) hi
    have s2 := comp_close hg (by positivity) hV0 (by linarith) hη0 hu0.le hO (fun j hj => hone _ (hd j hj).2.1 (hd j hj).2.2)
      (fun j hj => hone _ (hd' j hj).2.1 (hd' j hj).2.2) hdd (fun i hi => (hv i hi).2) hi
    have s3 := stretched_le hg (show 0 ≤ m by positivity) he0 (by linarith) (fun j hj => hone _ (hd' j hj).2.1 (hd' j hj).2.2)
      (v := fun l => w l - stretched n n U d v l) (fun l hl => (hw l hl).2) hi
    rw [s1, add_sub_right_comm]
    exact (abs_add_le _ _).trans (add_le_add s2 s3)
  have hyv : |y i - v i| ≤ |stretched n n U d' w i - v i| + (9 * n * Arith.uRound * (G * (G * V + e)) + τ) := by
    have a := abs_add_le (y i - stretched n n U d' w i) (stretched n n U d' w i - v i)
    rw [sub_add_sub_cancel] at a
    have b := (hy i hi).2
    linarith
  have key := trip_core hu0.le hn1 h9 hg1 hm1 hG hV0 hη0 hτ0.le (le_refl e) (le_refl (G * V + e)) hmid hyv
  refine key.trans (add_le_add le_rfl ?_)
  have a := mul_zpow_le hτ0.le hGs (le_refl τ)
  exact (mul_zpow_le (by positivity) (show (4:ℝ) ≤ 2 ^ (2 : ℤ) by norm_num) a).trans (Arith.small_zpow (by norm_num))

end Paragami
