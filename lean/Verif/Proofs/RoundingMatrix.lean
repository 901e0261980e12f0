import Verif.Proofs.RoundingSimplex

/-! # A rejected simplex, and the diagonals of rounded matrices -/

set_option linter.unusedSimpArgs false

namespace Paragami
open NDArray Flt

namespace Arith
variable {A : Arith}

theorem zero_flt : (0 : Flt) = .fin 0 := by change Flt.fin ((0:ℕ):ℝ) = _; simp
theorem one_flt : (1 : Flt) = .fin 1 := by change Flt.fin ((1:ℕ):ℝ) = _; simp

theorem rndReal_abs (x : ℝ) : rndReal |x| = |rndReal x| := by
  rcases abs_cases x with ⟨h, h0⟩ | ⟨h, h0⟩
  · rw [h, abs_of_nonneg (rndReal_nonneg h0)]
  · rw [h, rndReal_neg, abs_of_nonpos]
    have := rndReal_nonneg (x := -x) (by linarith)
    rw [rndReal_neg] at this; linarith

/-- Distances from one compare like the rounded ones. -/
theorem dist_one (h : A.Accurate) {F c : ℝ} (hF : |F - 1| ≤ c) (hc : c ≤ 1) :
    ((A.sub (.fin F) 1).abs.gt (A.rnd c)) = false := by
  rw [one_flt, sub, sub_fin, h.round_fin, h.rnd]
  have hb : (2:ℝ) ≤ overflow64 := by have := overflow64_big; norm_num at this; linarith
  have h1 : ∀ x : ℝ, |x| ≤ 1 → rnd64 x = .fin (rndReal x) := by
    intro x hx
    refine rnd64_of rfl ?_
    rw [← rndReal_abs]
    have h2 := rndReal_mono hx
    have h3 : rndReal 1 = 1 := by
      have := rndReal_fix (m := 1) (e := 0) (by norm_num) (by norm_num)
      simpa using this
    linarith
  have h0 : 0 ≤ c := (abs_nonneg _).trans hF
  rw [h1 _ (hF.trans hc), h1 c (by rwa [abs_of_nonneg h0])]
  have := rndReal_mono hF
  rw [rndReal_abs] at this
  simpa [Flt.abs, Flt.gt, lt] using this

theorem dist_one_gt (h : A.Accurate) {F : ℝ} (hF : F ≤ 1 - 2 ^ (-30 : ℤ)) (hF0 : -1 ≤ F) :
    ((A.sub (.fin F) 1).abs.gt (A.rnd (1 / 10 ^ 12))) = true := by
  rw [one_flt, sub, sub_fin, h.round_fin, h.rnd]
  have hb : (4:ℝ) ≤ overflow64 := by have := overflow64_big; norm_num at this; linarith
  have r1 : ∀ {m e : ℤ}, |m| ≤ 2 ^ 53 → -1074 ≤ e → rndReal (m * 2 ^ e) = m * 2 ^ e := rndReal_fix
  have a1 : rndReal (-(2:ℝ) ^ (-30 : ℤ)) = -2 ^ (-30 : ℤ) := by
    have := rndReal_fix (m := -1) (e := -30) (by norm_num) (by norm_num); push_cast at this; rwa [neg_one_mul] at this
  have a2 : rndReal ((2:ℝ) ^ (-39 : ℤ)) = 2 ^ (-39 : ℤ) := by
    have := rndReal_fix (m := 1) (e := -39) (by norm_num) (by norm_num); push_cast at this; rwa [one_mul] at this
  have a3 : rndReal (-2 : ℝ) = -2 := by
    have := rndReal_fix (m := -2) (e := 0) (by norm_num) (by norm_num); simpa using this
  have b1 := rndReal_mono (show F - 1 ≤ -(2:ℝ) ^ (-30 : ℤ) by linarith)
  have b2 := rndReal_mono (show (1 / 10 ^ 12 : ℝ) ≤ 2 ^ (-39 : ℤ) by norm_num)
  have b3 := rndReal_mono (show (-2 : ℝ) ≤ F - 1 by linarith)
  have b4 := rndReal_nonneg (x := (1 / 10 ^ 12 : ℝ)) (by norm_num)
  rw [a1] at b1; rw [a2] at b2; rw [a3] at b3
  norm_num at b1 b2
  rw [rnd64_of rfl (by rw [abs_lt]; constructor <;> linarith), rnd64_of (x := 1 / 10 ^ 12) rfl (by norm_num; rw [abs_lt]; constructor <;> linarith)]
  simp only [Flt.abs, Flt.gt, lt, decide_eq_true_eq]
  rw [abs_of_neg (by linarith)]
  norm_num
  linarith

theorem exp_tiny (hs : A.Sane) (h : A.Accurate) {r : ℝ} (hr : r ≤ -1000) :
    ∃ v, A.exp (.fin r) = .fin v ∧ 0 ≤ v ∧ v ≤ uRound := by
  obtain ⟨v, h1, h2⟩ := h.exp r (by linarith)
  have h3 := hs.exp_nonneg r
  rw [h1] at h3
  refine ⟨v, h1, by simpa using h3, ?_⟩
  have h4 : Real.exp r ≤ uRound / 4 := by
    have e1 := exp_forty
    have e2 : Real.exp r ≤ Real.exp (-40) := Real.exp_le_exp.mpr (by linarith)
    have e3 : Real.exp (-40) * Real.exp 40 = 1 := by rw [← Real.exp_add]; simp
    have e4 := Real.exp_pos (-40)
    have e5 : Real.exp (-40) * 2 ^ (56 : ℤ) ≤ 1 := by
      rw [← e3]; exact mul_le_mul_of_nonneg_left e1 e4.le
    have e6 : Real.exp (-40) ≤ 1 / 2 ^ (56 : ℤ) := by rwa [le_div_iff₀ (by positivity)]
    refine e2.trans (e6.trans ?_)
    unfold uRound; norm_num
  have h5 := tiny_le (e := -1074) (by norm_num)
  rw [uRound_val2] at h2
  have hu := uRound_pos
  have h6 : uRound / 2 ^ 100 ≤ uRound / 4 := div_le_div_of_nonneg_left hu.le (by norm_num) (by norm_num)
  have h7 : 2 * uRound * Real.exp r ≤ uRound / 4 := by
    have : 2 * uRound ≤ 1 := by unfold uRound; norm_num
    have := Real.exp_pos r
    nlinarith
  have := (abs_le.mp h2).2
  generalize (2:ℝ) ^ (-1074 : ℤ) = t at *
  linarith

theorem exp_one_machine (hs : A.Sane) {x : Flt} {v : ℝ} (h : A.exp x = .fin v) : A.Machine (.fin v) := by
  rw [← h]; exact hs.exp_machine x

/-- The computed simplex of the two free numbers `2 ^ 30` sums to less than one by more than a thousandfold tolerance. -/
theorem simplex_short (hs : A.Sane) (h : A.Accurate) :
    ∃ d : List ℝ, constrainSimplexRowA A [.fin (2 ^ 30), .fin (2 ^ 30)] = d.map .fin ∧
      ∃ F, A.sum (d.map .fin) = .fin F ∧ F ≤ 1 - 2 ^ (-30 : ℤ) ∧ -1 ≤ F := by
  have hu := uRound_pos
  have huv : uRound = 1 / 2 ^ 53 := rfl
  have hmax : Flt.maxOf 0 [Flt.fin (2 ^ 30), .fin (2 ^ 30)] = .fin (2 ^ 30) := by
    have := Flt.maxOf_fin 0 [(2:ℝ) ^ 30, 2 ^ 30]
    rw [zero_flt]
    simp only [List.map_cons, List.map_nil, List.foldl_cons, List.foldl_nil] at this
    rw [this]; norm_num
  have s0 : A.sub (.fin 0) (.fin (2 ^ 30)) = .fin (-(2 ^ 30)) := by
    rw [sub, sub_fin, h.round_fin, zero_sub]
    have := rnd64_fix (m := -1) (e := 30) (by norm_num) (by norm_num) (by norm_num)
    norm_num at this ⊢; exact this
  have s1 : A.sub (.fin (2 ^ 30)) (.fin (2 ^ 30)) = .fin 0 := by
    rw [sub, sub_fin, sub_self, round_fin, hs.zero]
  obtain ⟨v, hv, hv0, hv1⟩ := exp_tiny hs h (r := -(2 ^ 30)) (by norm_num)
  obtain ⟨S, hS1, hS2⟩ := h.sum [v, 1, 1] (by
    intro x hx
    simp only [List.mem_cons, List.not_mem_nil, or_false] at hx
    rcases hx with rfl | rfl | rfl
    · exact ⟨hv0, by rw [huv] at hv1; norm_num at hv1; linarith, exp_one_machine hs hv⟩
    · exact ⟨by norm_num, by norm_num, hs.one_machine⟩
    · exact ⟨by norm_num, by norm_num, hs.one_machine⟩) (by simp)
  simp only [List.map_cons, List.map_nil, List.sum_cons, List.sum_nil, List.length_cons, List.length_nil, uRound_val2] at hS1 hS2
  push_cast at hS2
  have hS3 : |S - 2| ≤ 10 * uRound * 2 := by
    have e1 : S - 2 = (S - (v + (1 + (1 + 0)))) + v := by ring
    rw [e1]
    refine (abs_add_le _ _).trans ?_
    rw [abs_of_nonneg hv0]
    have : (0 + 1 + 1 + 1) * (2 * uRound) * (v + (1 + (1 + 0))) ≤ 18 * uRound := by
      have : v ≤ 1 := hv1.trans (by rw [huv]; norm_num)
      nlinarith
    linarith
  have hS4 : 1 ≤ S := by
    have := (abs_le.mp hS3).1
    have : 10 * uRound * 2 ≤ 1 := by rw [huv]; norm_num
    linarith
  have hS5 : S ≤ 3 := by
    have := (abs_le.mp hS3).2
    have : 10 * uRound * 2 ≤ 1 := by rw [huv]; norm_num
    linarith
  obtain ⟨L, hL1, hL2⟩ := h.log S hS4 (by
    have := overflow64_big
    norm_num at this; linarith)
  have hlog := log_perturbed (by norm_num : (0:ℝ) < 2) hS3 (by norm_num) (by norm_num)
  have l1 := Real.log_two_gt_d9
  have l2 := Real.log_two_lt_d9
  have hu1 : uRound ≤ 1 / 10 ^ 15 := by rw [huv]; norm_num
  have hlogS : |Real.log S - Real.log 2| ≤ 11 / 10 ^ 15 := by
    refine hlog.trans ?_
    have : (10 + 1) * uRound ≤ (10 + 1) * (1 / 10 ^ 15) := by nlinarith
    linarith
  have hL3 : |L - Real.log 2| ≤ 1 / 10 ^ 13 := by
    have e1 : L - Real.log 2 = (L - Real.log S) + (Real.log S - Real.log 2) := by ring
    rw [e1]
    refine (abs_add_le _ _).trans ?_
    rw [uRound_val2] at hL2
    have h3 : (2:ℝ) ^ (-1074 : ℤ) ≤ uRound := (tiny_le (by norm_num)).trans (by rw [huv]; norm_num)
    have h4 : Real.log S ≤ 1 := by have := (abs_le.mp hlogS).2; norm_num at this; linarith
    generalize (2:ℝ) ^ (-1074 : ℤ) = t at *
    have : 2 * uRound * Real.log S ≤ 2 * uRound := by nlinarith
    norm_num at *
    linarith
  have hL4 := abs_le.mp hL3
  norm_num at hL4
  have hN : A.add (.fin L) (.fin (2 ^ 30)) = .fin (2 ^ 30 + 2907270 / 2 ^ 22) := by
    rw [add, add_fin, h.round_fin]
    have h3 := rnd64_eq (x := L + 2 ^ 30) (e := 30) (m := 2 ^ 52 + 2907270) ?_ ?_ (by norm_num) (by norm_num) ?_
    · rw [h3]; norm_num
    · rw [abs_of_pos (by linarith)]; norm_num; linarith
    · rw [abs_of_pos (by linarith)]; norm_num; linarith
    · rw [abs_lt]; norm_num; constructor <;> linarith
  have hlse : logsumexp1A A 0 [.fin (2 ^ 30), .fin (2 ^ 30)] = .fin (2 ^ 30 + 2907270 / 2 ^ 22) := by
    simp only [logsumexp1A, hmax, List.map_cons, List.map_nil]
    rw [zero_flt, s0, s1, hv, hs.exp_zero, hS1, hL1, hN]
  obtain ⟨y, hy1, hy2⟩ := rnd64_rel h (x := 0 - (2 ^ 30 + 2907270 / 2 ^ 22)) (B := 2 ^ 31)
    (by norm_num [abs_of_pos]) (by norm_num) (by norm_num)
  have hy3 : y ≤ -1000 := by
    have := (abs_le.mp hy2).2
    have h4 : (2 ^ 31 + 1) * uRound ≤ 1 := by rw [huv]; norm_num
    norm_num at this h4; linarith
  obtain ⟨v', hv', hv0', hv1'⟩ := exp_tiny hs h hy3
  have s2 : A.sub (.fin (2 ^ 30)) (.fin (2 ^ 30 + 2907270 / 2 ^ 22)) = .fin (-(2907270 / 2 ^ 22)) := by
    rw [sub, sub_fin, h.round_fin]
    have := rnd64_fix (m := -2907270) (e := -22) (by norm_num) (by norm_num) (by norm_num)
    norm_num at this ⊢; exact this
  obtain ⟨w, hw, hw2⟩ := h.exp (-(2907270 / 2 ^ 22)) (by norm_num)
  have hwn := hs.exp_nonneg (-(2907270 / 2 ^ 22))
  rw [hw] at hwn
  have hw0 : 0 ≤ w := by simpa using hwn
  -- the exact exponential is short of one half
  have hE : Real.exp (-(2907270 / 2 ^ 22)) ≤ 1 / 2 * (1 - 16 / 10 ^ 10) := by
    have e1 : (-(2907270 / 2 ^ 22) : ℝ) = -Real.log 2 + -(2907270 / 2 ^ 22 - Real.log 2) := by ring
    rw [e1, Real.exp_add, Real.exp_neg, Real.exp_log (by norm_num)]
    have hd : (165 / 10 ^ 11 : ℝ) ≤ 2907270 / 2 ^ 22 - Real.log 2 := by norm_num at l2 ⊢; linarith
    have e2 : Real.exp (-(2907270 / 2 ^ 22 - Real.log 2)) ≤ Real.exp (-(165 / 10 ^ 11)) := Real.exp_le_exp.mpr (by linarith)
    have e3 := Real.abs_exp_sub_one_sub_id_le (x := (-(165 / 10 ^ 11) : ℝ)) (by norm_num [abs_of_pos])
    have e4 := (abs_le.mp e3).2
    generalize Real.exp (-(2907270 / 2 ^ 22 - Real.log 2)) = X at e2 ⊢
    generalize Real.exp (-(165 / 10 ^ 11)) = Y at e2 e4
    norm_num at e4 ⊢
    linarith
  have hw3 : w ≤ 1 / 2 * (1 - 15 / 10 ^ 10) := by
    have := (abs_le.mp hw2).2
    rw [uRound_val2] at this
    have h3 : (2:ℝ) ^ (-1074 : ℤ) ≤ uRound := (tiny_le (by norm_num)).trans (by rw [huv]; norm_num)
    generalize (2:ℝ) ^ (-1074 : ℤ) = t at *
    have h5 : 2 * uRound * Real.exp (-(2907270 / 2 ^ 22)) ≤ 2 * uRound := by
      have : Real.exp (-(2907270 / 2 ^ 22)) ≤ 1 := Real.exp_le_one_iff.mpr (by norm_num)
      nlinarith
    norm_num at hu1 hE ⊢
    norm_num at h5 this
    linarith
  refine ⟨[v', w, w], ?_, ?_⟩
  · simp only [constrainSimplexRowA, hlse, List.map_cons, List.map_nil]
    rw [zero_flt, s2, hw, round_sub, hy1, hv']
  · obtain ⟨F, hF1, hF2⟩ := h.sum [v', w, w] (by
      intro x hx
      have : v' ≤ 2 := hv1'.trans (by rw [huv]; norm_num)
      simp only [List.mem_cons, List.not_mem_nil, or_false] at hx
      rcases hx with rfl | rfl | rfl
      · exact ⟨hv0', this, exp_one_machine hs hv'⟩
      · exact ⟨hw0, by linarith, exp_one_machine hs hw⟩
      · exact ⟨hw0, by linarith, exp_one_machine hs hw⟩) (by simp)
    simp only [List.sum_cons, List.sum_nil, List.length_cons, List.length_nil, uRound_val2] at hF2
    push_cast at hF2
    refine ⟨F, hF1, ?_⟩
    have hW : v' + (w + (w + 0)) ≤ 1 - 14 / 10 ^ 10 := by linarith
    have h6 : (0 + 1 + 1 + 1) * (2 * uRound) * (v' + (w + (w + 0))) ≤ 6 * uRound := by nlinarith
    have h7 := abs_le.mp hF2
    constructor
    · norm_num at hu1 ⊢
      norm_num at hW h6 h7
      linarith
    · linarith [h7.1]

/-! ### Diagonals -/

theorem exp_thirtysix : (2:ℝ) ^ (51 : ℤ) ≤ Real.exp 36 := by
  have h : (2:ℝ) ^ (51 : ℤ) ≤ (2.7182818283 : ℝ) ^ 36 := by norm_num
  calc (2:ℝ) ^ (51 : ℤ) ≤ (2.7182818283 : ℝ) ^ 36 := h
    _ ≤ Real.exp 1 ^ 36 := pow_le_pow_left₀ (by norm_num) Real.exp_one_gt_d9.le 36
    _ = Real.exp 36 := by rw [← Real.exp_nat_mul]; norm_num

/-- `exp(d) + d - d` is zero from `-36` down. -/
theorem expDiag_collapse (hs : A.Sane) (h : A.Accurate) {d : ℝ} (hm : A.Machine (.fin d)) (hd : d ≤ -36) :
    A.sub (A.add (A.exp (.fin d)) (.fin d)) (.fin d) = .fin 0 := by
  obtain ⟨v, h1, h2⟩ := h.exp d (by linarith)
  have h3 := hs.exp_nonneg d
  rw [h1] at h3
  have hv0 : 0 ≤ v := by simpa using h3
  have h4 : Real.exp d ≤ 2 ^ (-51 : ℤ) := by
    have e2 : Real.exp d ≤ Real.exp (-36) := Real.exp_le_exp.mpr (by linarith)
    have e3 : Real.exp (-36) * Real.exp 36 = 1 := by rw [← Real.exp_add]; simp
    have e4 := Real.exp_pos (-36)
    have e5 : Real.exp (-36) * 2 ^ (51 : ℤ) ≤ 1 := by
      rw [← e3]; exact mul_le_mul_of_nonneg_left exp_thirtysix e4.le
    have e6 : Real.exp (-36) ≤ 1 / 2 ^ (51 : ℤ) := by rwa [le_div_iff₀ (by positivity)]
    refine e2.trans (e6.trans_eq ?_)
    norm_num
  have hv1 : v ≤ 2 ^ (-50 : ℤ) := by
    have h5 := tiny_le (e := -1074) (by norm_num)
    have hu : uRound = 1 / 2 ^ 53 := rfl
    have := (abs_le.mp h2).2
    generalize (2:ℝ) ^ (-1074 : ℤ) = t at *
    rw [uRound_val2, hu] at this
    rw [hu] at h5
    have h6 : 2 * (1 / 2 ^ 53) * Real.exp d ≤ 2 * (1 / 2 ^ 53) * 2 ^ (-51 : ℤ) := mul_le_mul_of_nonneg_left h4 (by norm_num)
    norm_num at h4 h5 h6 this ⊢
    linarith
  have hadd : A.add (.fin v) (.fin d) = .fin d := by
    rw [add, add_fin, h.round_fin, add_comm]
    have hmd := h.machine hm
    refine rnd64_of (rndReal_absorb (k := 5) hmd ?_ (by norm_num) ?_) ?_
    · rw [abs_of_neg (by linarith)]; norm_num; linarith
    · rw [abs_of_nonneg hv0]; norm_num at hv1 ⊢; exact hv1
    · rw [Machine, h.round_fin, rnd64, hmd] at hm
      have hlo := hm
      rw [abs_of_neg (by linarith)]
      by_contra hc
      rw [if_neg (by have := overflow64_pos; linarith), if_pos (by linarith)] at hlo
      cases hlo
  rw [h1, hadd, sub, sub_fin, sub_self, round_fin, hs.zero]

/-- `log(x) + x - x` is zero from `2 ^ 66` up. -/
theorem logDiag_collapse (hs : A.Sane) (h : A.Accurate) {x : ℝ} (hm : A.Machine (.fin x)) (hx : 2 ^ 66 ≤ x) :
    A.sub (A.add (A.log (.fin x)) (.fin x)) (.fin x) = .fin 0 := by
  have hmx := h.machine hm
  have hx0 : 0 < x := lt_of_lt_of_le (by norm_num) hx
  have hov : x < overflow64 := by
    rw [Machine, h.round_fin, rnd64, hmx] at hm
    by_contra hc
    rw [if_pos (by linarith)] at hm
    cases hm
  have hx1 : 1 ≤ x := le_trans (by norm_num) hx
  obtain ⟨v, h1, h2⟩ := h.log x hx1 hov
  have hl0 : 0 ≤ Real.log x := Real.log_nonneg hx1
  have hl : Real.log x ≤ 710 := by
    have e1 : Real.log x ≤ Real.log overflow64 := Real.log_le_log hx0 hov.le
    unfold overflow64 at e1
    rw [Real.log_zpow] at e1
    have := Real.log_two_lt_d9
    push_cast at e1; linarith
  have hv : |v| ≤ 2 ^ (11 : ℤ) := by
    have h5 := tiny_le (e := -1074) (by norm_num)
    have hu : uRound = 1 / 2 ^ 53 := rfl
    have := abs_le.mp h2
    generalize (2:ℝ) ^ (-1074 : ℤ) = t at *
    rw [uRound_val2] at this
    have h6 : 2 * uRound * Real.log x ≤ 1 := by rw [hu]; norm_num; linarith
    have h7 : uRound / 2 ^ 100 ≤ 1 := by rw [hu]; norm_num
    norm_num
    rw [abs_le]; constructor <;> linarith [this.1, this.2]
  have hadd : A.add (.fin v) (.fin x) = .fin x := by
    rw [add, add_fin, h.round_fin, add_comm]
    refine rnd64_of (rndReal_absorb (k := 66) hmx ?_ (by norm_num) ?_) ?_
    · rw [abs_of_pos hx0]; norm_num at hx ⊢; exact hx
    · norm_num at hv ⊢; exact hv
    · rwa [abs_of_pos hx0]
  rw [h1, hadd, sub, sub_fin, sub_self, round_fin, hs.zero]

end Arith
end Paragami
