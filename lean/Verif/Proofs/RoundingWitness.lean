import Verif.Proofs.Binary64Sane
import Verif.Proofs.RoundingTree

/-! # Rounded folds in binary64 -/

set_option linter.unusedSimpArgs false

namespace Paragami
open NDArray Flt

namespace Arith
variable {A : Arith}

theorem Accurate.round_fin (h : A.Accurate) (r : ℝ) : A.round (.fin r) = rnd64 r := by
  change A.rnd r = _; rw [h.rnd]

theorem Accurate.machine (h : A.Accurate) {r : ℝ} (hr : A.Machine (.fin r)) : rndReal r = r :=
  rndReal_of_machine (by rwa [Machine, h.round_fin] at hr)

theorem Accurate.machine_of (h : A.Accurate) {m e : ℤ} (hm : |m| ≤ 2 ^ 53) (he : -1074 ≤ e) (he' : e ≤ 970) :
    A.Machine (.fin (m * 2 ^ e)) := by rw [Machine, h.round_fin]; exact rnd64_fix hm he he'

theorem exp_forty : (2:ℝ) ^ (56 : ℤ) ≤ Real.exp 40 := by
  have h : (2:ℝ) ^ (56 : ℤ) ≤ (2.7182818283 : ℝ) ^ 40 := by norm_num
  have h1 := Real.exp_one_gt_d9.le
  calc (2:ℝ) ^ (56 : ℤ) ≤ (2.7182818283 : ℝ) ^ 40 := h
    _ ≤ Real.exp 1 ^ 40 := pow_le_pow_left₀ (by norm_num) h1 40
    _ = Real.exp 40 := by rw [← Real.exp_nat_mul]; norm_num

theorem exp_sevenhundred : Real.exp 700 ≤ 2 ^ (1010 : ℤ) := by
  have h1 : Real.exp 700 ≤ Real.exp (Real.log 2 * (1010:ℤ)) := by
    apply Real.exp_le_exp.mpr
    have := Real.log_two_gt_d9
    push_cast; linarith
  rwa [Real.exp_mul, Real.exp_log (by norm_num), Real.rpow_intCast] at h1

theorem small_zpow {e f : ℤ} (h : e ≤ f) : (2:ℝ) ^ e ≤ 2 ^ f := zpow_le_zpow_right₀ (by norm_num) h

/-- The computed exponential is within a factor of two. -/
theorem Accurate.exp_factor (h : A.Accurate) {r : ℝ} (h0 : 0 ≤ r) (hr : r ≤ 709) :
    ∃ v, A.exp (.fin r) = .fin v ∧ Real.exp r / 2 ≤ v ∧ v ≤ 2 * Real.exp r := by
  obtain ⟨v, h1, h2⟩ := h.exp r hr
  have he : 1 ≤ Real.exp r := Real.one_le_exp h0
  have h3 : (2:ℝ) ^ (-52 : ℤ) ≤ 1 / 4 := (small_zpow (f := -2) (by norm_num)).trans_eq (by norm_num)
  have h4 : (2:ℝ) ^ (-1074 : ℤ) ≤ 1 / 4 := (small_zpow (f := -2) (by norm_num)).trans_eq (by norm_num)
  have h5 : (2:ℝ) ^ (-52 : ℤ) * Real.exp r ≤ 1 / 4 * Real.exp r := mul_le_mul_of_nonneg_right h3 (by linarith)
  rw [abs_le] at h2
  generalize (2:ℝ) ^ (-52 : ℤ) * Real.exp r = a at *
  generalize (2:ℝ) ^ (-1074 : ℤ) = b at *
  exact ⟨v, h1, by linarith, by linarith⟩

/-- `-1.7` and `0.3` as Python reads them. -/
noncomputable def lbWitness : ℝ := -7656119366529843 / 2 ^ 52
noncomputable def ubWitness : ℝ := 5404319552844595 / 2 ^ 54

/-- Between `-1.7` and `0.3` the computed transform saturates at a number above `0.3`. -/
theorem constrain_exceeds (hs : A.Sane) (h : A.Accurate) {y : ℝ} (h40 : 40 ≤ y) (h700 : y ≤ 700) :
    constrain1A A (.fin lbWitness) (.fin ubWitness) (.fin y) = .fin (5404319552844596 / 2 ^ 54) := by
  obtain ⟨v, hv, hv1, hv2⟩ := h.exp_factor (by linarith : 0 ≤ y) (by linarith : y ≤ 709)
  have hm := hs.exp_machine (.fin y)
  rw [hv] at hm
  have hvm := h.machine hm
  have hlo : (2:ℝ) ^ (55 : ℤ) ≤ v := by
    have h1 := exp_forty
    have h2 : Real.exp 40 ≤ Real.exp y := Real.exp_le_exp.mpr h40
    have h3 : (2:ℝ) ^ (56 : ℤ) = 2 * 2 ^ (55 : ℤ) := by norm_num
    linarith
  have hhi : v ≤ 2 ^ (1011 : ℤ) := by
    have h1 := exp_sevenhundred
    have h2 : Real.exp y ≤ Real.exp 700 := Real.exp_le_exp.mpr h700
    have h3 : (2:ℝ) ^ (1011 : ℤ) = 2 * 2 ^ (1010 : ℤ) := by
      rw [show (1011 : ℤ) = 1 + 1010 by norm_num, zpow_add₀ (by norm_num)]; norm_num
    rw [h3]
    generalize (2:ℝ) ^ (1010 : ℤ) = M at *
    linarith
  have hv0 : 0 < v := lt_of_lt_of_le (two_zpow_pos 55) hlo
  have hsmall : |v| < overflow64 := by
    rw [abs_of_pos hv0]
    exact lt_of_le_of_lt hhi (zpow_lt_zpow_right₀ (by norm_num) (by norm_num))
  have e1 : A.sub (.fin ubWitness) (.fin lbWitness) = .fin 2 := by
    rw [sub, sub_fin, h.round_fin]
    have := rnd64_eq (x := ubWitness - lbWitness) (e := 0) (m := 2 ^ 53) ?_ ?_ (by norm_num) (by norm_num) ?_
    · rw [this]; norm_num
    · unfold ubWitness lbWitness; norm_num [abs_of_pos]
    · unfold ubWitness lbWitness; norm_num [abs_of_pos]
    · unfold ubWitness lbWitness; norm_num [abs_lt]
  have e2 : A.mul (.fin 2) (.fin v) = .fin (2 * v) := by
    rw [mul, mul_fin, h.round_fin]
    obtain ⟨m, e, hm1, he, hve⟩ := rndReal_form v
    rw [hvm] at hve
    have h2v : 2 * v = m * 2 ^ (e + 1) := by rw [zpow_add₀ (by norm_num), hve]; norm_num; ring
    refine rnd64_of ?_ ?_
    · rw [h2v]; exact rndReal_fix hm1 (by omega)
    · rw [abs_of_pos (by linarith)]
      have h3 : (2:ℝ) ^ (1012 : ℤ) = 2 * 2 ^ (1011 : ℤ) := by
        rw [show (1012 : ℤ) = 1 + 1011 by norm_num, zpow_add₀ (by norm_num)]; norm_num
      have h4 : (2:ℝ) ^ (1012 : ℤ) < overflow64 := zpow_lt_zpow_right₀ (by norm_num) (by norm_num)
      rw [h3] at h4
      generalize (2:ℝ) ^ (1011 : ℤ) = M at *
      linarith
  have e3 : A.add 1 (.fin v) = .fin v := by
    change A.round (.fin (((1:ℕ):ℝ) + v)) = _
    rw [Nat.cast_one, h.round_fin, add_comm]
    refine rnd64_of (rndReal_absorb hvm (k := 55) (by rwa [abs_of_pos hv0]) (by norm_num) (by norm_num)) hsmall
  have e4 : A.div (.fin (2 * v)) (.fin v) = .fin 2 := by
    rw [div, div_fin _ _ hv0.ne', h.round_fin, mul_div_assoc, div_self hv0.ne', mul_one]
    have := rnd64_fix (m := 2) (e := 0) (by norm_num) (by norm_num) (by norm_num)
    simpa using this
  have e5 : A.add (.fin 2) (.fin lbWitness) = .fin (5404319552844596 / 2 ^ 54) := by
    rw [add, add_fin, h.round_fin]
    have := rnd64_fix (m := 1351079888211149) (e := -52) (by norm_num) (by norm_num) (by norm_num)
    have h2 : (2:ℝ) + lbWitness = ((1351079888211149 : ℤ) : ℝ) * 2 ^ (-52 : ℤ) := by unfold lbWitness; norm_num
    have h3 : (5404319552844596 / 2 ^ 54 : ℝ) = ((1351079888211149 : ℤ) : ℝ) * 2 ^ (-52 : ℤ) := by norm_num
    rw [h2, h3]; exact this
  simp only [constrain1A, Flt.eq, Bool.false_eq_true, if_false, hv, e1, e2, e3, e4, e5]

/-- Wherever `exp` overflows, a two-sided transform gives NaN. -/
theorem Sane.constrain_overflow (h : A.Sane) {l u : ℝ} (hlu : l < u) {y : Flt} (hy : A.exp y = .pinf) :
    constrain1A A (.fin l) (.fin u) y = .nan := by
  have hw : (Flt.fin 0).le (A.sub (.fin u) (.fin l)) = true :=
    h.le_round h.zero_machine (by simpa using hlu.le)
  have e3 : A.add 1 .pinf = .pinf := rfl
  simp only [constrain1A, Flt.eq, Bool.false_eq_true, if_false, hy, e3]
  have : A.div (A.mul (A.sub (.fin u) (.fin l)) .pinf) .pinf = .nan := by
    rcases nonneg_cases hw with h' | ⟨w, hw0, h'⟩
    · rw [h']; rfl
    · rw [h']
      change A.round (A.round (scaleInf w) / .pinf) = .nan
      rcases hw0.lt_or_eq with h0 | rfl
      · simp only [scaleInf, if_pos h0]; rfl
      · simp only [scaleInf, lt_irrefl, if_false]; rfl
  rw [this]; rfl

/-! ### Simplexes -/

theorem foldl_max_ge : ∀ (l : List ℝ) (a : ℝ), a ≤ l.foldl max a ∧ (∀ x ∈ l, x ≤ l.foldl max a) ∧
    (l.foldl max a = a ∨ l.foldl max a ∈ l)
  | [], a => by simp
  | x :: l, a => by
    obtain ⟨h1, h2, h3⟩ := foldl_max_ge l (max a x)
    simp only [List.foldl_cons, List.mem_cons, forall_eq_or_imp]
    refine ⟨(le_max_left _ _).trans h1, ⟨(le_max_right _ _).trans h1, h2⟩, ?_⟩
    rcases h3 with h3 | h3
    · rcases max_choice a x with h4 | h4
      · left; rw [h3, h4]
      · right; left; rw [h3, h4]
    · right; right; exact h3

theorem Sane.simplex_row (h : A.Sane) {r : List ℝ} (hm : ∀ x ∈ r, A.Machine (.fin x)) :
    ∀ z ∈ constrainSimplexRowA A (r.map .fin), (Flt.fin 0).le z = true ∧ z.le (.fin 1) = true := by
  have h0 : (0 : Flt) = .fin 0 := by change Flt.fin ((0:ℕ):ℝ) = _; simp
  set m := r.foldl max 0 with hmdef
  have hmax : Flt.maxOf 0 (r.map .fin) = .fin m := by rw [h0]; exact Flt.maxOf_fin 0 r
  obtain ⟨g1, g2, g3⟩ := foldl_max_ge r 0
  rw [← hmdef] at g1 g2 g3
  have hmm : A.Machine (.fin m) := by
    rcases g3 with g3 | g3
    · rw [g3]; exact h.zero_machine
    · exact hm _ g3
  -- the members of the sum
  set es := ((0 : Flt) :: r.map .fin).map fun x => A.exp (A.sub x (.fin m)) with hes
  have hcons : ((0 : Flt) :: r.map .fin) = (0 :: r).map .fin := by rw [List.map_cons, h0]
  have hmem : m ∈ (0 :: r) := by
    rcases g3 with g3 | g3
    · simp [g3]
    · simp [g3]
  have hes1 : ∀ e ∈ es, (Flt.fin 0).le e = true ∧ A.Machine e := by
    intro e he
    rw [hes, hcons, List.map_map] at he
    obtain ⟨x, hx, rfl⟩ := List.mem_map.mp he
    refine ⟨h.exp_ge ?_, h.exp_machine _⟩
    apply h.round_notNaN; rw [sub_fin]; trivial
  have hone : Flt.fin 1 ∈ es := by
    rw [hes, hcons, List.map_map]
    refine List.mem_map.mpr ⟨m, hmem, ?_⟩
    change A.exp (A.round (.fin m - .fin m)) = _
    rw [sub_fin, sub_self, round_fin, h.zero, h.exp_zero]
  have hsum := h.sum_ge es hes1 _ hone
  have hlog := h.log_nonneg _ hsum
  have hN : (Flt.fin m).le (logsumexp1A A 0 (r.map .fin)) = true := by
    simp only [logsumexp1A, hmax]
    exact h.le_add hlog hmm
  intro z hz
  simp only [constrainSimplexRowA, hcons] at hz
  rw [List.map_map] at hz
  obtain ⟨x, hx, rfl⟩ := List.mem_map.mp hz
  have hxm : x ≤ m := by
    rcases List.mem_cons.mp hx with rfl | hx
    · exact g1
    · exact g2 x hx
  generalize logsumexp1A A 0 (r.map .fin) = N at *
  change (Flt.fin 0).le (A.exp (A.sub (.fin x) N)) = true ∧ (A.exp (A.sub (.fin x) N)).le (.fin 1) = true
  have hsub : (A.sub (.fin x) N).le (.fin 0) = true := by
    apply h.round_le h.zero_machine
    cases N with
    | fin n => have : m ≤ n := by simpa using hN
               simp only [sub_fin, le_fin_iff]; linarith
    | pinf => rfl
    | ninf => simp [le, lt, eq] at hN
    | nan => simp [le, lt, eq] at hN
  refine ⟨h.exp_ge (le_notNaN hsub).1, ?_⟩
  generalize A.sub (.fin x) N = t at *
  cases t with
  | fin t => exact h.exp_le_one t (by simpa using hsub)
  | ninf => rw [h.exp_ninf]; simp
  | pinf => simp [le, lt, eq] at hsub
  | nan => simp [le, lt, eq] at hsub

end Arith
end Paragami
