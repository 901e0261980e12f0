import Verif.Proofs.RoundingPrecond

/-! # Preconditioners in floating point: eigenvalues, and what gets lost -/

namespace Paragami
open NDArray Flt Spec Optimization

variable {A : Arith}

theorem power_machine (hB : A.Accurate) {e : ℤ} (h1 : -1074 ≤ e) (h2 : e ≤ 970) : A.Machine (.fin (2 ^ e)) := by
  have := hB.machine_of (m := 1) (e := e) (by norm_num) h1 h2
  simpa using this

/-- Rounding stays within powers of two. -/
theorem round_between (hA : A.Sane) (hB : A.Accurate) {x : ℝ} {p : ℤ} (hp : p ≤ 900) (h1 : 2 ^ (-p) ≤ x) (h2 : x ≤ 2 ^ p) :
    ∃ z, A.round (.fin x) = .fin z ∧ A.Machine (.fin z) ∧ 2 ^ (-p) ≤ z ∧ z ≤ 2 ^ p ∧ |z - x| ≤ Arith.uRound * x := by
  have hx : 0 < x := (two_zpow_pos _).trans_le h1
  have hp' : -900 ≤ p := by
    by_contra hc
    have : (2:ℝ) ^ p < 2 ^ (-p) := zpow_lt_zpow_right₀ (by norm_num) (by omega)
    linarith
  have hax : |x| = x := abs_of_pos hx
  obtain ⟨z, e, hz⟩ := hB.round_rel (x := x) (by rw [hax]; exact Arith.dn_zpow h1 (by omega)) (by rw [hax]; exact Arith.up_zpow h2 (by omega))
  have e' := hB.round_le (x := x) (by rw [hax]; exact Arith.up_zpow h2 (by omega))
  have hzr : z = rndReal x := by rw [e] at e'; injection e'
  refine ⟨z, e, op_machine hA e, ?_, ?_, by rwa [hax] at hz⟩
  · rw [hzr, ← hB.machine (power_machine hB (e := -p) (by omega) (by omega))]; exact rndReal_mono h1
  · rw [hzr, ← hB.machine (power_machine hB (e := p) (by omega) (by omega))]; exact rndReal_mono h2

/-- `np.sqrt` of an eigenvalue. -/
theorem sqrt_between (hA : A.Sane) (hB : A.Accurate) {x : ℝ} {p : ℤ} (hp : p ≤ 900) (h1 : 2 ^ (-(2 * p)) ≤ x) (h2 : x ≤ 2 ^ (2 * p)) :
    ∃ z, A.sqrt (.fin x) = .fin z ∧ A.Machine (.fin z) ∧ 2 ^ (-p) ≤ z ∧ z ≤ 2 ^ p := by
  have hx : 0 < x := (two_zpow_pos _).trans_le h1
  have e1 : (2:ℝ) ^ (2 * p) = (2 ^ p) ^ 2 := by rw [sq, ← Arith.zpow_split]; ring_nf
  have e2 : (2:ℝ) ^ (-(2 * p)) = (2 ^ (-p)) ^ 2 := by rw [sq, ← Arith.zpow_split]; ring_nf
  obtain ⟨z, e, hz, h3, h4, _⟩ := round_between hA hB (x := Real.sqrt x) hp (Real.le_sqrt_of_sq_le (by rwa [← e2]))
    (by rw [← Real.sqrt_sq (two_zpow_pos p).le, ← e1]; exact Real.sqrt_le_sqrt h2)
  exact ⟨z, by rw [Arith.sqrt, Flt.sqrt, if_pos hx.le]; exact e, hz, h3, h4⟩

/-- One over a number. -/
theorem inv_between (hA : A.Sane) (hB : A.Accurate) {x : ℝ} {p : ℤ} (hp : p ≤ 900) (h1 : 2 ^ (-p) ≤ x) (h2 : x ≤ 2 ^ p) :
    ∃ z, A.div 1 (.fin x) = .fin z ∧ A.Machine (.fin z) ∧ 2 ^ (-p) ≤ z ∧ z ≤ 2 ^ p ∧ |z * x - 1| ≤ Arith.uRound := by
  have hx : 0 < x := (two_zpow_pos _).trans_le h1
  have i1 : (2:ℝ) ^ (-p) ≤ 1 / x := by
    rw [zpow_neg, ← one_div]; exact one_div_le_one_div_of_le hx h2
  have i2 : 1 / x ≤ 2 ^ p := by
    have := one_div_le_one_div_of_le (two_zpow_pos _) h1
    rwa [zpow_neg, one_div (_⁻¹), inv_inv] at this
  obtain ⟨z, e, hz, h3, h4, h5⟩ := round_between hA hB hp i1 i2
  refine ⟨z, ?_, hz, h3, h4, ?_⟩
  · rw [Arith.div, Arith.one_flt, div_fin _ _ hx.ne']; exact e
  · have : z * x - 1 = (z - 1 / x) * x := by field_simp
    rw [this, abs_mul, abs_of_pos hx]
    refine (mul_le_mul_of_nonneg_right h5 hx.le).trans (le_of_eq ?_)
    field_simp

/-! ### The symmetrized Hessian -/

theorem symmetrize_finite (hA : A.Sane) (hB : A.Accurate) {n : ℕ} {H : ℕ → ℕ → ℝ} (hH : ∀ i < n, ∀ j < n, A.Machine (.fin (H i j)) ∧ |H i j| ≤ 2 ^ (1000 : ℤ)) :
    ∃ S : ℕ → ℕ → ℝ, symmetrizeA A (fmat n n H) = .ok (fmat n n S) ∧ (∀ i < n, ∀ j < n, A.Machine (.fin (S i j))) ∧
      ((∀ i < n, ∀ j < n, H i j = H j i) → ∀ i < n, ∀ j < n, S i j = H i j) := by
  have key : ∀ i j, ∃ s, i < n → j < n → A.mul (.fin (1 / 2)) (A.add (.fin (H i j)) (.fin (H j i))) = .fin s ∧ A.Machine (.fin s) ∧ (H i j = H j i → s = H i j) := by
    intro i j
    by_cases hi : i < n
    swap
    · exact ⟨0, fun h => absurd h hi⟩
    by_cases hj : j < n
    swap
    · exact ⟨0, fun _ h => absurd h hj⟩
    obtain ⟨m1, b1⟩ := hH i hi j hj
    obtain ⟨m2, b2⟩ := hH j hj i hi
    have hs : |H i j + H j i| ≤ 2 ^ (1001 : ℤ) := Arith.double_zpow (le_refl ((2:ℝ) ^ (1000 : ℤ))) ((abs_add_le _ _).trans (by linarith))
    obtain ⟨z, e, hz⟩ := hB.add_rel m1 m2 (Arith.up_zpow hs (by norm_num))
    have hz' : |1 / 2 * z| ≤ 2 ^ (1001 : ℤ) := by
      have a : |z| ≤ |z - (H i j + H j i)| + |H i j + H j i| := by simpa using abs_add_le (z - (H i j + H j i)) (H i j + H j i)
      have b : Arith.uRound * |H i j + H j i| ≤ 1 * |H i j + H j i| := mul_le_mul_of_nonneg_right (Arith.uRound_le.trans (by norm_num)) (abs_nonneg _)
      rw [abs_mul, abs_of_pos (by norm_num : (0:ℝ) < 1 / 2)]
      linarith
    have e2 : A.mul (.fin (1 / 2)) (.fin z) = .fin (rndReal (1 / 2 * z)) := by rw [Arith.mul, mul_fin, hB.round_le (Arith.up_zpow hz' (by norm_num))]
    refine ⟨rndReal (1 / 2 * z), fun _ _ => ⟨by rw [e, e2], op_machine hA e2, fun hsym => ?_⟩⟩
    have hm := hB.machine m1
    obtain ⟨m, q, hm1, hq, hform⟩ := rndReal_form (H i j)
    rw [hm] at hform
    have d : rndReal (H i j + H i j) = H i j + H i j := by
      have : H i j + H i j = m * 2 ^ (q + 1) := by rw [hform, Arith.zpow_split, zpow_one]; ring
      rw [this]; exact rndReal_fix hm1 (by omega)
    have hze : z = H i j + H i j := by
      rw [Arith.add, add_fin, ← hsym, hB.round_le (by rw [← hsym] at hs; exact Arith.up_zpow hs (by norm_num)), d] at e
      injection e with e
      exact e.symm
    rw [hze, show 1 / 2 * (H i j + H i j) = H i j by ring, hm]
  choose S hS using key
  refine ⟨S, ?_, fun i hi j hj => (hS i j hi hj).2.1, fun hsym i hi j hj => (hS i j hi hj).2.2 (hsym i hi j hj)⟩
  have hs : (fmat n n H).shape = [n, n] := rfl
  simp only [symmetrizeA, hs, if_true]
  refine congrArg _ ?_
  unfold fmat ofFn2
  simp only [NDArray.mk.injEq, true_and]
  refine List.flatMap_congr fun i hi => List.map_congr_left fun j hj => ?_
  have hi := List.mem_range.mp hi
  have hj := List.mem_range.mp hj
  have h1 := fmat_entry (U := H) hi hj
  have h2 := fmat_entry (U := H) hj hi
  unfold fmat ofFn2 at h1 h2
  rw [h1, h2]
  exact (hS i j hi hj).1

theorem fmat_congr {n k : ℕ} {U W : ℕ → ℕ → ℝ} (h : ∀ i < n, ∀ j < k, U i j = W i j) : fmat n k U = fmat n k W := by
  unfold fmat ofFn2
  simp only [NDArray.mk.injEq, true_and]
  exact List.flatMap_congr fun i hi => List.map_congr_left fun j hj => by rw [h i (List.mem_range.mp hi) j (List.mem_range.mp hj)]

/-- The preconditioner, once `eigh` has returned. -/
theorem withHessian_ok {eigh : EighA} {n : ℕ} {H S U : ℕ → ℕ → ℝ} {r e d d' : ℕ → ℝ} {lo hi : Option Flt} (hS : symmetrizeA A (fmat n n H) = .ok (fmat n n S))
    (he : eigh n (fmat n n S) = .ok ((List.range n).map fun j => .fin (r j), fmat n n U))
    (ht : truncateA lo hi ((List.range n).map fun j => .fin (r j)) = (List.range n).map fun j => .fin (e j))
    (hd : ∀ j < n, A.sqrt (.fin (e j)) = .fin (d j)) (hd' : ∀ j < n, A.div 1 (A.sqrt (.fin (e j))) = .fin (d' j)) :
    PrecondA.withHessian A eigh (fmat n n H) lo hi = .ok ⟨stretchA A n n U d', stretchA A n n U d⟩ := by
  have hl : (fmat n n S).len = .ok n := rfl
  have t1 := transform_ok (A := A) (n := n) (U := U) (e := e) hd
  have t2 := transform_ok (A := A) (n := n) (U := U) (e := e) (f := fun x => A.div 1 (A.sqrt x)) hd'
  simp only [PrecondA.withHessian, symMatrixInvSqrtFuncsA, hS, hl, he, ht, bind, Except.bind, pure, Except.pure] at t1 t2 ⊢
  simp only [fvec] at t1 t2
  simp only [t1, t2]
  rfl

/-! ### Products with one term -/

theorem dot_sparse_range (hS : A.DotSparse) {m j : ℕ} {f g : ℕ → ℝ} (hm : m ≤ 2 ^ 20) (hj : j < m) (h0 : ∀ q < m, q ≠ j → f q * g q = 0)
    (hM : A.Machine (.fin (f j * g j))) : A.dot ((List.range m).map fun q => (.fin (f q), .fin (g q))) = .fin (f j * g j) := by
  have e : List.range m = (List.range j) ++ j :: List.range' (j + 1) (m - (j + 1)) := by
    have h1 : m = j + (1 + (m - (j + 1))) := by omega
    conv_lhs => rw [h1, List.range_eq_range', ← List.range'_append_1, ← List.range_eq_range', Nat.zero_add, Nat.add_comm 1, List.range'_succ]
  have := hS.dot ((List.range j).map fun q => (f q, g q)) ((List.range' (j + 1) (m - (j + 1))).map fun q => (f q, g q)) (f j) (g j)
    (by simp only [List.length_map, List.length_range, List.length_range']; omega) (by
      intro p hp
      rw [← List.map_append] at hp
      obtain ⟨q, hq, rfl⟩ := List.mem_map.mp hp
      rcases List.mem_append.mp hq with hq | hq
      · have := List.mem_range.mp hq
        exact h0 q (by omega) (by omega)
      · have := List.mem_range'_1.mp hq
        exact h0 q (by omega) (by omega)) hM
  rw [← this, e]
  simp [List.map_map, Function.comp_def]

/-- What `a @ v` computes, entry by entry. -/
theorem matvec_entry {n m : ℕ} {U : ℕ → ℕ → ℝ} {v y : ℕ → ℝ} (h : matvecA A (fmat n m U) (fvec m v) = .ok (fvec n y)) {i : ℕ} (hi : i < n) :
    A.dot ((List.range m).map fun j => (.fin (U i j), .fin (v j))) = .fin (y i) := by
  have hs : (fmat n m U).shape = [n, m] := rfl
  have hs' : (fvec m v).shape = [m] := by simp [fvec, vec]
  simp only [matvecA, hs, hs', if_true] at h
  injection h with h
  have h1 := congrArg (fun a => a.data.getD i .nan) h
  simp only [fvec_getD hi] at h1
  rw [← h1]
  simp only [vec, List.getD_eq_getElem?_getD, List.getElem?_map, List.getElem?_range hi, Option.map_some, Option.getD_some]
  refine congrArg _ (List.map_congr_left fun j hj => ?_)
  have hj := List.mem_range.mp hj
  rw [fmat_entry hi hj]
  have := fvec_getD (v := v) hj
  rw [List.getD_eq_getElem?_getD] at this
  rw [this]

theorem sign_machine (hA : A.Sane) {σ x : ℝ} (hσ : σ = 1 ∨ σ = -1) (hx : A.Machine (.fin x)) : A.Machine (.fin (σ * x)) := by
  rcases hσ with rfl | rfl
  · rwa [one_mul]
  · rw [neg_one_mul]; exact hA.neg _ hx

/-- The entry of the result that belongs to such a column: nothing is left of it if the new eigenvalue is tiny, or if there was nothing. -/
theorem lone_lost (hA : A.Sane) (hB : A.Accurate) (hD : A.DotAccurate) (hS : A.DotSparse) {n : ℕ} {U : ℕ → ℕ → ℝ} {d v : ℕ → ℝ} (hn : n ≤ 2 ^ 19)
    (hU : ∀ i < n, ∀ j < n, A.Machine (.fin (U i j)) ∧ |U i j| ≤ 2) (hd : Sized A n (2 ^ (200 : ℤ)) d) (hv : Sized A n (2 ^ (200 : ℤ)) v) {i j : ℕ} (hi : i < n) (hj : j < n)
    (hL : Lone n U i j) (hc : (0 ≤ d j ∧ d j ≤ 2 ^ (-55 : ℤ)) ∨ v i = 0) :
    ∃ y : ℕ → ℝ, stretchA A n n U d (fvec n v) = .ok (fvec n y) ∧ (∀ i < n, A.Machine (.fin (y i))) ∧ y i = 0 := by
  obtain ⟨L', δ, s, w, z, hp⟩ := apply_parts hA hB hD hn hn hU hd hv
  refine ⟨z, hp.result, fun i hi => op_machine hA (hp.hz i hi).1, ?_⟩
  have hz0 := hA.zero_machine
  have h1 : L' j = U i j * v i := by
    have a := matvec_entry hp.loadings hj
    have b := dot_sparse_range hS (f := fun l => U l j) (g := v) (m := n) (j := i) (hn.trans (by norm_num)) hi
      (fun q hq hqi => by rw [hL.col q hq hqi, zero_mul]) (sign_machine hA hL.sign (hv i hi).1)
    rw [a] at b
    injection b
  have hsj : s j = -(U i j * v i) := by
    have a := (hp.hs j hj).1
    rcases hc with hc | hc
    · have e : δ j = -1 := by
        have e := (hp.hδ j hj).1
        have hone : |(d j - 1)| ≤ 2 ^ (1010 : ℤ) := by
          have : (2:ℝ) ^ (-55 : ℤ) ≤ 1 := by norm_num
          exact (abs_le.mpr ⟨by linarith, by linarith⟩ : |d j - 1| ≤ 1).trans (one_le_zpow (by norm_num))
        rw [Arith.sub, Arith.one_flt, sub_fin, hB.round_le hone] at e
        injection e with e
        rw [← e, show d j - 1 = -1 + d j by ring]
        refine rndReal_absorb (k := 0) ?_ (by norm_num) (by norm_num) (by rw [abs_of_nonneg hc.1]; simpa using hc.2)
        have := rndReal_neg 1
        rw [this, hB.machine hA.one_machine]
      rw [e, h1, Arith.neg_one_mul_machine hA (sign_machine hA hL.sign (hv i hi).1)] at a
      injection a with a
      exact a.symm
    · rw [h1, hc, mul_zero, Arith.mul, mul_fin, mul_zero, hz0] at a
      injection a with a
      rw [← a, hc]; simp
  have hwi : w i = -v i := by
    have a := matvec_entry hp.gathered hi
    have hss : U i j * U i j = 1 := by rcases hL.sign with h | h <;> rw [h] <;> norm_num
    have e : U i j * s j = -v i := by rw [hsj]; linear_combination (-v i) * hss
    have b := dot_sparse_range hS (f := U i) (g := s) (m := n) (j := j) (hn.trans (by norm_num)) hj
      (fun q hq hqj => by rw [hL.row q hq hqj, zero_mul]) (by rw [e]; exact hA.neg _ (hv i hi).1)
    rw [a, e] at b
    injection b
  have a := (hp.hz i hi).1
  rw [Arith.add, add_fin, hwi, add_neg_cancel, hz0] at a
  injection a with a
  exact a.symm

end Paragami
