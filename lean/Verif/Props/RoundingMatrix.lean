import Verif.Proofs.RoundingMatrix64
import Verif.Props.RoundingNear

/-!
# C108: how far floating point is from exact arithmetic, for matrices
-/

set_option linter.unusedSimpArgs false

namespace Paragami
open NDArray Pattern Flt Spec

variable {A : Arith}

theorem size_factor {a : ℝ} (h : |a| ≤ 330) : Real.exp a + |a| ≤ 2 ^ (480 : ℤ) := by
  have h1 : Real.exp a ≤ 2 ^ (479 : ℤ) := by
    have h1 : Real.exp a ≤ Real.exp (Real.log 2 * (479:ℤ)) := by
      apply Real.exp_le_exp.mpr
      have := Real.log_two_gt_d9
      have := (abs_le.mp h).2
      push_cast; linarith
    rwa [Real.exp_mul, Real.exp_log (by norm_num), Real.rpow_intCast] at h1
  have h2 : |a| ≤ 2 ^ (479 : ℤ) := h.trans (by
    calc (330:ℝ) ≤ 2 ^ (10 : ℤ) := by norm_num
      _ ≤ 2 ^ (479 : ℤ) := Arith.small_zpow (by norm_num))
  rw [show (480 : ℤ) = 479 + 1 by norm_num, Arith.zpow_split]
  generalize (2:ℝ) ^ (479 : ℤ) = w at *
  norm_num; linarith

theorem factorSize_nonneg (y : List ℝ) (i k : ℕ) : 0 ≤ factorSize y i k := by
  unfold factorSize
  split
  · exact abs_nonneg _
  · split
    · have := Real.exp_pos (lower y i i); have := abs_nonneg (lower y i i); linarith
    · exact le_rfl

theorem lower_eq (y : List ℝ) {i j : ℕ} (h : j ≤ i) : lower y i j = y.getD (symIndex i j) 0 := by
  simp only [lower, symIndex, if_pos h, Nat.add_comm j]

theorem freeFactor_eq (y : List ℝ) (i k : ℕ) :
    freeFactor y i k = if k < i then lower y i k else if i = k then Real.exp (lower y i i) else 0 := by
  unfold freeFactor
  split
  · next h => rw [lower_eq y h.le]
  · rw [lower_eq y le_rfl]

theorem freeFactor_le (y : List ℝ) (i k : ℕ) : |freeFactor y i k| ≤ factorSize y i k := by
  rw [freeFactor_eq]
  unfold factorSize
  by_cases h : k < i
  · rw [if_pos h, if_pos h]
  · rw [if_neg h, if_neg h]
    by_cases h' : i = k
    · rw [if_pos h', if_pos h'.symm, abs_of_pos (Real.exp_pos _)]
      have := abs_nonneg (lower y i i); linarith
    · rw [if_neg h', if_neg (Ne.symm h'), abs_zero]

/-- The computed factor, entry by entry. -/
theorem factorA_near (hA : A.Sane) (hB : A.Accurate) {n : ℕ} {t : List ℝ} (ht : t.length = tri n)
    (hm : ∀ i < n, ∀ j ≤ i, A.Machine (.fin (lower t i j))) (hd : ∀ i < n, |lower t i i| ≤ 690) {i k : ℕ} (hi : i < n) :
    ∃ z, factorA A (t.map .fin) i k = .fin z ∧ A.Machine (.fin z) ∧ |z - freeFactor t i k| ≤ 7 * Arith.uRound * factorSize t i k := by
  have hg : ∀ j ≤ i, (t.map Flt.fin).getD (symIndex i j) .nan = .fin (lower t i j) := fun j hj => by
    rw [lower_eq t hj]
    exact getD_map_fin (by rw [ht]; exact symIndex_lt hi hj)
  have hu := Arith.uRound_pos
  simp only [factorA, le_refl, if_true]
  rcases lt_trichotomy k i with h | rfl | h
  · rw [if_neg (by omega), if_pos h.le, if_neg (by omega), hg k h.le]
    have e1 : A.add 0 (.fin (lower t i k)) = .fin (lower t i k) := by
      rw [Arith.add, Arith.zero_flt, add_fin, zero_add]; exact hm i hi k h.le
    have e2 : A.sub (.fin (lower t i k)) 0 = .fin (lower t i k) := by
      rw [Arith.sub, Arith.zero_flt, sub_fin, sub_zero]; exact hm i hi k h.le
    refine ⟨_, by rw [e1, e2], hm i hi k h.le, ?_⟩
    have : freeFactor t i k = lower t i k := by rw [freeFactor_eq, if_pos h]
    rw [this, sub_self, abs_zero]
    have := factorSize_nonneg t i k
    positivity
  · rw [if_pos rfl, if_pos le_rfl, if_pos rfl, hg k le_rfl]
    obtain ⟨z, h1, h2, h3⟩ := Arith.expDiag_near hA hB (hm k hi k le_rfl) (hd k hi)
    refine ⟨z, h1, h2, ?_⟩
    have e1 : freeFactor t k k = Real.exp (lower t k k) := by rw [freeFactor_eq, if_neg (by omega), if_pos rfl]
    have e2 : factorSize t k k = Real.exp (lower t k k) + |lower t k k| := by unfold factorSize; rw [if_neg (by omega), if_pos rfl]
    rw [e1, e2]; exact h3
  · rw [if_neg (by omega), if_neg (by omega), if_neg (by omega)]
    have e1 : A.add 0 0 = .fin 0 := by rw [Arith.add, Arith.zero_flt, add_fin, zero_add]; exact hA.zero
    have e2 : A.sub (.fin 0) 0 = .fin 0 := by rw [Arith.sub, Arith.zero_flt, sub_fin, sub_zero]; exact hA.zero
    refine ⟨0, by rw [e1, e2], hA.zero_machine, ?_⟩
    have e3 : freeFactor t i k = 0 := by unfold freeFactor; rw [if_neg (by omega), if_neg (by omega)]
    have e4 : factorSize t i k = 0 := by unfold factorSize; rw [if_neg (by omega), if_neg (by omega)]
    rw [e3, e4]; simp

theorem sum_size {n : ℕ} (hn : n ≤ 2 ^ 20) {f g : ℕ → ℝ} (hf : ∀ k < n, 0 ≤ f k ∧ f k ≤ 2 ^ (480 : ℤ)) (hg : ∀ k < n, 0 ≤ g k ∧ g k ≤ 2 ^ (480 : ℤ)) :
    ∑ k ∈ Finset.range n, f k * g k ≤ 2 ^ (980 : ℤ) := by
  have h1 : ∑ k ∈ Finset.range n, f k * g k ≤ ∑ _k ∈ Finset.range n, (2:ℝ) ^ (960 : ℤ) := by
    refine Arith.sum_bound fun k hk => ?_
    rw [show (960 : ℤ) = 480 + 480 by norm_num, Arith.zpow_split]
    exact mul_le_mul (hf k hk).2 (hg k hk).2 (hg k hk).1 (two_zpow_pos _).le
  refine h1.trans ?_
  rw [Finset.sum_const, Finset.card_range, nsmul_eq_mul, show (980 : ℤ) = 20 + 960 by norm_num, Arith.zpow_split]
  refine mul_le_mul_of_nonneg_right ?_ (two_zpow_pos _).le
  have : (n:ℝ) ≤ ((2 ^ 20 : ℕ) : ℝ) := by exact_mod_cast hn
  refine this.trans (by norm_num)

/-- Adding the bound on the diagonal, and nothing elsewhere. -/
theorem add_lb (hB : A.Accurate) {lb v g S c d : ℝ} (hlb : A.Machine (.fin lb)) (hlb' : |lb| ≤ 2 ^ (1000 : ℤ)) (hv : A.Machine (.fin v))
    (hS : |g| ≤ 2 * S + 1) (hS0 : 0 ≤ S) (hS' : S ≤ 2 ^ (990 : ℤ)) (hc0 : 0 ≤ c) (hc : c ≤ 2 ^ (25 : ℕ)) (hd0 : 0 ≤ d) (hd1 : d ≤ 1)
    (h : |v - g| ≤ Arith.uRound * c * S + d) (b : Prop) [Decidable b] :
    ∃ w, A.add (.fin v) (if b then .fin lb else 0) = .fin w ∧
      |w - (g + if b then lb else 0)| ≤ Arith.uRound * ((c + 1) * S + |g + if b then lb else 0|) + 2 * d := by
  have hu := Arith.uRound_pos
  have hu' : Arith.uRound ≤ 1 / 2 ^ 50 := Arith.uRound_le
  have hus : Arith.uRound * c ≤ 1 := by
    calc Arith.uRound * c ≤ 1 / 2 ^ 50 * 2 ^ 25 := mul_le_mul hu' hc hc0 (by norm_num)
      _ ≤ 1 := by norm_num
  by_cases hb : b
  · simp only [if_pos hb]
    have hsz : |v + lb| ≤ 2 ^ (1010 : ℤ) := by
      have e1 : |v + lb| ≤ |v - g| + |g| + |lb| := by
        have := abs_add_le (v - g) g
        have := abs_add_le v lb
        rw [sub_add_cancel] at *
        linarith
      have e2 : Arith.uRound * c * S ≤ 1 * S := mul_le_mul_of_nonneg_right hus hS0
      have e3 : (2:ℝ) ^ (1010 : ℤ) = 2 ^ (1000 : ℤ) * 1024 := by rw [show (1010 : ℤ) = 1000 + 10 by norm_num, Arith.zpow_split]; norm_num
      have e4 : S ≤ 2 ^ (1000 : ℤ) := Arith.up_zpow hS' (by norm_num)
      have e5 : (1:ℝ) ≤ 2 ^ (1000 : ℤ) := by
        have := Arith.small_zpow (e := 0) (f := 1000) (by norm_num); simpa using this
      rw [e3]
      clear e3 hS'
      generalize (2:ℝ) ^ (1000 : ℤ) = w at *
      linarith
    obtain ⟨w, h1, h2⟩ := hB.add_rel hv hlb hsz
    refine ⟨w, h1, ?_⟩
    have e1 : |w - (g + lb)| ≤ |w - (v + lb)| + |v - g| := by
      have := abs_add_le (w - (v + lb)) (v - g); rwa [show w - (v + lb) + (v - g) = w - (g + lb) by ring] at this
    have e2 : |v + lb| ≤ |g + lb| + |v - g| := by
      have := abs_add_le (g + lb) (v - g); rwa [show g + lb + (v - g) = v + lb by ring] at this
    have e3 : Arith.uRound * |v + lb| ≤ Arith.uRound * (|g + lb| + |v - g|) := mul_le_mul_of_nonneg_left e2 hu.le
    have e4 : Arith.uRound * |v - g| ≤ Arith.uRound * (1 * S + d) := by
      apply mul_le_mul_of_nonneg_left _ hu.le
      exact h.trans (by have := mul_le_mul_of_nonneg_right hus hS0; linarith)
    have e5 : Arith.uRound * d ≤ 1 * d := mul_le_mul_of_nonneg_right (hu'.trans (by norm_num)) hd0
    nlinarith
  · simp only [if_neg hb]
    refine ⟨v, ?_, ?_⟩
    · rw [Arith.add, Arith.zero_flt, add_fin, add_zero]; exact hv
    · rw [add_zero]
      have : 0 ≤ Arith.uRound * (S + |g|) := mul_nonneg hu.le (by have := abs_nonneg g; linarith)
      nlinarith

/-- **C108, folding.**  The computed fold of a free vector into a matrix differs from the exact one, entry by entry, by at most
`2 ** -53 * ((3 * n + 17) * s + |m|)` and an underflow term, where `m` is the exact entry and `s` is the product of row `i` and row `j` of the sizes of
the factor (`|y|` below the diagonal, `exp(y) + |y|` on it). -/
theorem C108_fold (hA : A.Sane) (hB : A.Accurate) (hD : A.DotAccurate) {p : Pattern} {n : ℕ} {lb : PyNum} {dv : Bool} {fd : Option Bool}
    (hp : mkPSD n lb dv fd = .ok p) (hn : n ≤ 2 ^ 20) {c : ℝ} (hlb : lb.toFlt = .fin c) (hc : A.Machine (.fin c)) (hc' : |c| ≤ 2 ^ (1000 : ℤ))
    {t : List ℝ} (ht : t.length = n * (n + 1) / 2) (hm : ∀ u ∈ t, A.Machine (.fin u)) (hoff : ∀ i < n, ∀ j < i, |lower t i j| ≤ 2 ^ (480 : ℤ))
    (hdiag : ∀ i < n, |lower t i i| ≤ 330) :
    ∃ M M' : Matrix (Fin n) (Fin n) ℝ, p.fold (vec (t.map .fin)) (some true) = .ok (.arr ⟨[n, n], matData M⟩) ∧
      p.foldFreeA A (vec (t.map .fin)) = .ok (.arr ⟨[n, n], matData M'⟩) ∧
      ∀ i j, |M' i j - M i j| ≤
        2 ^ (-53 : ℤ) * ((3 * n + 17) * ∑ k ∈ Finset.range n, factorSize t i k * factorSize t j k + |M i j|) + n * 2 ^ (-1073 : ℤ) := by
  have ht' : t.length = tri n := ht
  have hm' : ∀ i < n, ∀ j ≤ i, A.Machine (.fin (lower t i j)) := fun i hi j hj => by
    have : symIndex i j < t.length := by rw [ht']; exact symIndex_lt hi hj
    have e : lower t i j = t[symIndex i j] := by
      rw [lower_eq t hj]
      simp [List.getD, List.getElem?_eq_getElem this]
    rw [e]; exact hm _ (List.getElem_mem _)
  have hsz : ∀ i < n, ∀ k, 0 ≤ factorSize t i k ∧ factorSize t i k ≤ 2 ^ (480 : ℤ) := by
    intro i hi k
    refine ⟨factorSize_nonneg t i k, ?_⟩
    unfold factorSize
    split
    · next h => exact hoff i hi k h
    · split
      · exact size_factor (hdiag i hi)
      · exact (two_zpow_pos _).le
  have hF : ∀ i, ∀ k, ∃ z, i < n → factorA A (t.map .fin) i k = .fin z ∧ A.Machine (.fin z) ∧
      |z - freeFactor t i k| ≤ 7 * Arith.uRound * factorSize t i k := by
    intro i k
    by_cases hi : i < n
    · obtain ⟨z, hz⟩ := factorA_near hA hB ht' hm' (fun i hi => (hdiag i hi).trans (by norm_num)) hi (k := k)
      exact ⟨z, fun _ => hz⟩
    · exact ⟨0, fun h => absurd h hi⟩
  choose F hF using hF
  have hE : ∀ i j, ∃ w, i < n → j < n → A.add (A.dot ((List.range n).map fun k => (factorA A (t.map .fin) i k, factorA A (t.map .fin) j k)))
      (if i = j then lb.toFlt else 0) = .fin w ∧ |w - freeMat n c t i j| ≤
        Arith.uRound * ((3 * n + 17) * ∑ k ∈ Finset.range n, factorSize t i k * factorSize t j k + |freeMat n c t i j|) + n * 2 ^ (-1073 : ℤ) := by
    intro i j
    by_cases hij : i < n ∧ j < n
    · obtain ⟨hi, hj⟩ := hij
      have hS := Arith.up_zpow (sum_size hn (fun k _ => hsz i hi k) (fun k _ => hsz j hj k)) (show (980 : ℤ) ≤ 990 by norm_num)
      have hrow : ∀ i < n, ∀ k < n, A.Machine (.fin (F i k)) ∧ |F i k - freeFactor t i k| ≤ 7 * Arith.uRound * factorSize t i k ∧
          |freeFactor t i k| ≤ 101 / 100 * factorSize t i k := fun i hi k _ =>
        ⟨(hF i k hi).2.1, (hF i k hi).2.2, (freeFactor_le t i k).trans (by have := factorSize_nonneg t i k; linarith)⟩
      obtain ⟨v, h1, h2, h3⟩ := Arith.gram_near hD hn (hrow i hi) (hrow j hj) hS
      have hS0 : 0 ≤ ∑ k ∈ Finset.range n, factorSize t i k * factorSize t j k :=
        Finset.sum_nonneg fun k _ => mul_nonneg (factorSize_nonneg t i k) (factorSize_nonneg t j k)
      have hgS : |∑ k ∈ Finset.range n, freeFactor t i k * freeFactor t j k| ≤ 2 * ∑ k ∈ Finset.range n, factorSize t i k * factorSize t j k + 1 := by
        refine (Finset.abs_sum_le_sum_abs _ _).trans ?_
        refine (Arith.sum_bound (g := fun k => factorSize t i k * factorSize t j k) fun k _ => ?_).trans (by linarith)
        rw [abs_mul]
        exact mul_le_mul (freeFactor_le t i k) (freeFactor_le t j k) (abs_nonneg _) (factorSize_nonneg t i k)
      have hn' : (n:ℝ) ≤ 2 ^ 20 := by exact_mod_cast hn
      have htiny : (2:ℝ) ^ (-1074 : ℤ) ≤ 2 ^ (-20 : ℤ) := Arith.small_zpow (by norm_num)
      obtain ⟨w, h4, h5⟩ := add_lb hB hc hc' h2 hgS hS0 hS (c := 3 * n + 16) (d := n * 2 ^ (-1074 : ℤ)) (by positivity) (by
          refine (show 3 * (n:ℝ) + 16 ≤ 3 * 2 ^ 20 + 16 by linarith).trans (by norm_num)) (by positivity) (by
          calc (n:ℝ) * 2 ^ (-1074 : ℤ) ≤ 2 ^ 20 * 2 ^ (-20 : ℤ) := mul_le_mul hn' htiny (two_zpow_pos _).le (by norm_num)
            _ ≤ 1 := by norm_num) h3 (i = j)
      refine ⟨w, fun _ _ => ⟨?_, ?_⟩⟩
      · rw [hlb, ← h4, ← h1]
        congr 2
        apply List.map_congr_left
        intro k _
        rw [(hF i k hi).1, (hF j k hj).1]
      · have e1 : 2 * ((n:ℝ) * 2 ^ (-1074 : ℤ)) = n * 2 ^ (-1073 : ℤ) := by
          rw [show (-1073 : ℤ) = 1 + -1074 by norm_num, Arith.zpow_split 1, zpow_one]; ring
        rw [e1, show (3 * (n:ℝ) + 16 + 1) = 3 * n + 17 by ring] at h5
        exact h5
    · exact ⟨0, fun h h' => absurd ⟨h, h'⟩ hij⟩
  choose W hW using hE
  refine ⟨Matrix.of fun i j => freeMat n c t i j, Matrix.of fun i j => W i j, ?_, ?_, ?_⟩
  · rw [← matData_of n n (freeMat n c t)]
    obtain rfl := mkPSD_eq hp
    have h1 : PSD.foldFree n lb.toFlt (vec (t.map .fin)) = .ok (ofFn2 n n fun i j => .fin (freeMat n c t i j)) := by
      rw [PSD.foldFree_ok, atleast1d_of_ne (by simp [vec]), hlb]
      exact ⟨by simp [vec, ndim], by simp [vec, ht'], unpackPosdef_fin ht'⟩
    simp only [Pattern.fold, freeWithDefault, Option.isSome_some, bind, Except.bind, if_true, Pattern.foldFree, h1, pure, Except.pure]
  · rw [← matData_of n n W, psd_fold_round hp (by simp [ht'])]
    congr 2
    apply ofFn2_congr
    intro i hi j hj
    exact (hW i j hi hj).1
  · intro i j
    simp only [Matrix.of_apply]
    rw [Arith.uRound_val]
    exact (hW i j i.2 j.2).2

/-! ### Round trips -/

theorem tripSize_nonneg (y : List ℝ) (i k : ℕ) : 0 ≤ tripSize y i k := by
  unfold tripSize
  split
  · exact abs_nonneg _
  · split
    · have := Real.exp_pos (lower y i i); have := abs_nonneg (lower y i i); positivity
    · exact le_rfl

theorem flattenFreeA_pack {n : ℕ} {lb : Flt} {dv : Bool} {a w : NDArray Flt} {vv : Option Bool} (h : PSD.flattenFreeA A n lb dv a vv = .ok w) :
    packPosdefA A n lb a = .ok w := by
  unfold PSD.flattenFreeA at h
  obtain ⟨r, _, h⟩ := bind_ok h
  obtain ⟨ok, msg⟩ := r
  cases ok
  · simp [bind, Except.bind, throw, throwThe, MonadExceptOf.throw] at h
  · simpa using h

/-- What a successful free flattening returns. -/
theorem flatten_entries (hA : A.Sane) (hB : A.Accurate) (hC : A.CholAccurate) {n : ℕ} (hn : n ≤ 1000) {lb : PyNum} {dv : Bool} {fd : Option Bool}
    {c : ℝ} (hlb : lb.toFlt = .fin c) (hc : A.Machine (.fin c)) {M : Matrix (Fin n) (Fin n) ℝ}
    (hM : ∀ i j, A.Machine (.fin (M i j)) ∧ |M i j| ≤ 2 ^ (900 : ℤ)) (hd : ∀ i, |M i i - c| ≤ 2 ^ (890 : ℤ)) {vv : Option Bool} {w : NDArray Flt}
    (hy : (Pattern.psd n lb dv fd).flattenFreeA A (.arr ⟨[n, n], matData M⟩) vv = .ok w) :
    ∃ L : ℕ → ℕ → ℝ, (∀ i < n, ∀ k < n, A.Machine (.fin (L i k))) ∧ (∀ i < n, ∀ k < n, i < k → L i k = 0) ∧ (∀ i < n, 0 ≤ L i i) ∧
      w = vec ((trilIndices n).map fun ij =>
        if ij.1 = ij.2 then A.sub (A.add (A.log (.fin (L ij.1 ij.1))) (.fin (L ij.1 ij.1))) (.fin (L ij.1 ij.1)) else .fin (L ij.1 ij.2)) ∧
      ∀ i j : Fin n, j ≤ i → |∑ k ∈ Finset.range n, L i k * L j k - (M i j - if i = j then c else 0)| ≤
        n * 2 ^ (-51 : ℤ) * ∑ k ∈ Finset.range n, |L i k| * |L j k| + n * 2 ^ (-500 : ℤ) + if i = j then Arith.uRound * |M i j - c| else 0 := by
  have hu := Arith.uRound_pos
  have hu' : Arith.uRound ≤ 1 := Arith.uRound_le.trans (by norm_num)
  simp only [Pattern.flattenFreeA, Val.asArr, bind, Except.bind] at hy
  replace hy := flattenFreeA_pack hy
  rw [matData_eq] at hy
  unfold packPosdefA at hy
  obtain ⟨C, hch, hy⟩ := bind_ok hy
  have hsub : ∀ i : Fin n, ∃ z, A.sub (.fin (M i i)) (.fin c) = .fin z ∧ |z - (M i i - c)| ≤ Arith.uRound * |M i i - c| := fun i =>
    hB.sub_rel (hM i i).1 hc (Arith.up_zpow (hd i) (by norm_num))
  choose z hz1 hz2 using hsub
  have hent : ∀ i : Fin n, ∀ j : Fin n, A.sub (.fin (M i j)) (if i = j then lb.toFlt else 0) = .fin (if i = j then z i else M i j) := by
    intro i j
    by_cases h : i = j
    · subst h; rw [if_pos rfl, if_pos rfl, hlb, hz1]
    · rw [if_neg h, if_neg h, Arith.sub, Arith.zero_flt, sub_fin, sub_zero]; exact (hM i j).1
  have hmat : ∀ i (hi : i < n) j (hj : j < n), entry n (ofFn2 n n fun i j => A.sub (entry n (ofFn2 n n fun i j => Flt.fin (natMat M i j)).data i j)
      (if i = j then lb.toFlt else 0)).data i j = .fin (if i = j then z ⟨i, hi⟩ else M ⟨i, hi⟩ ⟨j, hj⟩) := by
    intro i hi j hj
    rw [entry_ofFn2 _ _ _ hi hj, entry_ofFn2 _ _ _ hi hj]
    have e1 : natMat M i j = M ⟨i, hi⟩ ⟨j, hj⟩ := by simp [natMat, hi, hj]
    have := hent ⟨i, hi⟩ ⟨j, hj⟩
    simp only [Fin.mk.injEq] at this
    rw [e1, this]
  obtain ⟨L, h1, h2, h3, h4⟩ := hC.chol n hn _ (fun i j => if h : i < n ∧ j < n then (if i = j then z ⟨i, h.1⟩ else M ⟨i, h.1⟩ ⟨j, h.2⟩) else 0) C (by
    intro i hi j hj
    have hj' : j < n := by omega
    simp only [hi, hj', true_and, dif_pos]
    refine ⟨hmat i hi j hj', ?_, ?_⟩
    · by_cases h : i = j
      · rw [if_pos h, ← hz1]; exact hA.idem _
      · rw [if_neg h]; exact (hM _ _).1
    · by_cases h : i = j
      · rw [if_pos h]
        have e1 := hz2 ⟨i, hi⟩
        have e2 := hd ⟨i, hi⟩
        generalize M ⟨i, hi⟩ ⟨i, hi⟩ - c = q at *
        have e3 : |z ⟨i, hi⟩| ≤ |z ⟨i, hi⟩ - q| + |q| := by
          have := abs_add_le (z ⟨i, hi⟩ - q) q; rwa [sub_add_cancel] at this
        have e4 : Arith.uRound * |q| ≤ 1 * |q| := mul_le_mul_of_nonneg_right hu' (abs_nonneg _)
        have e5 : (2:ℝ) ^ (900 : ℤ) = 2 ^ (890 : ℤ) * 1024 := by rw [show (900 : ℤ) = 890 + 10 by norm_num, Arith.zpow_split]; norm_num
        have e6 := abs_nonneg q
        rw [e5]
        clear e5
        generalize (2:ℝ) ^ (890 : ℤ) = w at *
        linarith
      · rw [if_neg h]; exact (hM _ _).2) hch
  unfold logDiagA at hy
  rw [vectorizeLd_ofFn2] at hy
  injection hy with hy
  refine ⟨L, fun i hi k hk => (h1 i hi k hk).2, h2, h3, ?_, ?_⟩
  · rw [← hy]
    congr 1
    apply List.map_congr_left
    intro ij hij
    obtain ⟨hi, hj⟩ := mem_trilIndices.mp hij
    have e2 := h1 ij.1 hi ij.2 (by omega)
    by_cases h : ij.1 = ij.2
    · rw [if_pos h, if_pos h, if_pos h, ← h, (h1 ij.1 hi ij.1 hi).1]
    · have e3 : A.add 0 (.fin (L ij.1 ij.2)) = .fin (L ij.1 ij.2) := by rw [Arith.add, Arith.zero_flt, add_fin, zero_add]; exact e2.2
      have e4 : A.sub (.fin (L ij.1 ij.2)) 0 = .fin (L ij.1 ij.2) := by rw [Arith.sub, Arith.zero_flt, sub_fin, sub_zero]; exact e2.2
      rw [if_neg h, if_neg h, if_neg h, e2.1, e3, e4]
  · intro i j hij
    have e1 := h4 i i.2 j hij
    simp only [i.2, j.2, true_and, dif_pos, Fin.eta, ← Fin.ext_iff] at e1
    by_cases h : i = j
    · subst h
      simp only [if_true] at e1 ⊢
      have := abs_add_le (∑ k ∈ Finset.range n, L i k * L i k - z i) (z i - (M i i - c))
      rw [sub_add_sub_cancel] at this
      have := hz2 i
      linarith
    · simp only [if_neg h, sub_zero, add_zero] at e1 ⊢
      exact e1

/-- What a successful free flattening says about the factor and the free vector. -/
theorem flatten_factor (hA : A.Sane) (hB : A.Accurate) (hC : A.CholAccurate) {n : ℕ} (hn : n ≤ 1000) {lb : PyNum} {dv : Bool} {fd : Option Bool}
    {c : ℝ} (hlb : lb.toFlt = .fin c) (hc : A.Machine (.fin c)) {M : Matrix (Fin n) (Fin n) ℝ}
    (hM : ∀ i j, A.Machine (.fin (M i j)) ∧ |M i j| ≤ 2 ^ (900 : ℤ)) (hd : ∀ i, |M i i - c| ≤ 2 ^ (890 : ℤ)) {vv : Option Bool} {y : List ℝ}
    (hy : (Pattern.psd n lb dv fd).flattenFreeA A (.arr ⟨[n, n], matData M⟩) vv = .ok (vec (y.map .fin))) :
    ∃ L : ℕ → ℕ → ℝ, y.length = tri n ∧ (∀ i < n, ∀ k < n, A.Machine (.fin (L i k))) ∧ (∀ i < n, ∀ k < n, i < k → L i k = 0) ∧ (∀ i < n, 0 ≤ L i i) ∧
      (∀ i < n, ∀ k < i, lower y i k = L i k) ∧
      (∀ i < n, A.sub (A.add (A.log (.fin (L i i))) (.fin (L i i))) (.fin (L i i)) = .fin (lower y i i)) ∧
      ∀ i j : Fin n, j ≤ i → |∑ k ∈ Finset.range n, L i k * L j k - (M i j - if i = j then c else 0)| ≤
        n * 2 ^ (-51 : ℤ) * ∑ k ∈ Finset.range n, |L i k| * |L j k| + n * 2 ^ (-500 : ℤ) + if i = j then Arith.uRound * |M i j - c| else 0 := by
  obtain ⟨L, h1, h2, h3, h4, h5⟩ := flatten_entries hA hB hC hn hlb hc hM hd hy
  rw [vec_inj] at h4
  have hlen : y.length = tri n := by
    have := congrArg List.length h4
    rwa [List.length_map, List.length_map, length_trilIndices] at this
  have hlow : ∀ i (hi : i < n), ∀ j (hj : j ≤ i),
      (if i = j then A.sub (A.add (A.log (.fin (L i i))) (.fin (L i i))) (.fin (L i i)) else .fin (L i j)) = Flt.fin (lower y i j) := by
    intro i hi j hj
    have e1 := getD_tril (n := n)
      (fun i j => if i = j then A.sub (A.add (A.log (.fin (L i i))) (.fin (L i i))) (.fin (L i i)) else .fin (L i j)) hi hj
    rw [← h4, getD_map_fin (by rw [hlen]; exact symIndex_lt hi hj), ← lower_eq y hj] at e1
    exact e1.symm
  refine ⟨L, hlen, h1, h2, h3, ?_, ?_, h5⟩
  · intro i hi k hk
    have e1 := hlow i hi k hk.le
    rw [if_neg (by omega)] at e1
    exact (Flt.fin_injective e1).symm
  · intro i hi
    have e1 := hlow i hi i le_rfl
    rwa [if_pos rfl] at e1

/-- One row of a factor whose squares sum to `q`. -/
theorem row_size {n : ℕ} (hn : n ≤ 1000) {N q d : ℝ} (hN : 0 ≤ N) (hd0 : 0 ≤ d) (h : |N - q| ≤ n * 2 ^ (-51 : ℤ) * N + d + Arith.uRound * |q|) :
    N ≤ 101 / 100 * |q| + 2 * d ∧ |q| ≤ 101 / 100 * N + 2 * d := by
  have hu' : Arith.uRound ≤ 1 / 100000 := Arith.uRound_le.trans (by norm_num)
  have hn' : (n:ℝ) ≤ 1000 := by exact_mod_cast hn
  have h1 : (n:ℝ) * 2 ^ (-51 : ℤ) ≤ 1 / 100000 := by
    calc (n:ℝ) * 2 ^ (-51 : ℤ) ≤ 1000 * 2 ^ (-51 : ℤ) := mul_le_mul_of_nonneg_right hn' (two_zpow_pos _).le
      _ ≤ 1 / 100000 := by norm_num
  have h2 : (n:ℝ) * 2 ^ (-51 : ℤ) * N ≤ 1 / 100000 * N := mul_le_mul_of_nonneg_right h1 hN
  have h3 : Arith.uRound * |q| ≤ 1 / 100000 * |q| := mul_le_mul_of_nonneg_right hu' (abs_nonneg _)
  obtain ⟨h4, h4'⟩ := abs_le.mp h
  have h5 := le_abs_self q
  have h6 : |q| ≤ |N - q| + N := by
    have := abs_add_le (q - N) N; rwa [sub_add_cancel, abs_sub_comm, abs_of_nonneg hN] at this
  have h7 := abs_nonneg q
  clear h1 hn'
  generalize (n:ℝ) * 2 ^ (-51 : ℤ) * N = e at *
  generalize Arith.uRound * |q| = f at *
  constructor <;> linarith

/-- **C108, round trips.**  If flattening a matrix of machine numbers gives a finite free vector, folding that vector gives a symmetric matrix whose lower
triangle is the one that was flattened, up to `2 ** -53 * ((8 * n + 19) * s + |m|)` and an underflow term, where `m` is the entry and `s` is the product of
row `i` and row `j` of the sizes of the factor. -/
theorem C108_trip (hA : A.Sane) (hB : A.Accurate) (hL : A.LogAccurate) (hD : A.DotAccurate) (hC : A.CholAccurate) {p : Pattern} {n : ℕ} {lb : PyNum}
    {dv : Bool} {fd : Option Bool} (hp : mkPSD n lb dv fd = .ok p) (hn : n ≤ 1000) {c : ℝ} (hlb : lb.toFlt = .fin c) (hc : A.Machine (.fin c))
    (hc' : |c| ≤ 2 ^ (1000 : ℤ)) {M : Matrix (Fin n) (Fin n) ℝ} (hM : ∀ i j, A.Machine (.fin (M i j)) ∧ |M i j| ≤ 2 ^ (900 : ℤ))
    (hd : ∀ i, |M i i - c| ≤ 2 ^ 80) {vv : Option Bool} {y : List ℝ}
    (hy : p.flattenFreeA A (.arr ⟨[n, n], matData M⟩) vv = .ok (vec (y.map .fin))) (hy' : ∀ i < n, |lower y i i| ≤ 600) :
    ∃ M' : Matrix (Fin n) (Fin n) ℝ, p.foldFreeA A (vec (y.map .fin)) = .ok (.arr ⟨[n, n], matData M'⟩) ∧ M'.IsSymm ∧
      ∀ i j, j ≤ i → |M' i j - M i j| ≤
        2 ^ (-53 : ℤ) * ((8 * n + 19) * ∑ k ∈ Finset.range n, tripSize y i k * tripSize y j k + |M i j|) + n * 2 ^ (-498 : ℤ) := by
  have hu := Arith.uRound_pos
  have hu' : Arith.uRound ≤ 1 / 2 ^ 50 := Arith.uRound_le
  have hn' : (n:ℝ) ≤ 1000 := by exact_mod_cast hn
  have hbig : (2:ℝ) ^ 80 ≤ 2 ^ (890 : ℤ) := by
    calc (2:ℝ) ^ 80 = 2 ^ (80 : ℤ) := by norm_num
      _ ≤ 2 ^ (890 : ℤ) := Arith.small_zpow (by norm_num)
  obtain ⟨L, hlen, hLm, hLz, hL0, hoff, hdiag, hchol⟩ := flatten_factor hA hB hC hn hlb hc hM (fun i => (hd i).trans hbig)
    (by rw [mkPSD_eq hp] at hy; exact hy)
  have htin : (2:ℝ) ^ (-500 : ℤ) ≤ 2 ^ (-30 : ℤ) := Arith.small_zpow (by norm_num)
  have htin0 : (0:ℝ) < 2 ^ (-500 : ℤ) := two_zpow_pos _
  have hnt : (n:ℝ) * 2 ^ (-500 : ℤ) ≤ 1 / 1000 := by
    calc (n:ℝ) * 2 ^ (-500 : ℤ) ≤ 1000 * 2 ^ (-30 : ℤ) := mul_le_mul hn' htin htin0.le (by norm_num)
      _ ≤ 1 / 1000 := by norm_num
  have hnt0 : 0 ≤ (n:ℝ) * 2 ^ (-500 : ℤ) := by positivity
  -- the rows of the factor
  have hrow : ∀ i : Fin n, (∑ k ∈ Finset.range n, L i k * L i k) ≤ 101 / 100 * |M i i - c| + 2 * (n * 2 ^ (-500 : ℤ)) ∧
      |M i i - c| ≤ 101 / 100 * (∑ k ∈ Finset.range n, L i k * L i k) + 2 * (n * 2 ^ (-500 : ℤ)) := by
    intro i
    have h1 := hchol i i le_rfl
    simp only [if_true, abs_mul_abs_self] at h1
    exact row_size hn (Finset.sum_nonneg fun k _ => mul_self_nonneg _) hnt0 h1
  have hLs : ∀ i < n, ∀ k < n, |L i k| ≤ 2 ^ 41 := by
    intro i hi k hk
    have h1 := (hrow ⟨i, hi⟩).1
    have h2 := hd ⟨i, hi⟩
    have h3 : L i k * L i k ≤ ∑ k ∈ Finset.range n, L i k * L i k :=
      Finset.single_le_sum (f := fun k => L i k * L i k) (fun k _ => mul_self_nonneg _) (Finset.mem_range.mpr hk)
    refine abs_le_of_sq_le_sq ?_ (by norm_num)
    simp only at h1
    rw [sq]
    norm_num at h2 ⊢
    linarith
  -- the diagonal
  have hx : ∀ i < n, 0 < L i i := by
    intro i hi
    rcases (hL0 i hi).lt_or_eq with h | h
    · exact h
    · exfalso
      have e := hdiag i hi
      rw [← h, hL.zero] at e
      have e' : A.sub (A.add .ninf (.fin 0)) (.fin 0) = .ninf := rfl
      rw [e'] at e
      exact absurd e (by simp)
  have h41 : (2:ℝ) ^ 41 ≤ 2 ^ (480 : ℤ) := by
    calc (2:ℝ) ^ 41 = 2 ^ (41 : ℤ) := by norm_num
      _ ≤ 2 ^ (480 : ℤ) := Arith.small_zpow (by norm_num)
  have hdg : ∀ i < n, A.Machine (.fin (lower y i i)) ∧ L i i ≤ 101 / 100 * Real.exp (lower y i i) ∧ Real.exp (lower y i i) ≤ 2 * L i i ∧
      |Real.exp (lower y i i) - L i i| ≤ 7 * Arith.uRound * (Real.exp (lower y i i) * (Real.exp (lower y i i) + |lower y i i|)) := by
    intro i hi
    have hs1 : L i i ≤ 2 ^ 41 := (le_abs_self _).trans (hLs i hi i hi)
    obtain ⟨y', e1, e2, e3⟩ := Arith.logDiag_close hA hB hL (hLm i hi i hi) (hx i hi) (Arith.up_zpow (hs1.trans h41) (by norm_num))
    rw [hdiag i hi] at e1
    obtain rfl := Flt.fin_injective e1
    exact ⟨e2, Arith.logDiag_exp (hx i hi) hs1 (hy' i hi) e3⟩
  have hmach : ∀ i < n, ∀ j ≤ i, A.Machine (.fin (lower y i j)) := by
    intro i hi j hj
    rcases hj.lt_or_eq with h | rfl
    · rw [hoff i hi j h]; exact hLm i hi j (by omega)
    · exact (hdg j hi).1
  -- the computed factor
  have hF : ∀ i, ∀ k, ∃ w, i < n → k < n → factorA A (y.map .fin) i k = .fin w ∧ A.Machine (.fin w) ∧
      |w - L i k| ≤ 7 * Arith.uRound * tripSize y i k ∧ |L i k| ≤ 101 / 100 * tripSize y i k := by
    intro i k
    by_cases hik : i < n ∧ k < n
    · obtain ⟨hi, hk⟩ := hik
      obtain ⟨w, e1, e2, e3⟩ := factorA_near hA hB hlen hmach (fun i hi => (hy' i hi).trans (by norm_num)) hi (k := k)
      refine ⟨w, fun _ _ => ⟨e1, e2, ?_⟩⟩
      rcases lt_trichotomy k i with h | rfl | h
      · rw [freeFactor_eq, if_pos h, hoff i hi k h] at e3
        unfold factorSize at e3
        unfold tripSize
        rw [if_pos h, hoff i hi k h] at e3
        rw [if_pos h, hoff i hi k h]
        exact ⟨e3, by have := abs_nonneg (L i k); linarith⟩
      · obtain ⟨_, d1, d2, d3⟩ := hdg k hi
        rw [freeFactor_eq, if_neg (by omega), if_pos rfl] at e3
        unfold factorSize at e3
        unfold tripSize
        rw [if_neg (by omega), if_pos rfl] at e3
        rw [if_neg (by omega), if_pos rfl]
        have hE := Real.exp_pos (lower y k k)
        have hY := abs_nonneg (lower y k k)
        generalize Real.exp (lower y k k) = E at *
        generalize |lower y k k| = Y at *
        refine ⟨?_, ?_⟩
        · have := abs_add_le (w - E) (E - L k k)
          rw [sub_add_sub_cancel] at this
          nlinarith
        · rw [abs_of_pos (hx k hi)]
          nlinarith
      · rw [freeFactor_eq, if_neg (by omega), if_neg (by omega)] at e3
        unfold factorSize at e3
        unfold tripSize
        rw [if_neg (by omega), if_neg (by omega)] at e3
        rw [if_neg (by omega), if_neg (by omega), hLz i hi k hk h]
        exact ⟨e3, by simp⟩
    · exact ⟨0, fun h h' => absurd ⟨h, h'⟩ hik⟩
  choose F hF using hF
  have hsz : ∀ i < n, ∀ k < n, 0 ≤ tripSize y i k ∧ tripSize y i k ≤ 2 ^ (480 : ℤ) := by
    intro i hi k hk
    refine ⟨tripSize_nonneg y i k, ?_⟩
    unfold tripSize
    split
    · next h => rw [hoff i hi k h]; exact (hLs i hi k hk).trans h41
    · split
      · obtain ⟨_, _, d2, _⟩ := hdg i hi
        have hs1 : L i i ≤ 2 ^ 41 := (le_abs_self _).trans (hLs i hi i hi)
        have d3 := hy' i hi
        have hE := Real.exp_pos (lower y i i)
        have : (1 + Real.exp (lower y i i)) * (Real.exp (lower y i i) + |lower y i i|) ≤ (1 + 2 ^ 42) * (2 ^ 42 + 600) := by
          apply mul_le_mul _ _ (by positivity) (by norm_num) <;> linarith
        refine this.trans ?_
        calc ((1:ℝ) + 2 ^ 42) * (2 ^ 42 + 600) ≤ 2 ^ (90 : ℤ) := by norm_num
          _ ≤ 2 ^ (480 : ℤ) := Arith.small_zpow (by norm_num)
      · exact (two_zpow_pos _).le
  -- the entries of the product
  have hE : ∀ i j, ∃ w, ∀ (hi : i < n) (hj : j < n), j ≤ i →
      A.add (A.dot ((List.range n).map fun k => (factorA A (y.map .fin) i k, factorA A (y.map .fin) j k))) (if i = j then lb.toFlt else 0) = .fin w ∧
      |w - M ⟨i, hi⟩ ⟨j, hj⟩| ≤ Arith.uRound * ((8 * n + 19) * ∑ k ∈ Finset.range n, tripSize y i k * tripSize y j k + |M ⟨i, hi⟩ ⟨j, hj⟩|) +
        n * 2 ^ (-498 : ℤ) := by
    intro i j
    by_cases hij : i < n ∧ j < n ∧ j ≤ i
    · obtain ⟨hi, hj, hji⟩ := hij
      have hS := Arith.up_zpow (sum_size (by omega) (hsz i hi) (hsz j hj)) (show (980 : ℤ) ≤ 990 by norm_num)
      obtain ⟨v, h1, h2, h3⟩ := Arith.gram_near hD (by omega) (fun k hk => (hF i k hi hk).2) (fun k hk => (hF j k hj hk).2) hS
      have hS0 : 0 ≤ ∑ k ∈ Finset.range n, tripSize y i k * tripSize y j k :=
        Finset.sum_nonneg fun k _ => mul_nonneg (tripSize_nonneg y i k) (tripSize_nonneg y j k)
      have hLL : ∀ i < n, ∀ j < n, ∑ k ∈ Finset.range n, |L i k| * |L j k| ≤ 103 / 100 * ∑ k ∈ Finset.range n, tripSize y i k * tripSize y j k := by
        intro i hi j hj
        rw [Finset.mul_sum]
        refine Arith.sum_bound fun k hk => ?_
        have e1 := mul_le_mul (hF i k hi hk).2.2.2 (hF j k hj hk).2.2.2 (abs_nonneg _) (by have := tripSize_nonneg y i k; linarith)
        have e2 := mul_nonneg (tripSize_nonneg y i k) (tripSize_nonneg y j k)
        nlinarith
      have h4 := hchol ⟨i, hi⟩ ⟨j, hj⟩ hji
      simp only [Fin.mk.injEq] at h4
      have h5 := hLL i hi j hj
      have h6 : |∑ k ∈ Finset.range n, L i k * L j k| ≤ 103 / 100 * ∑ k ∈ Finset.range n, tripSize y i k * tripSize y j k := by
        refine (Finset.abs_sum_le_sum_abs _ _).trans (le_trans (le_of_eq ?_) h5)
        exact Finset.sum_congr rfl fun k _ => abs_mul _ _
      have h7 : (if i = j then Arith.uRound * |M ⟨i, hi⟩ ⟨j, hj⟩ - c| else 0) ≤
          Arith.uRound * (2 * ∑ k ∈ Finset.range n, tripSize y i k * tripSize y j k) + n * 2 ^ (-501 : ℤ) := by
        have e0 : (n:ℝ) * 2 ^ (-501 : ℤ) = 1 / 2 * (n * 2 ^ (-500 : ℤ)) := by
          rw [show (-501 : ℤ) = -1 + -500 by norm_num, Arith.zpow_split (-1)]
          generalize (2:ℝ) ^ (-500 : ℤ) = w
          rw [show (2:ℝ) ^ (-1 : ℤ) = 1 / 2 by norm_num]; ring
        rw [e0]
        by_cases h : i = j
        · subst h
          rw [if_pos rfl]
          have e1 := (hrow ⟨i, hi⟩).2
          have e2 : Arith.uRound * (n * 2 ^ (-500 : ℤ)) ≤ 1 / 100 * (n * 2 ^ (-500 : ℤ)) :=
            mul_le_mul_of_nonneg_right (hu'.trans (by norm_num)) hnt0
          have e3 := (le_abs_self _).trans h6
          generalize (n:ℝ) * 2 ^ (-500 : ℤ) = d at *
          simp only at e1
          have e4 : Arith.uRound * |M ⟨i, hi⟩ ⟨i, hi⟩ - c| ≤
              Arith.uRound * (101 / 100 * (103 / 100 * ∑ k ∈ Finset.range n, tripSize y i k * tripSize y i k) + 2 * d) :=
            mul_le_mul_of_nonneg_left (by linarith) hu.le
          have e5 := mul_nonneg hu.le hS0
          linarith
        · rw [if_neg h]
          have e5 := mul_nonneg hu.le hS0
          linarith
      have h8 : (n:ℝ) * 2 ^ (-51 : ℤ) * ∑ k ∈ Finset.range n, |L i k| * |L j k| ≤
          Arith.uRound * (5 * n) * ∑ k ∈ Finset.range n, tripSize y i k * tripSize y j k := by
        have e1 : (2:ℝ) ^ (-51 : ℤ) = 4 * Arith.uRound := by unfold Arith.uRound; norm_num
        rw [e1]
        have e2 : (n:ℝ) * (4 * Arith.uRound) * ∑ k ∈ Finset.range n, |L i k| * |L j k| ≤ n * (4 * Arith.uRound) *
            (103 / 100 * ∑ k ∈ Finset.range n, tripSize y i k * tripSize y j k) := mul_le_mul_of_nonneg_left h5 (by positivity)
        have e3 : 0 ≤ n * Arith.uRound * ∑ k ∈ Finset.range n, tripSize y i k * tripSize y j k := by positivity
        nlinarith
      set S := ∑ k ∈ Finset.range n, tripSize y i k * tripSize y j k with hSdef
      set q := M ⟨i, hi⟩ ⟨j, hj⟩ - (if i = j then c else 0) with hq
      have htiny : (n:ℝ) * 2 ^ (-1074 : ℤ) ≤ n * 2 ^ (-501 : ℤ) := mul_le_mul_of_nonneg_left (Arith.small_zpow (by norm_num)) (by positivity)
      have e0 : (n:ℝ) * 2 ^ (-501 : ℤ) = 1 / 2 * (n * 2 ^ (-500 : ℤ)) := by
        rw [show (-501 : ℤ) = -1 + -500 by norm_num, Arith.zpow_split (-1)]
        generalize (2:ℝ) ^ (-500 : ℤ) = w
        rw [show (2:ℝ) ^ (-1 : ℤ) = 1 / 2 by norm_num]; ring
      have e2 : (n:ℝ) * 2 ^ (-498 : ℤ) = 2 * (2 * (n * 2 ^ (-500 : ℤ))) := by
        rw [show (-498 : ℤ) = 2 + -500 by norm_num, Arith.zpow_split 2]
        generalize (2:ℝ) ^ (-500 : ℤ) = w
        rw [show (2:ℝ) ^ (2 : ℤ) = 4 by norm_num]; ring
      rw [e2]
      rw [e0] at htiny h7
      clear e0 e2
      generalize (n:ℝ) * 2 ^ (-500 : ℤ) = d at *
      generalize (n:ℝ) * 2 ^ (-1074 : ℤ) = d' at *
      have huS := mul_nonneg hu.le hS0
      have hunS : 0 ≤ Arith.uRound * n * S := by positivity
      have h9 : |v - q| ≤ Arith.uRound * (8 * n + 18) * S + 2 * d := by
        have := abs_add_le (v - ∑ k ∈ Finset.range n, L i k * L j k) (∑ k ∈ Finset.range n, L i k * L j k - q)
        rw [sub_add_sub_cancel] at this
        have e3 : Arith.uRound * (3 * n + 16) * S + Arith.uRound * (5 * n) * S + Arith.uRound * (2 * S) = Arith.uRound * (8 * n + 18) * S := by ring
        linarith
      have h10 : |q| ≤ 2 * S + 1 := by
        have := abs_add_le (q - ∑ k ∈ Finset.range n, L i k * L j k) (∑ k ∈ Finset.range n, L i k * L j k)
        rw [sub_add_cancel, abs_sub_comm q] at this
        have e4 : Arith.uRound * (5 * n) * S ≤ 1 / 100 * S := by
          refine mul_le_mul_of_nonneg_right ?_ hS0
          calc Arith.uRound * (5 * n) ≤ 1 / 2 ^ 50 * (5 * 1000) := mul_le_mul hu' (by linarith) (by positivity) (by norm_num)
            _ ≤ 1 / 100 := by norm_num
        have e5 : Arith.uRound * (2 * S) ≤ 1 / 100 * (2 * S) := mul_le_mul_of_nonneg_right (hu'.trans (by norm_num)) (by linarith)
        linarith
      obtain ⟨w, h11, h12⟩ := add_lb hB hc hc' h2 h10 hS0 hS (c := 8 * n + 18) (d := 2 * d) (by positivity) (by
          refine (show 8 * (n:ℝ) + 18 ≤ 8 * 1000 + 18 by linarith).trans (by norm_num)) (by linarith) (by linarith) h9 (i = j)
      refine ⟨w, fun _ _ _ => ⟨?_, ?_⟩⟩
      · rw [hlb, ← h11, ← h1]
        congr 2
        apply List.map_congr_left
        intro k hk
        have hk := List.mem_range.mp hk
        rw [(hF i k hi hk).1, (hF j k hj hk).1]
      · rw [hq, sub_add_cancel, show (8 * (n:ℝ) + 18 + 1) = 8 * n + 19 by ring] at h12
        exact h12
    · exact ⟨0, fun h h' h'' => absurd ⟨h, h', h''⟩ hij⟩
  choose W hW using hE
  refine ⟨Matrix.of fun i j => W (max i j) (min i j), ?_, ?_, ?_⟩
  · rw [← matData_of n n fun i j => W (max i j) (min i j), psd_fold_round hp (by simp [hlen])]
    congr 2
    apply ofFn2_congr
    intro i hi j hj
    rcases le_total j i with h | h
    · rw [max_eq_left h, min_eq_right h]
      exact (hW i j hi hj h).1
    · rw [max_eq_right h, min_eq_left h, ← (hW j i hj hi h).1]
      have hcomm : A.dot ((List.range n).map fun k => (factorA A (y.map .fin) i k, factorA A (y.map .fin) j k)) =
          A.dot ((List.range n).map fun k => (factorA A (y.map .fin) j k, factorA A (y.map .fin) i k)) := by
        rw [← hA.dot_comm, List.map_map]; rfl
      rw [hcomm]
      simp only [eq_comm (a := i)]
  · ext i j
    simp only [Matrix.transpose_apply, Matrix.of_apply, max_comm, min_comm]
  · intro i j hij
    have hij' : (j : ℕ) ≤ i := hij
    simp only [Matrix.of_apply, max_eq_left hij', min_eq_right hij']
    rw [Arith.uRound_val]
    exact (hW i j i.2 j.2 hij').2

/-- **C108, large entries are lost.**  If the first diagonal entry exceeds `diag_lb` by `2 ** 132` or more, the code's `log(x) + x - x` is zero: the matrix
that comes back from the round trip has about `1 + diag_lb` there, whatever the entry was. -/
theorem C108_large_lost (hA : A.Sane) (hB : A.Accurate) (hL : A.LogAccurate) (hD : A.DotAccurate) (hC : A.CholAccurate) {p : Pattern} {n : ℕ} {lb : PyNum}
    {dv : Bool} {fd : Option Bool} (hp : mkPSD n lb dv fd = .ok p) (hn0 : 0 < n) (hn : n ≤ 1000) {c : ℝ} (hlb : lb.toFlt = .fin c)
    (hc : A.Machine (.fin c)) (hc' : |c| ≤ 2 ^ (1000 : ℤ)) {M : Matrix (Fin n) (Fin n) ℝ} (hM : ∀ i j, A.Machine (.fin (M i j)) ∧ |M i j| ≤ 2 ^ (900 : ℤ))
    (hd : ∀ i, |M i i - c| ≤ 2 ^ (890 : ℤ)) (hbig : 2 ^ (132 : ℤ) ≤ M ⟨0, hn0⟩ ⟨0, hn0⟩ - c) {vv : Option Bool} {y : List ℝ}
    (hy : p.flattenFreeA A (.arr ⟨[n, n], matData M⟩) vv = .ok (vec (y.map .fin))) :
    ∃ a w, p.foldFreeA A (vec (y.map .fin)) = .ok (.arr a) ∧ a.data[0]? = some (.fin w) ∧ |w - (1 + c)| ≤ 2 ^ (-40 : ℤ) * (1 + |1 + c|) := by
  have hu := Arith.uRound_pos
  have hu' : Arith.uRound ≤ 1 / 2 ^ 50 := Arith.uRound_le
  have hn' : (n:ℝ) ≤ 1000 := by exact_mod_cast hn
  obtain ⟨L, hlen, hLm, hLz, hL0, hoff, hdiag, hchol⟩ := flatten_factor hA hB hC hn hlb hc hM hd (by rw [mkPSD_eq hp] at hy; exact hy)
  have hnt : (n:ℝ) * 2 ^ (-500 : ℤ) ≤ 1 / 1000 := by
    calc (n:ℝ) * 2 ^ (-500 : ℤ) ≤ 1000 * 2 ^ (-30 : ℤ) := mul_le_mul hn' (Arith.small_zpow (by norm_num)) (two_zpow_pos _).le (by norm_num)
      _ ≤ 1 / 1000 := by norm_num
  have hnt0 : 0 ≤ (n:ℝ) * 2 ^ (-500 : ℤ) := by positivity
  have hsum : ∑ k ∈ Finset.range n, L 0 k * L 0 k = L 0 0 * L 0 0 :=
    Finset.sum_eq_single 0 (fun k hk hk0 => by rw [hLz 0 hn0 k (Finset.mem_range.mp hk) (by omega), zero_mul]) (fun h => absurd (Finset.mem_range.mpr hn0) h)
  have hr := hchol ⟨0, hn0⟩ ⟨0, hn0⟩ le_rfl
  simp only [if_true, abs_mul_abs_self, hsum] at hr
  obtain ⟨hr1, hr2⟩ := row_size hn (mul_self_nonneg _) hnt0 hr
  have hq := le_abs_self (M ⟨0, hn0⟩ ⟨0, hn0⟩ - c)
  have hqs := hd ⟨0, hn0⟩
  have hx1 : 2 ^ (65 : ℤ) ≤ L 0 0 := by
    have e1 : (2:ℝ) ^ (132 : ℤ) = 2 ^ (65 : ℤ) * 2 ^ (65 : ℤ) * 4 := by norm_num
    have e2 : (1:ℝ) ≤ 2 ^ (65 : ℤ) := by norm_num
    rw [e1] at hbig
    clear e1
    have e3 := hL0 0 hn0
    generalize (2:ℝ) ^ (65 : ℤ) = w at *
    generalize (n:ℝ) * 2 ^ (-500 : ℤ) = d at *
    by_contra hcon
    replace hcon := not_le.mp hcon
    have e4 : L 0 0 * L 0 0 ≤ w * w := mul_le_mul hcon.le hcon.le e3 (by linarith)
    nlinarith
  have hx2 : L 0 0 ≤ 2 ^ (500 : ℤ) := by
    refine (le_abs_self _).trans (abs_le_of_sq_le_sq ?_ (two_zpow_pos _).le)
    rw [sq, sq, ← Arith.zpow_split]
    have e1 : (2:ℝ) ^ (500 + 500 : ℤ) = 2 ^ (890 : ℤ) * 2 ^ (110 : ℤ) := by rw [← Arith.zpow_split]; norm_num
    have e2 : (2:ℝ) ≤ 2 ^ (110 : ℤ) := by norm_num
    have e3 : (1:ℝ) ≤ 2 ^ (890 : ℤ) := by
      have := Arith.small_zpow (e := 0) (f := 890) (by norm_num); simpa using this
    rw [e1]
    clear e1 hd hM hc' hbig hx1
    generalize (2:ℝ) ^ (890 : ℤ) = w at *
    generalize (2:ℝ) ^ (110 : ℤ) = w' at *
    generalize (n:ℝ) * 2 ^ (-500 : ℤ) = d at *
    nlinarith
  have hy0 : lower y 0 0 = 0 := by
    have e1 := hdiag 0 hn0
    rw [Arith.logDiag_lost hA hB hL (hLm 0 hn0 0 hn0) hx1 hx2] at e1
    exact (Flt.fin_injective e1).symm
  have hg : (y.map Flt.fin).getD (symIndex 0 0) .nan = .fin 0 := by
    rw [getD_map_fin (by rw [hlen]; exact symIndex_lt hn0 le_rfl), ← lower_eq y le_rfl, hy0]
  have hrow : ∀ k < n, factorA A (y.map .fin) 0 k = .fin (if k = 0 then 1 else 0) := by
    intro k hk
    simp only [factorA, le_refl, if_true, hg]
    by_cases h : k = 0
    · subst h
      simp only [if_true, le_refl, hg, hA.exp_zero]
      have e1 : A.add (.fin 1) (.fin 0) = .fin 1 := by rw [Arith.add, add_fin, add_zero]; exact hA.one_machine
      have e2 : A.sub (.fin 1) (.fin 0) = .fin 1 := by rw [Arith.sub, sub_fin, sub_zero]; exact hA.one_machine
      rw [e1, e2]
    · rw [if_neg (by omega), if_neg (by omega), if_neg (by omega), if_neg h]
      have e1 : A.add 0 0 = .fin 0 := by rw [Arith.add, Arith.zero_flt, add_fin, zero_add]; exact hA.zero
      have e2 : A.sub (.fin 0) 0 = .fin 0 := by rw [Arith.sub, Arith.zero_flt, sub_fin, sub_zero]; exact hA.zero
      rw [e1, e2]
  have hone : ∑ k ∈ Finset.range n, (if k = 0 then (1:ℝ) else 0) * (if k = 0 then 1 else 0) = 1 := by
    rw [Finset.sum_eq_single 0 (fun k _ hk => by rw [if_neg hk, zero_mul]) (fun h => absurd (Finset.mem_range.mpr hn0) h), if_pos rfl, one_mul]
  have hm1 : ∀ k < n, A.Machine (.fin (if k = 0 then 1 else 0)) ∧
      |(if k = 0 then (1:ℝ) else 0) - (if k = 0 then 1 else 0)| ≤ 7 * Arith.uRound * (if k = 0 then 1 else 0) ∧
      |if k = 0 then (1:ℝ) else 0| ≤ 101 / 100 * (if k = 0 then 1 else 0) := by
    intro k _
    by_cases h : k = 0
    · simp only [if_pos h]; exact ⟨hA.one_machine, by rw [sub_self, abs_zero]; positivity, by norm_num⟩
    · simp only [if_neg h]; exact ⟨hA.zero_machine, by simp, by simp⟩
  have h990 : (1:ℝ) ≤ 2 ^ (990 : ℤ) := by
    have := Arith.small_zpow (e := 0) (f := 990) (by norm_num); simpa using this
  obtain ⟨v, h1, h2, h3⟩ := Arith.gram_near hD (by omega) hm1 hm1 (by rw [hone]; exact h990)
  rw [hone] at h3
  obtain ⟨w, h4, h5⟩ := add_lb hB hc hc' h2 (g := 1) (S := 1) (c := 3 * n + 16) (d := n * 2 ^ (-1074 : ℤ)) (by norm_num) (by norm_num) h990 (by positivity)
    (by refine (show 3 * (n:ℝ) + 16 ≤ 3 * 1000 + 16 by linarith).trans (by norm_num)) (by positivity) (by
      calc (n:ℝ) * 2 ^ (-1074 : ℤ) ≤ 1000 * 2 ^ (-30 : ℤ) := mul_le_mul hn' (Arith.small_zpow (by norm_num)) (two_zpow_pos _).le (by norm_num)
        _ ≤ 1 := by norm_num) h3 True
  refine ⟨_, w, psd_fold_round hp (by simp [hlen]), ?_, ?_⟩
  · have e1 := entry_ofFn2 n n (fun i j => A.add (A.dot ((List.range n).map fun k => (factorA A (y.map .fin) i k, factorA A (y.map .fin) j k)))
        (if i = j then lb.toFlt else 0)) hn0 hn0
    have e2 : A.add (A.dot ((List.range n).map fun k => (factorA A (y.map .fin) 0 k, factorA A (y.map .fin) 0 k))) (if 0 = 0 then lb.toFlt else 0) =
        .fin w := by
      rw [if_pos rfl, hlb, ← h4, if_pos trivial, ← h1]
      congr 2
      apply List.map_congr_left
      intro k hk
      rw [hrow k (List.mem_range.mp hk)]
    replace e1 := e1.trans e2
    simp only [entry, Nat.zero_mul, Nat.add_zero] at e1
    generalize (ofFn2 n n fun i j => _).data = D at *
    cases D with
    | nil => simp at e1
    | cons x D => simpa using e1
  · simp only [if_true] at h5
    have e1 : (n:ℝ) * 2 ^ (-1074 : ℤ) ≤ 1000 * 2 ^ (-60 : ℤ) := mul_le_mul hn' (Arith.small_zpow (by norm_num)) (two_zpow_pos _).le (by norm_num)
    have e2 : Arith.uRound * ((3 * (n:ℝ) + 16 + 1) * 1 + |1 + c|) ≤ 1 / 2 ^ 53 * (3017 + |1 + c|) := by
      have : Arith.uRound = 1 / 2 ^ 53 := rfl
      rw [this]
      exact mul_le_mul_of_nonneg_left (by linarith) (by norm_num)
    have e3 := abs_nonneg (1 + c)
    generalize (n:ℝ) * 2 ^ (-1074 : ℤ) = d at *
    norm_num at e1 e2 ⊢
    linarith

/-! ### Examples -/

/-- Flattening, in binary64, a matrix whose factor consists of machine numbers. -/
theorem flatten_chol64 {n : ℕ} (hn : 0 < n) {M L : ℕ → ℕ → ℝ} (h : IsChol n M L) (hm : ∀ i < n, ∀ j < n, binary64.Machine (.fin (M i j)))
    (hl : ∀ i < n, ∀ j < n, binary64.Machine (.fin (L i j))) (h0 : 0 < M 0 0) {dv : Bool} {fd : Option Bool} :
    (Pattern.psd n (.int 0) dv fd).flattenFreeA binary64 (.arr (ofFn2 n n fun i j => .fin (M i j))) (some false) =
      .ok (vec ((trilIndices n).map fun ij =>
        if ij.1 = ij.2 then binary64.sub (binary64.add (binary64.log (.fin (L ij.1 ij.1))) (.fin (L ij.1 ij.1))) (.fin (L ij.1 ij.1)) else .fin (L ij.1 ij.2))) := by
  have hz : (PyNum.int 0).toFlt = .fin 0 := by simp [PyNum.toFlt]
  have hr : ∀ x : ℝ, binary64.Machine (.fin x) → round64 (.fin x) = .fin x := fun x hx => by rw [← round64_eq]; exact hx
  have hmat : (ofFn2 n n fun i j => binary64.sub (entry n (ofFn2 n n fun i j => Flt.fin (M i j)).data i j) (if i = j then Flt.fin 0 else 0)) =
      ofFn2 n n fun i j => .fin (M i j) := by
    apply ofFn2_congr
    intro i hi j hj
    rw [entry_ofFn2 _ _ _ hi hj]
    have : (if i = j then Flt.fin 0 else 0) = .fin 0 := by rw [← Arith.zero_flt, ite_self]
    rw [this, Arith.sub, sub_fin, sub_zero]
    exact hm i hi j hj
  have hval : PSD.validate n (.fin 0) dv (ofFn2 n n fun i j => Flt.fin (M i j)) (some false) = .ok (true, "") := by
    simp [PSD.validate, PSD.validateShape, ofFn2, NDArray.ndim]
  have hch : binary64.chol n (ofFn2 n n fun i j => .fin (M i j)) = .ok (ofFn2 n n fun i j => .fin (L i j)) := by
    change (if _ then _ else _) = _
    rw [if_neg (by rw [entry_ofFn2 _ _ _ hn hn]; intro h; have h1 := h.1; simp [Flt.le] at h1; rcases h1 with h1 | h1 <;> linarith), cholesky_eq h]
    simp only [bind, Except.bind, pure, Except.pure, ofFn2_map]
    congr 1
    apply ofFn2_congr
    intro i hi j hj
    exact hr _ (hl i hi j hj)
  simp only [Pattern.flattenFreeA, Val.asArr, PSD.flattenFreeA, hz, bind, Except.bind, hval, Bool.not_true, Bool.false_eq_true, if_false, pure, Except.pure,
    packPosdefA, hmat, hch]
  unfold logDiagA
  rw [vectorizeLd_ofFn2]
  congr 2
  apply List.map_congr_left
  intro ij hij
  obtain ⟨h1, h2⟩ := mem_trilIndices.mp hij
  rw [entry_ofFn2 _ _ _ h1 h1, entry_ofFn2 _ _ _ h1 (by omega)]
  by_cases h : ij.1 = ij.2
  · simp only [← h, if_true]
  · simp only [if_neg h]
    have e1 : binary64.add 0 (.fin (L ij.1 ij.2)) = .fin (L ij.1 ij.2) := by
      rw [Arith.add, Arith.zero_flt, add_fin, zero_add]; exact hl _ h1 _ (by omega)
    have e2 : binary64.sub (.fin (L ij.1 ij.2)) 0 = .fin (L ij.1 ij.2) := by
      rw [Arith.sub, Arith.zero_flt, sub_fin, sub_zero]; exact hl _ h1 _ (by omega)
    rw [e1, e2]

theorem two64 : binary64.Machine (.fin 2) := by simpa using binary64_int_machine (m := 2) (by norm_num)

theorem log_two64 : ∃ y, binary64.sub (binary64.add (binary64.log (.fin 2)) (.fin 2)) (.fin 2) = .fin y ∧ |y| ≤ 2 := by
  obtain ⟨y, h1, _, h3⟩ := Arith.logDiag_close binary64_sane binary64_accurate binary64_logAccurate two64 (by norm_num)
    (two_le_big (by norm_num) (by norm_num))
  refine ⟨y, h1, ?_⟩
  have hu' : Arith.uRound ≤ 1 / 100000 := Arith.uRound_le.trans (by norm_num)
  have e1 := Real.log_two_lt_d9
  have e2 : 0 < Real.log 2 := Real.log_pos (by norm_num)
  rw [abs_of_pos e2] at h3
  have e3 : Arith.uRound * (5 * Real.log 2 + 2 * 2) ≤ 1 / 100000 * (5 * Real.log 2 + 2 * 2) := mul_le_mul_of_nonneg_right hu' (by positivity)
  have e4 := abs_add_le (y - Real.log 2) (Real.log 2)
  rw [sub_add_cancel, abs_of_pos e2] at e4
  linarith

theorem four64 : (∀ i j, binary64.Machine (.fin (!![(4:ℝ), 2; 2, 5] i j))) ∧ ∃ y, |y| ≤ 2 ∧
    (Pattern.psd 2 (.int 0) true none).flattenFreeA binary64 (.arr ⟨[2, 2], matData !![4, 2; 2, 5]⟩) (some false) =
      .ok (vec ([y, 1, y].map .fin)) := by
  obtain ⟨y2, hy2, hb2⟩ := log_two64
  have hmach : ∀ i j, binary64.Machine (.fin (!![(4:ℝ), 2; 2, 5] i j)) := by
    intro i j
    fin_cases i <;> fin_cases j
    · simpa using binary64_int_machine (m := 4) (by norm_num)
    · simpa using two64
    · simpa using two64
    · simpa using binary64_int_machine (m := 5) (by norm_num)
  have hL : ∀ i < 2, ∀ j < 2, binary64.Machine (.fin (natMat !![(2:ℝ), 0; 1, 2] i j)) := by
    intro i hi j hj
    have hi' : i < 2 := hi
    have hj' : j < 2 := hj
    interval_cases i <;> interval_cases j
    · simpa [natMat] using two64
    · simpa [natMat] using binary64_sane.zero_machine
    · simpa [natMat] using binary64_sane.one_machine
    · simpa [natMat] using two64
  have hM : ∀ i < 2, ∀ j < 2, binary64.Machine (.fin (natMat !![(4:ℝ), 2; 2, 5] i j)) := by
    intro i hi j hj
    have := hmach ⟨i, hi⟩ ⟨j, hj⟩
    simpa [natMat, hi, hj] using this
  have hch : IsChol 2 (natMat !![(4:ℝ), 2; 2, 5]) (natMat !![(2:ℝ), 0; 1, 2]) := by
    refine ⟨?_, ?_, ?_⟩
    · intro i j hi hj hij
      have hi' : i < 2 := hi
      have hj' : j < 2 := hj
      interval_cases i
      · interval_cases j; simp [natMat]
      · omega
    · intro i hi
      have hi' : i < 2 := hi
      interval_cases i <;> simp [natMat]
    · intro i j hi hj
      have hi' : i < 2 := hi
      interval_cases i <;> interval_cases j <;> simp [natMat, Finset.sum_range_succ] <;> norm_num
  have hfl := flatten_chol64 (n := 2) (by norm_num) hch hM hL (by simp [natMat]) (dv := true) (fd := none)
  have hy : ((trilIndices 2).map fun ij => if ij.1 = ij.2 then binary64.sub (binary64.add (binary64.log (.fin (natMat !![(2:ℝ), 0; 1, 2] ij.1 ij.1)))
      (.fin (natMat !![(2:ℝ), 0; 1, 2] ij.1 ij.1))) (.fin (natMat !![(2:ℝ), 0; 1, 2] ij.1 ij.1)) else .fin (natMat !![(2:ℝ), 0; 1, 2] ij.1 ij.2)) =
      [y2, 1, y2].map Flt.fin := by
    have : trilIndices 2 = [(0, 0), (1, 0), (1, 1)] := rfl
    rw [this]
    simp [natMat, hy2]
  rw [hy, ← matData_eq] at hfl
  exact ⟨hmach, y2, hb2, hfl⟩

/-- The matrix with rows (4, 2) and (2, 5), in binary64, comes back. -/
example : ∃ (y : List ℝ) (M' : Matrix (Fin 2) (Fin 2) ℝ),
    (Pattern.psd 2 (.int 0) true none).flattenFreeA binary64 (.arr ⟨[2, 2], matData !![4, 2; 2, 5]⟩) (some false) = .ok (vec (y.map .fin)) ∧
    (Pattern.psd 2 (.int 0) true none).foldFreeA binary64 (vec (y.map .fin)) = .ok (.arr ⟨[2, 2], matData M'⟩) ∧ M'.IsSymm ∧
      ∀ i j, j ≤ i → |M' i j - !![4, 2; 2, 5] i j| ≤
        2 ^ (-53 : ℤ) * ((8 * (2 : ℕ) + 19) * ∑ k ∈ Finset.range 2, tripSize y i k * tripSize y j k + |!![4, 2; 2, 5] i j|) + (2 : ℕ) * 2 ^ (-498 : ℤ) := by
  obtain ⟨hmach, y2, hb2, hfl⟩ := four64
  obtain ⟨M', h⟩ := C108_trip binary64_sane binary64_accurate binary64_logAccurate binary64_dotAccurate binary64_cholAccurate (n := 2) (lb := .int 0)
    (dv := true) (fd := none) (by simp [mkPSD, PyNum.toFlt, lt]) (by norm_num) (c := 0) (by simp [PyNum.toFlt]) binary64_sane.zero_machine
    (by simp) (fun i j => ⟨hmach i j, by
      refine le_trans (b := 2 ^ (3 : ℤ)) ?_ (Arith.small_zpow (by norm_num))
      fin_cases i <;> fin_cases j <;> simp <;> norm_num⟩) (by
      intro i
      fin_cases i <;> simp <;> norm_num) hfl (by
      intro i hi
      have hi' : i < 2 := hi
      interval_cases i <;> simpa [lower] using hb2.trans (by norm_num))
  exact ⟨_, M', hfl, h⟩

/-- The 1x1 matrix `2 ** 140`, in binary64, comes back as about 1. -/
example : ∃ (y : List ℝ) (a : NDArray Flt) (w : ℝ),
    (Pattern.psd 1 (.int 0) true none).flattenFreeA binary64 (.arr ⟨[1, 1], matData !![2 ^ 140]⟩) (some false) = .ok (vec (y.map .fin)) ∧
    (Pattern.psd 1 (.int 0) true none).foldFreeA binary64 (vec (y.map .fin)) = .ok (.arr a) ∧ a.data[0]? = some (.fin w) ∧
      |w - (1 + 0)| ≤ 2 ^ (-40 : ℤ) * (1 + |(1 : ℝ) + 0|) := by
  have h70 : binary64.Machine (.fin (2 ^ 70)) := by
    have := binary64_accurate.machine_of (m := 1) (e := 70) (by norm_num) (by norm_num) (by norm_num)
    simpa using this
  have h140 : binary64.Machine (.fin (2 ^ 140)) := by
    have := binary64_accurate.machine_of (m := 1) (e := 140) (by norm_num) (by norm_num) (by norm_num)
    simpa using this
  have hfl := flatten_chol64 (n := 1) (M := fun _ _ => 2 ^ 140) (L := fun _ _ => 2 ^ 70) (by norm_num)
    ⟨fun i j hi hj hij => by omega, fun i hi => by positivity, fun i j hi hj => by simp; norm_num⟩ (fun _ _ _ _ => h140) (fun _ _ _ _ => h70) (by positivity)
    (dv := true) (fd := none)
  have hlost := Arith.logDiag_lost binary64_sane binary64_accurate binary64_logAccurate h70 (by norm_num) (by
    calc (2:ℝ) ^ 70 = 2 ^ (70 : ℤ) := by norm_num
      _ ≤ 2 ^ (500 : ℤ) := Arith.small_zpow (by norm_num))
  have hM : (ofFn2 1 1 fun _ _ => Flt.fin (2 ^ 140)) = ⟨[1, 1], matData !![2 ^ 140]⟩ := by
    rw [matData_of 1 1 fun _ _ => 2 ^ 140]
    congr 2
    ext i j; fin_cases i; fin_cases j; rfl
  have hy : ((trilIndices 1).map fun ij => if ij.1 = ij.2 then binary64.sub (binary64.add (binary64.log (.fin (2 ^ 70))) (.fin (2 ^ 70))) (.fin (2 ^ 70))
      else .fin (2 ^ 70)) = [(0:ℝ)].map Flt.fin := by
    have : trilIndices 1 = [(0, 0)] := rfl
    rw [this]
    simp only [List.map_cons, List.map_nil, if_true, hlost]
  rw [hy, hM] at hfl
  obtain ⟨a, w, h⟩ := C108_large_lost binary64_sane binary64_accurate binary64_logAccurate binary64_dotAccurate binary64_cholAccurate (n := 1) (lb := .int 0)
    (dv := true) (fd := none) (by simp [mkPSD, PyNum.toFlt, lt]) (by norm_num) (by norm_num) (c := 0) (by simp [PyNum.toFlt]) binary64_sane.zero_machine
    (by simp) (fun i j => by
      fin_cases i; fin_cases j
      refine ⟨by simpa using h140, ?_⟩
      refine le_trans (b := 2 ^ (140 : ℤ)) ?_ (Arith.small_zpow (by norm_num))
      simp) (by
      intro i
      fin_cases i
      refine le_trans (b := 2 ^ (140 : ℤ)) ?_ (Arith.small_zpow (by norm_num))
      norm_num) (by norm_num) hfl
  exact ⟨_, a, w, hfl, h⟩

/-- The free vector (0, 3, -1) of a 2x2 matrix, in binary64. -/
example : ∃ M M' : Matrix (Fin 2) (Fin 2) ℝ,
    (Pattern.psd 2 (.int 0) true none).fold (vec ([0, 3, -1].map .fin)) (some true) = .ok (.arr ⟨[2, 2], matData M⟩) ∧
      (Pattern.psd 2 (.int 0) true none).foldFreeA binary64 (vec ([0, 3, -1].map .fin)) = .ok (.arr ⟨[2, 2], matData M'⟩) ∧
      ∀ i j, |M' i j - M i j| ≤ 2 ^ (-53 : ℤ) * ((3 * (2 : ℕ) + 17) * ∑ k ∈ Finset.range 2, factorSize [0, 3, -1] i k * factorSize [0, 3, -1] j k + |M i j|) +
        (2 : ℕ) * 2 ^ (-1073 : ℤ) :=
  C108_fold binary64_sane binary64_accurate binary64_dotAccurate (n := 2) (lb := .int 0) (dv := true) (fd := none)
    (by simp [mkPSD, PyNum.toFlt, lt]) (by norm_num) (c := 0) (by simp [PyNum.toFlt]) binary64_sane.zero_machine
    (by simp) rfl (by
      intro u hu
      simp only [List.mem_cons, List.not_mem_nil, or_false] at hu
      rcases hu with rfl | rfl | rfl
      · exact binary64_sane.zero_machine
      · simpa using binary64_int_machine (m := 3) (by norm_num)
      · simpa using binary64_int_machine (m := -1) (by norm_num)) (by
      intro i hi j hj
      have hi' : i < 2 := hi
      interval_cases i <;> interval_cases j
      refine le_trans (b := 2 ^ (3 : ℤ)) ?_ (Arith.small_zpow (by norm_num))
      simp [lower]; norm_num) (by
      intro i hi
      have hi' : i < 2 := hi
      interval_cases i <;> simp [lower])

end Paragami
