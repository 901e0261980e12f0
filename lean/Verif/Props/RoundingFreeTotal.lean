import Verif.Props.RoundingFreeTrip
import Verif.Proofs.CholeskyMargin

/-!
# C114: folding and flattening a free vector does not raise
-/

set_option linter.unusedSimpArgs false

namespace Paragami
open NDArray Pattern Flt Spec

variable {A : Arith}

/-- The Cholesky routine returns for a computed fold. -/
theorem chol_returns (hA : A.Sane) (hB : A.Accurate) (hS : A.CholSucceeds) {n : ℕ} (hn : n ≤ 1000) (hn0 : 0 < n) {lb : PyNum} {c : ℝ}
    (hlb : lb.toFlt = .fin c) (hc : A.Machine (.fin c)) {M : Matrix (Fin n) (Fin n) ℝ} (hM : ∀ i j, A.Machine (.fin (M i j)))
    (hM' : ∀ i j, |M i j| ≤ 2 ^ (890 : ℤ)) (hd : ∀ i, |M i i - c| ≤ 2 ^ (890 : ℤ)) {L W : Matrix (Fin n) (Fin n) ℝ} (hW : W * L = 1) {ρ ε S : ℝ}
    (hF : ∑ i, ∑ k, W i k ^ 2 ≤ ρ ^ 2) (hS1 : 1 ≤ S)
    (hMd : ∀ i j, |M i j - (L * L.transpose + c • 1) i j| ≤ Arith.uRound * ((3 * n + 18) * S + |c|) + n * 2 ^ (-500 : ℤ))
    (hdg : ∀ i, |M i i - c| ≤ 17 / 16 * S) (hε : 2 ^ (-53 : ℤ) * ((8 * n + 20) * S + |c|) + n * 2 ^ (-499 : ℤ) ≤ ε) (hρε : 16 * n * (ρ ^ 2 * ε) ≤ 1) :
    ∃ C, A.chol n (ofFn2 n n fun i j => A.sub (entry n (matData M) i j) (if i = j then lb.toFlt else 0)) = .ok C := by
  have hu := Arith.uRound_pos
  have hu' : Arith.uRound ≤ 1 / 2 ^ 50 := Arith.uRound_le
  have hn1 : (1:ℝ) ≤ n := by exact_mod_cast hn0
  rw [Arith.uRound_val] at hε
  have h499 : (n:ℝ) * 2 ^ (-499 : ℤ) = 2 * (n * 2 ^ (-500 : ℤ)) := by
    rw [show (-499 : ℤ) = 1 + -500 by norm_num, Arith.zpow_split 1, zpow_one]; ring
  have ht0 : (0:ℝ) < 2 ^ (-499 : ℤ) := two_zpow_pos _
  have ht1 : (0:ℝ) < 2 ^ (-500 : ℤ) := two_zpow_pos _
  have hε0 : 0 < ε := lt_of_lt_of_le (by positivity) hε
  have hsub : ∀ i : Fin n, ∃ z, A.sub (.fin (M i i)) (.fin c) = .fin z ∧ |z - (M i i - c)| ≤ Arith.uRound * |M i i - c| := fun i =>
    hB.sub_rel (hM i i) hc (Arith.up_zpow (hd i) (by norm_num))
  choose z hz1 hz2 using hsub
  have hent : ∀ i : Fin n, ∀ j : Fin n, A.sub (.fin (M i j)) (if i = j then lb.toFlt else 0) = .fin (if i = j then z i else M i j) := by
    intro i j
    by_cases h : i = j
    · subst h; rw [if_pos rfl, if_pos rfl, hlb, hz1]
    · rw [if_neg h, if_neg h, Arith.sub, Arith.zero_flt, sub_fin, sub_zero]; exact hM i j
  set N : ℕ → ℕ → ℝ := fun i j => if h : i < n ∧ j < n then (if i = j then z ⟨i, h.1⟩ else M ⟨i, h.1⟩ ⟨j, h.2⟩) else 0 with hN
  have hNe : ∀ i j : Fin n, N i j = if i = j then z i else M i j := by
    intro i j
    simp only [hN, i.2, j.2, and_self, dite_true, Fin.eta, Fin.val_inj]
  have hmat : ∀ i (hi : i < n) j (hj : j < n), entry n (ofFn2 n n fun i j => A.sub (entry n (matData M) i j)
      (if i = j then lb.toFlt else 0)).data i j = .fin (N i j) := by
    intro i hi j hj
    rw [entry_ofFn2 _ _ _ hi hj, show matData M = (⟨[n, n], matData M⟩ : NDArray Flt).data from rfl, matData_eq, entry_ofFn2 _ _ _ hi hj]
    have e1 : natMat M i j = M ⟨i, hi⟩ ⟨j, hj⟩ := by simp [natMat, hi, hj]
    have := hent ⟨i, hi⟩ ⟨j, hj⟩
    rw [← hNe] at this
    simp only [Fin.mk.injEq] at this
    rw [e1, this]
  have hzs : ∀ i, |z i| ≤ 9 / 8 * S := by
    intro i
    have e1 := hz2 i
    have e2 := hdg i
    generalize M i i - c = q at *
    have e3 : |z i| ≤ |z i - q| + |q| := by simpa using abs_add_le (z i - q) q
    have e4 : Arith.uRound * |q| ≤ 1 / 2 ^ 50 * |q| := mul_le_mul_of_nonneg_right hu' (abs_nonneg _)
    norm_num at e4
    linarith
  -- the computed matrix is close to `L @ L.T`
  have hlow : ∀ i j : Fin n, |N i j - (L * L.transpose) i j| ≤ ε := by
    intro i j
    have e1 := hMd i j
    have e5 : Arith.uRound * ((8 * n + 20) * S + |c|) = Arith.uRound * ((3 * n + 18) * S + |c|) + 5 * (Arith.uRound * n * S) + 2 * (Arith.uRound * S) := by ring
    have e6 : 0 ≤ Arith.uRound * n * S := by positivity
    have e7 : 0 ≤ Arith.uRound * S := by positivity
    rw [hNe]
    by_cases h : i = j
    · subst h
      rw [if_pos rfl]
      have e2 : (L * L.transpose + c • 1) i i = (L * L.transpose) i i + c := by simp
      rw [e2] at e1
      have e3 := hz2 i
      have e4 := mul_le_mul_of_nonneg_left (hdg i) hu.le
      have e8 : z i - (L * L.transpose) i i = (z i - (M i i - c)) + (M i i - ((L * L.transpose) i i + c)) := by ring
      rw [e8]
      refine (abs_add_le _ _).trans (le_trans ?_ hε)
      rw [h499]
      have : 0 ≤ (n:ℝ) * 2 ^ (-500 : ℤ) := by positivity
      generalize (n:ℝ) * 2 ^ (-500 : ℤ) = d at *
      linarith
    · rw [if_neg h]
      have e2 : (L * L.transpose + c • 1) i j = (L * L.transpose) i j := by simp [h]
      rw [e2] at e1
      refine e1.trans (le_trans ?_ hε)
      rw [h499]
      have : 0 ≤ (n:ℝ) * 2 ^ (-500 : ℤ) := by positivity
      linarith
  set Ns : Matrix (Fin n) (Fin n) ℝ := fun i j => if j ≤ i then N i j else N j i with hNs
  have hNs' : ∀ i j, |Ns i j - (L * L.transpose) i j| ≤ ε := by
    intro i j
    simp only [hNs]
    split
    · exact hlow i j
    · have e1 : (L * L.transpose).IsSymm := by rw [Matrix.IsSymm, Matrix.transpose_mul, Matrix.transpose_transpose]
      rw [← e1.apply]
      exact hlow j i
  refine hS.succeeds n hn _ N (15 * n * ε) ?_ (by positivity) ?_ ?_
  · intro i hi j hj
    have hj' : j < n := by omega
    refine ⟨hmat i hi j hj', ?_⟩
    have := hNe ⟨i, hi⟩ ⟨j, hj'⟩
    simp only at this
    rw [this]
    split
    · next h =>
      refine ⟨by rw [← hz1]; exact hA.idem _, ?_⟩
      have e1 := hz2 ⟨i, hi⟩
      have e2 := hd ⟨i, hi⟩
      generalize M ⟨i, hi⟩ ⟨i, hi⟩ - c = q at *
      have e3 : |z ⟨i, hi⟩| ≤ |z ⟨i, hi⟩ - q| + |q| := by simpa using abs_add_le (z ⟨i, hi⟩ - q) q
      have e4 : Arith.uRound * |q| ≤ 1 * |q| := mul_le_mul_of_nonneg_right (hu'.trans (by norm_num)) (abs_nonneg _)
      have e5 : (2:ℝ) ^ (900 : ℤ) = 2 ^ (890 : ℤ) * 2 ^ (10 : ℤ) := by rw [← Arith.zpow_split]; norm_num
      have e6 : (2:ℝ) ≤ 2 ^ (10 : ℤ) := by norm_num
      rw [e5]
      clear e5
      generalize (2:ℝ) ^ (890 : ℤ) = w at *
      generalize (2:ℝ) ^ (10 : ℤ) = w' at *
      nlinarith [abs_nonneg q]
    · exact ⟨hM _ _, Arith.up_zpow (hM' _ _) (by norm_num)⟩
  · intro x
    have := margin hW hF hε0.le hρε hNs' (fun i => x i)
    rw [Finset.sum_range (fun i => x i ^ 2), Finset.sum_range (fun i => ∑ j ∈ Finset.range n, x i * (if j ≤ i then N i j else N j i) * x j)]
    refine this.trans (le_of_eq (Finset.sum_congr rfl fun i _ => ?_))
    rw [Finset.sum_range (fun j => x i * (if j ≤ i then N i j else N j i) * x j)]
    exact Finset.sum_congr rfl fun j _ => by simp only [hNs, Fin.le_def]
  · intro i hi
    have e1 : N i i ≤ 9 / 8 * S := by
      have := hNe ⟨i, hi⟩ ⟨i, hi⟩
      simp only [if_true] at this
      rw [this]
      exact (le_abs_self _).trans (hzs _)
    rw [Arith.uRound_val]
    have e2 : 8 * n * (n + 2) * Arith.uRound * N i i ≤ 8 * n * (n + 2) * Arith.uRound * (9 / 8 * S) := mul_le_mul_of_nonneg_left e1 (by positivity)
    have e3 := mul_le_mul_of_nonneg_left hε (by positivity : (0:ℝ) ≤ 15 * n)
    have e4 : 15 * n * (Arith.uRound * ((8 * n + 20) * S + |c|) + n * 2 ^ (-499 : ℤ)) = 8 * n * (n + 2) * Arith.uRound * (9 / 8 * S) +
      (111 * (n * n * (Arith.uRound * S)) + 282 * (n * (Arith.uRound * S)) + 15 * (n * (Arith.uRound * |c|)) + 15 * n * (n * 2 ^ (-499 : ℤ))) := by ring
    have e5 : 0 ≤ 111 * (n * n * (Arith.uRound * S)) + 282 * (n * (Arith.uRound * S)) + 15 * (n * (Arith.uRound * |c|)) := by positivity
    have e6 : 1 * (n * 2 ^ (-499 : ℤ)) ≤ 15 * (n:ℝ) * (n * 2 ^ (-499 : ℤ)) := mul_le_mul_of_nonneg_right (by linarith) (by positivity)
    linarith

/-- No exceptions. -/
theorem matrixErrors_none (hA : A.Sane) (hB : A.Accurate) (hD : A.DotAccurate) (hS : A.CholSucceeds) {B : ℝ} (hB1 : 1 ≤ B) (hB2 : B ≤ 60) :
    MatrixErrors A (fun _ => False) B := by
  intro n lb dv fd hw hm hr t hmach hsz hl W hfold vv m _ e he
  simp only [Pattern.WF] at hw
  simp only [Moderate] at hm
  simp only [Recoverable] at hr
  obtain ⟨-, hfin, hmb⟩ := hm
  obtain ⟨hn, hρε⟩ := hr
  obtain ⟨c, hc⟩ := isFin_iff.mp hfin
  obtain ⟨hcm, hc'⟩ := hmb c hc
  have hmk : mkPSD n lb dv fd = .ok (.psd n lb dv fd) := by simp only [mkPSD, hw]; rfl
  have key : ∃ C, A.chol n (ofFn2 n n fun i j => A.sub (entry n W i j) (if i = j then lb.toFlt else 0)) = .ok C := by
    rcases Nat.eq_zero_or_pos n with rfl | hn0
    · exact hS.succeeds 0 hn _ (fun _ _ => 0) 1 (fun i hi => absurd hi (by omega)) one_pos (by simp) (fun i hi => absurd hi (by omega))
    obtain ⟨L, W', hLd, hLo, hLz, hW, hρ, hF, hSm, hS'⟩ := matrix_setup (n := n) hB1 hB2 hn hsz
    rw [hc] at hρε
    simp only [realOf] at hρε
    obtain ⟨M, g1, g2, g3, g4, g5, g6, g7⟩ := folded_matrix hA hB hD hmk hn hn0 hc hcm (hc'.trans (Arith.small_zpow (by norm_num))) hl hmach
      (fun i _ => (lower_bound (by linarith) hsz i i).trans (by linarith)) hSm hS' hLd hLo hLz hW hρ (ε := matrixRounding n B c) (le_of_eq rfl) hρε
    rw [g1] at hfold
    injection hfold with hfold; injection hfold with hfold; injection hfold with _ hfold
    subst hfold
    exact chol_returns hA hB hS hn hn0 hc hcm g5 g6 g7 hW hF g2 g3 g4 (ε := matrixRounding n B c) (le_of_eq rfl) hρε
  obtain ⟨C, hC⟩ := key
  simp only [packPosdefA, bind, Except.bind, hC, logDiagA, vectorizeLd_ofFn2] at he
  cases he

/-- **C114.**  With a Cholesky routine that does not raise for matrices that are positive definite by a margin, folding a free vector of machine numbers
between `-B` and `B` and flattening the result never raises: it returns the free vector, up to `freeError B`. -/
theorem C114_trip (hA : A.Sane) (hB : A.Accurate) (hL : A.LogAccurate) (hD : A.DotAccurate) (hC : A.CholAccurate) (hS : A.CholSucceeds) {p : Pattern}
    (hp : Built p) (hne : p.NoEmpty) (hm : Moderate A p) {B : ℝ} (hr : Recoverable B p) (hB1 : 1 ≤ B) (hB2 : B ≤ 60) {t : List ℝ}
    (ht : ∀ u ∈ t, A.Machine (.fin u) ∧ |u| ≤ B) (hl : p.flatLength (some true) = .ok t.length) :
    ∃ V, p.foldFreeA A (vec (t.map .fin)) = .ok V ∧ ∀ vv, (∃ m, p.validateA A V vv = .ok (true, m)) ∧
      ∃ y : List ℝ, p.flattenFreeA A V vv = .ok (vec (y.map .fin)) ∧ Recovered (freeError B) p t y := by
  have hl' : t.length = p.flatLen true := by
    simp only [Pattern.flatLength, freeWithDefault, bind, Except.bind, pure, Except.pure] at hl
    injection hl with hl; exact hl.symm
  obtain ⟨V, h1, h2, -⟩ := tree_recovered hA hB hL hD hC (matrixErrors_none hA hB hD hS hB1 hB2) hB1 hB2 p hp.wf hm hr hne t (fun u hu => (ht u hu).1)
    (fun u hu => (ht u hu).2) hl'
  refine ⟨V, h1, fun vv => ⟨(h2 vv).1, ?_⟩⟩
  rcases (h2 vv).2 with h | ⟨e, -, h⟩
  · exact h
  · exact h.elim

/-- Two numbers between zero and one, two simplexes and a two by two matrix, in binary64. -/
example : ∃ V, (Pattern.dict (.cons "x" (.numeric .vector [2] (.int 0) (.int 1) true none) (.cons "p" (.array [2] (.simplex 2 [1] true none) none)
      (.cons "m" (.psd 2 (.int 0) true none) .nil))) true none).foldFreeA binary64 (vec ([0, 1, 1, -1, 0, 1, 0].map .fin)) = .ok V ∧
    ∀ vv, (∃ m, (Pattern.dict (.cons "x" (.numeric .vector [2] (.int 0) (.int 1) true none) (.cons "p" (.array [2] (.simplex 2 [1] true none) none)
      (.cons "m" (.psd 2 (.int 0) true none) .nil))) true none).validateA binary64 V vv = .ok (true, m)) ∧
      ∃ y : List ℝ, (Pattern.dict (.cons "x" (.numeric .vector [2] (.int 0) (.int 1) true none) (.cons "p" (.array [2] (.simplex 2 [1] true none) none)
      (.cons "m" (.psd 2 (.int 0) true none) .nil))) true none).flattenFreeA binary64 V vv = .ok (vec (y.map .fin)) ∧
        Recovered (freeError 1) (Pattern.dict (.cons "x" (.numeric .vector [2] (.int 0) (.int 1) true none) (.cons "p" (.array [2] (.simplex 2 [1] true none) none)
      (.cons "m" (.psd 2 (.int 0) true none) .nil))) true none) [0, 1, 1, -1, 0, 1, 0] y := by
  have hz : ModerateBound binary64 (.fin 0) := by
    intro c hc; injection hc with hc; subst hc
    exact ⟨binary64_sane.zero_machine, by simp⟩
  have ho : ModerateBound binary64 (.fin 1) := by
    intro c hc; injection hc with hc; subst hc
    refine ⟨by simpa using binary64_int_machine (m := 1) (by norm_num), ?_⟩
    rw [abs_one]; exact one_le_zpow₀ (by norm_num) (by norm_num)
  have he : Real.exp 1 ≤ 3 := by linarith [Real.exp_one_lt_d9]
  have he' : Real.exp (-1) ≤ 1 := Real.exp_le_one_iff.mpr (by norm_num)
  have hp := Real.exp_pos 1
  refine C114_trip binary64_sane binary64_accurate binary64_logAccurate binary64_dotAccurate binary64_cholAccurate binary64_cholSucceeds (WF.built _ ?_) ?_ ?_ ?_ (by norm_num)
    (by norm_num) ?_ rfl
  · simp [Pattern.WF, WFEs, Entries.keys, Entries.toList, isDict, lock, PyNum.toFlt, NotNaN, lt]
  · simp [NoEmpty, NoEmptyEs]
  · simp only [Moderate, ModerateEs, PyNum.toFlt]
    refine ⟨⟨by simpa using hz, by simpa using ho, ?_⟩, by norm_num, ⟨by norm_num, by simp [IsFin], by simpa using hz⟩, trivial⟩
    intro a b ha hb
    injection ha with ha; injection hb with hb
    subst ha hb
    have : (2:ℝ) ^ (-200 : ℤ) ≤ 2 ^ (0 : ℤ) := Arith.small_zpow (by norm_num)
    simpa using this
  · simp only [Recoverable, RecoverableEs, PyNum.toFlt, realOf, inverseSize, matrixRounding]
    refine ⟨?_, trivial, ⟨by norm_num, ?_⟩, trivial⟩
    · norm_num
      linarith
    · have h1 : ((1 + 1 * Real.exp 1) ^ 2) ^ 2 ≤ ((1 + 1 * 3) ^ 2) ^ 2 := by gcongr
      have h2 : (Real.exp 1 + 1) ^ 2 ≤ (3 + 1) ^ 2 := by gcongr
      have h3 : (2:ℝ) ^ (-499 : ℤ) ≤ 2 ^ (-53 : ℤ) := Arith.small_zpow (by norm_num)
      have h4 : (2:ℝ) ^ (-53 : ℤ) * ((8 * (2:ℕ) + 20) * ((2:ℕ) * (Real.exp 1 + 1) ^ 2) + |((0:ℤ):ℝ)|) + (2:ℕ) * 2 ^ (-499 : ℤ) ≤
          2 ^ (-53 : ℤ) * ((8 * (2:ℕ) + 20) * ((2:ℕ) * (3 + 1) ^ 2) + |((0:ℤ):ℝ)|) + (2:ℕ) * 2 ^ (-53 : ℤ) := by gcongr
      have h5 := mul_le_mul h1 h4 (by positivity) (by positivity)
      refine (mul_le_mul_of_nonneg_left h5 (by positivity)).trans ?_
      norm_num
  · intro u hu
    have : ∃ m : ℤ, |m| ≤ 1 ∧ u = m := by
      simp only [List.mem_cons, List.not_mem_nil, or_false] at hu
      rcases hu with rfl | rfl | rfl | rfl | rfl | rfl | rfl
      exacts [⟨0, by norm_num, by norm_num⟩, ⟨1, by norm_num, by norm_num⟩, ⟨1, by norm_num, by norm_num⟩, ⟨-1, by norm_num, by norm_num⟩,
        ⟨0, by norm_num, by norm_num⟩, ⟨1, by norm_num, by norm_num⟩, ⟨0, by norm_num, by norm_num⟩]
    obtain ⟨m, h1, rfl⟩ := this
    exact ⟨binary64_int_machine (h1.trans (by norm_num)), by exact_mod_cast h1⟩

end Paragami
