import Verif.Proofs.CholeskyPerturb
import Verif.Proofs.JacobianPSD
import Verif.Props.PSDFactor
import Verif.Props.RoundingMatrix

/-!
# C112: how sensitive the free vector of a matrix is
-/

set_option linter.unusedSimpArgs false

namespace Paragami
open NDArray Pattern Flt Spec

variable {A : Arith}

/-- The free vector of a matrix with a given factor. -/
theorem flatten_of_factor {p : Pattern} {n : ℕ} {lb : PyNum} {dv : Bool} {fd : Option Bool} (hp : mkPSD n lb dv fd = .ok p) {c : ℝ}
    (hlb : lb.toFlt = .fin c) {L : Matrix (Fin n) (Fin n) ℝ} (hz : ∀ i j, i < j → L i j = 0) (hd : ∀ i, 0 < L i i) (vv : Option Bool) :
    ∃ y : List ℝ, y.length = n * (n + 1) / 2 ∧
      p.flatten (.arr ⟨[n, n], matData (L * L.transpose + c • 1)⟩) (some true) vv = .ok (vec (y.map .fin)) ∧
      (∀ i : Fin n, lower y i i = Real.log (L i i)) ∧ ∀ i j : Fin n, j < i → lower y i j = L i j := by
  set M := L * L.transpose + c • (1 : Matrix (Fin n) (Fin n) ℝ) with hM
  have hC : IsChol n (fun i j => natMat M i j - if i = j then c else 0) (natMat L) := by
    refine ⟨fun i j hi hj h => ?_, fun i hi => ?_, fun i j hi hj => ?_⟩
    · simp only [natMat, hi, hj, and_self, dite_true]; exact hz _ _ h
    · simp only [natMat, hi, and_self, dite_true]; exact hd _
    · have hj' : j < n := by omega
      simp only [natMat, hi, hj', and_self, dite_true, hM, Matrix.add_apply, Matrix.mul_apply, Matrix.transpose_apply, Matrix.smul_apply,
        Matrix.one_apply, Fin.mk.injEq, smul_eq_mul, mul_ite, mul_one, mul_zero, add_sub_cancel_right]
      rw [Finset.sum_range]
      exact Finset.sum_congr rfl fun k _ => by simp
  have hI : Interior (.psd n lb dv fd) (.arr ⟨[n, n], matData M⟩) := by
    rw [interior_psd]
    refine ⟨natMat M, natMat L, matData_eq M, fun i j hi hj => ?_, by rwa [hlb, Flt.toReal_fin]⟩
    have : M.transpose = M := by rw [hM]; simp [Matrix.transpose_add, Matrix.transpose_mul]
    simp only [natMat, hi, hj, and_self, dite_true]
    exact congrFun (congrFun this ⟨j, hj⟩) ⟨i, hi⟩
  have hf : (Pattern.psd n lb dv fd).FiniteLb := by simp [FiniteLb, hlb, Flt.IsFin]
  have hw : (Pattern.psd n lb dv fd).WF := by
    simp only [Pattern.WF, hlb]
    unfold mkPSD at hp
    by_contra h
    simp only [Bool.not_eq_false] at h
    simp only [Arith.zero_flt, Flt.lt_fin, decide_eq_true_eq] at h
    simp [hlb, h, throw, throwThe, MonadExceptOf.throw, bind, Except.bind] at hp
  obtain rfl := mkPSD_eq hp
  obtain ⟨r, h1, h2, h3⟩ := psd_free_val hf hw hI
  refine ⟨r, h1, by rw [flatten_true]; exact h2 vv, ?_⟩
  have h4 := h2 none
  simp only [flattenFree, Val.asArr, bind, Except.bind, PSD.flattenFree_ok, hlb, matData_eq, packPosdef_eq hC, Except.ok.injEq, NDArray.vec_inj] at h4
  have h4 : freeVec n (natMat L) = r := List.map_injective_iff.mpr (fun a b h => by simpa using h) h4.2
  refine ⟨fun i => ?_, fun i j hij => ?_⟩
  · rw [lower_eq r le_rfl, ← h4, Jac.freeVec_getD _ i.2 le_rfl, if_pos rfl]
    simp [natMat]
  · have hij' : (j : ℕ) < i := hij
    rw [lower_eq r hij'.le, ← h4, Jac.freeVec_getD _ i.2 hij'.le, if_neg (by omega)]
    simp [natMat]

/-- **C112, exact arithmetic.**  Let `L Lᵀ + diag_lb I` be a matrix whose factor has an inverse with absolute row sums at most `ρ`.  Every symmetric matrix
within `ε` of it, entry by entry, can be flattened too if `16 n ρ² ε ≤ 1`; the diagonal entries of the free vectors then differ by at most `2 ρ² ε`, and the
others by at most `2 ρ² ε` times the absolute sum of their row of `L`. -/
theorem C112_exact {p : Pattern} {n : ℕ} {lb : PyNum} {dv : Bool} {fd : Option Bool} (hp : mkPSD n lb dv fd = .ok p) {c : ℝ} (hlb : lb.toFlt = .fin c)
    {L W M' : Matrix (Fin n) (Fin n) ℝ} {ρ ε : ℝ} (hz : ∀ i j, i < j → L i j = 0) (hd : ∀ i, 0 < L i i) (hW : W * L = 1) (hρ : ∀ i, ∑ k, |W i k| ≤ ρ)
    (hs : M'.IsSymm) (hE : ∀ i j, |M' i j - (L * L.transpose + c • (1 : Matrix (Fin n) (Fin n) ℝ)) i j| ≤ ε) (hε : 16 * n * (ρ ^ 2 * ε) ≤ 1)
    (vv : Option Bool) :
    ∃ y y' : List ℝ, y.length = n * (n + 1) / 2 ∧ y'.length = n * (n + 1) / 2 ∧
      p.flatten (.arr ⟨[n, n], matData (L * L.transpose + c • 1)⟩) (some true) vv = .ok (vec (y.map .fin)) ∧
      p.flatten (.arr ⟨[n, n], matData M'⟩) (some true) vv = .ok (vec (y'.map .fin)) ∧
      (∀ i < n, |lower y' i i - lower y i i| ≤ 2 * (ρ ^ 2 * ε)) ∧
      ∀ i : Fin n, ∀ j < i, |lower y' i j - lower y i j| ≤ 2 * (ρ ^ 2 * ε) * ∑ k, |L i k| := by
  obtain ⟨L', h1, h2, h3, h4, h5⟩ := chol_perturb (A' := M' - c • 1) hz hd hW hρ (by
      rw [Matrix.IsSymm, Matrix.transpose_sub, hs.eq, Matrix.transpose_smul, Matrix.transpose_one]) (fun i j => by
      have := hE i j
      simp only [Matrix.add_apply, Matrix.sub_apply] at this ⊢
      rwa [sub_sub, add_comm ((c • (1 : Matrix (Fin n) (Fin n) ℝ)) i j)]) hε
  obtain ⟨y, a1, a2, a3, a4⟩ := flatten_of_factor hp hlb hz hd vv
  obtain ⟨y', b1, b2, b3, b4⟩ := flatten_of_factor hp hlb h1 h2 vv
  rw [h3, sub_add_cancel] at b2
  refine ⟨y, y', a1, b1, a2, b2, fun i hi => ?_, fun i j hij => ?_⟩
  · have e1 := a3 ⟨i, hi⟩
    have e2 := b3 ⟨i, hi⟩
    simp only at e1 e2
    rw [e1, e2]
    exact h4 ⟨i, hi⟩
  · rw [a4 i j hij, b4 i j hij]
    exact h5 i j

/-- Near the matrix with rows (1, 1) and (1, 2). -/
example (M' : Matrix (Fin 2) (Fin 2) ℝ) (hs : M'.IsSymm) (hE : ∀ i j, |M' i j - !![(1:ℝ), 1; 1, 2] i j| ≤ 1 / 128) :
    ∃ y y' : List ℝ, (Pattern.psd 2 (.int 0) true none).flatten (.arr ⟨[2, 2], matData !![1, 1; 1, 2]⟩) (some true) none = .ok (vec (y.map .fin)) ∧
      (Pattern.psd 2 (.int 0) true none).flatten (.arr ⟨[2, 2], matData M'⟩) (some true) none = .ok (vec (y'.map .fin)) ∧
      (∀ i < 2, |lower y' i i - lower y i i| ≤ 1 / 16) ∧ |lower y' 1 0 - lower y 1 0| ≤ 1 / 8 := by
  have hL : !![(1:ℝ), 0; 1, 1] * (!![(1:ℝ), 0; 1, 1]).transpose + (0:ℝ) • (1 : Matrix (Fin 2) (Fin 2) ℝ) = !![(1:ℝ), 1; 1, 2] := by
    ext i j; fin_cases i <;> fin_cases j <;> (simp [Matrix.vecMul, dotProduct, Fin.sum_univ_two]; try norm_num)
  obtain ⟨y, y', -, -, h1, h2, h3, h4⟩ := C112_exact (p := .psd 2 (.int 0) true none) (n := 2) (lb := .int 0) (dv := true) (fd := none)
    (by simp [mkPSD, PyNum.toFlt, lt]) (c := 0) (by simp [PyNum.toFlt]) (L := !![(1:ℝ), 0; 1, 1]) (W := !![(1:ℝ), 0; -1, 1]) (M' := M') (ρ := 2) (ε := 1 / 128)
    (by intro i j h; fin_cases i <;> fin_cases j <;> simp at h ⊢) (by intro i; fin_cases i <;> simp)
    (by ext i j; fin_cases i <;> fin_cases j <;> simp [Matrix.mul_apply, Fin.sum_univ_two])
    (by intro i; fin_cases i <;> (simp [Fin.sum_univ_two]; try norm_num)) hs (by rw [hL]; exact hE) (by norm_num) none
  rw [hL] at h1
  refine ⟨y, y', h1, h2, fun i hi => (h3 i hi).trans (by norm_num), (h4 1 0 (by decide)).trans ?_⟩
  simp [Fin.sum_univ_two]; norm_num

/-! ### Floating point -/

theorem one_le_exp_add_abs (x : ℝ) : 1 ≤ Real.exp x + |x| := by
  have := Real.add_one_le_exp x
  have := neg_abs_le x
  linarith

theorem round_machine (hA : A.Sane) (x : Flt) : A.Machine (A.round x) := by
  cases x with
  | fin r => exact hA.idem r
  | _ => rfl

/-- A row of the factor against another, from the squares of the rows. -/
theorem cross_le {n : ℕ} {f g : ℕ → ℝ} {S : ℝ} (hf : ∑ k ∈ Finset.range n, f k * f k ≤ S) (hg : ∑ k ∈ Finset.range n, g k * g k ≤ S) :
    ∑ k ∈ Finset.range n, |f k| * |g k| ≤ S := by
  have : ∑ k ∈ Finset.range n, |f k| * |g k| ≤ ∑ k ∈ Finset.range n, (1 / 2 * (f k * f k) + 1 / 2 * (g k * g k)) := by
    refine Finset.sum_le_sum fun k _ => ?_
    have := mul_self_nonneg (|f k| - |g k|)
    have := abs_mul_abs_self (f k)
    have := abs_mul_abs_self (g k)
    nlinarith
  rw [Finset.sum_add_distrib, ← Finset.mul_sum, ← Finset.mul_sum] at this
  linarith

/-- The computed fold of a free vector `t` with factor `L`: close to `L @ L.T` with `c` on the diagonal, and of moderate size. -/
theorem folded_matrix (hA : A.Sane) (hB : A.Accurate) (hD : A.DotAccurate) {p : Pattern} {n : ℕ} {lb : PyNum}
    {dv : Bool} {fd : Option Bool} (hp : mkPSD n lb dv fd = .ok p) (hn : n ≤ 1000) (hn0 : 0 < n) {c : ℝ} (hlb : lb.toFlt = .fin c) (hc : A.Machine (.fin c))
    (hc' : |c| ≤ 2 ^ (800 : ℤ)) {t : List ℝ} (ht : t.length = n * (n + 1) / 2) (hm : ∀ u ∈ t, A.Machine (.fin u)) (hdiag : ∀ i < n, |lower t i i| ≤ 330)
    {S : ℝ} (hS : ∀ i < n, ∑ k ∈ Finset.range n, factorSize t i k ^ 2 ≤ S) (hS' : S ≤ 2 ^ (800 : ℤ))
    {L W : Matrix (Fin n) (Fin n) ℝ} (hLd : ∀ i : Fin n, L i i = Real.exp (lower t i i)) (hLo : ∀ i j : Fin n, j < i → L i j = lower t i j)
    (hLz : ∀ i j : Fin n, i < j → L i j = 0) (hW : W * L = 1) {ρ ε : ℝ} (hρ : ∀ i, ∑ k, |W i k| ≤ ρ)
    (hε : 2 ^ (-53 : ℤ) * ((8 * n + 20) * S + |c|) + n * 2 ^ (-499 : ℤ) ≤ ε) (hρε : 16 * n * (ρ ^ 2 * ε) ≤ 1) :
    ∃ M' : Matrix (Fin n) (Fin n) ℝ, p.foldFreeA A (vec (t.map .fin)) = .ok (.arr ⟨[n, n], matData M'⟩) ∧ 1 ≤ S ∧
      (∀ i j, |M' i j - (L * L.transpose + c • 1) i j| ≤ Arith.uRound * ((3 * n + 18) * S + |c|) + n * 2 ^ (-500 : ℤ)) ∧
      (∀ i, |M' i i - c| ≤ 17 / 16 * S) ∧ (∀ i j, A.Machine (.fin (M' i j))) ∧ (∀ i j, |M' i j| ≤ 2 ^ (890 : ℤ)) ∧ ∀ i, |M' i i - c| ≤ 2 ^ (890 : ℤ) := by
  have hu := Arith.uRound_pos
  have hu' : Arith.uRound ≤ 1 / 2 ^ 50 := Arith.uRound_le
  have hn' : (n:ℝ) ≤ 1000 := by exact_mod_cast hn
  have hLp : ∀ i, 0 < L i i := fun i => by rw [hLd]; exact Real.exp_pos _
  rw [Arith.uRound_val] at hε
  -- sizes
  have hsq : ∀ i < n, ∀ k < n, factorSize t i k ^ 2 ≤ S := fun i hi k hk =>
    (Finset.single_le_sum (f := fun k => factorSize t i k ^ 2) (fun k _ => sq_nonneg _) (Finset.mem_range.mpr hk)).trans (hS i hi)
  have hoff : ∀ i < n, ∀ j < i, |lower t i j| ≤ 2 ^ (480 : ℤ) := by
    intro i hi j hj
    have e1 := (hsq i hi j (by omega)).trans hS'
    have e2 : factorSize t i j = |lower t i j| := by unfold factorSize; rw [if_pos hj]
    rw [e2] at e1
    refine abs_le_of_sq_le_sq ?_ (two_zpow_pos _).le
    rw [sq_abs] at e1
    refine e1.trans ?_
    rw [sq, ← Arith.zpow_split]
    exact Arith.small_zpow (by norm_num)
  have hcross : ∀ i < n, ∀ j < n, ∑ k ∈ Finset.range n, factorSize t i k * factorSize t j k ≤ S := by
    intro i hi j hj
    have := cross_le (f := factorSize t i) (g := factorSize t j) (S := S) (by have := hS i hi; simpa only [sq] using this)
      (by have := hS j hj; simpa only [sq] using this)
    simpa only [abs_of_nonneg (factorSize_nonneg t _ _)] using this
  obtain ⟨M, M', hM, hM', hMM⟩ := C108_fold hA hB hD hp (by omega) hlb hc (Arith.up_zpow hc' (by norm_num)) ht hm hoff hdiag
  rw [Arith.uRound_val] at hMM
  -- the exact fold is made from `L`
  have hML : M = L * L.transpose + c • 1 := by
    obtain ⟨N, h1, h2, h3, h4⟩ := C83_fold_layout (dv := dv) (fd := fd) hlb ht none
    have hNL : N = L := by
      ext i j
      rcases lt_trichotomy i j with h | rfl | h
      · rw [h2 i j h, hLz i j h]
      · obtain ⟨y, h5, h6⟩ := h4 i
        rw [h6, hLd]
        simp only [lower, List.getD_eq_getElem?_getD, h5, Option.getD_some]
      · rw [hLo i j h]
        simp only [lower, List.getD_eq_getElem?_getD, h3 i j h, Option.getD_some]
    obtain rfl := mkPSD_eq hp
    rw [h1, hNL] at hM
    simp only [Except.ok.injEq, Val.arr.injEq, NDArray.mk.injEq, true_and] at hM
    exact (matData_inj hM).symm
  have hLsize : ∀ i k : Fin n, |L i k| ≤ factorSize t i k := by
    intro i k
    unfold factorSize
    rcases lt_trichotomy k i with h | rfl | h
    · rw [if_pos (show (k:ℕ) < i from h), hLo i k h]
    · rw [if_neg (lt_irrefl _), if_pos rfl, hLd, abs_of_pos (Real.exp_pos _)]
      have := abs_nonneg (lower t k k); linarith
    · have h' : (i:ℕ) < k := h
      rw [if_neg (by omega), if_neg (by omega), hLz i k h, abs_zero]
  have hLL : ∀ i j, |(L * L.transpose) i j| ≤ S := by
    intro i j
    refine le_trans ?_ (hcross i i.2 j j.2)
    rw [Finset.sum_range (fun k => factorSize t i k * factorSize t j k), Matrix.mul_apply]
    refine (Finset.abs_sum_le_sum_abs _ _).trans (Finset.sum_le_sum fun k _ => ?_)
    rw [Matrix.transpose_apply, abs_mul]
    exact mul_le_mul (hLsize i k) (hLsize j k) (abs_nonneg _) (factorSize_nonneg t i k)
  have hn1 : (1:ℝ) ≤ n := by exact_mod_cast hn0
  have hS1 : 1 ≤ S := by
    refine le_trans ?_ (hsq 0 hn0 0 hn0)
    have e : factorSize t 0 0 = Real.exp (lower t 0 0) + |lower t 0 0| := by unfold factorSize; rw [if_neg (by omega), if_pos rfl]
    rw [e]
    have := one_le_exp_add_abs (lower t 0 0)
    nlinarith
  have hc0 := abs_nonneg c
  have htin0 : (0:ℝ) < 2 ^ (-500 : ℤ) := two_zpow_pos _
  have htin : (2:ℝ) ^ (-500 : ℤ) ≤ 2 ^ (-30 : ℤ) := Arith.small_zpow (by norm_num)
  have hnt : (n:ℝ) * 2 ^ (-500 : ℤ) ≤ 1 / 1000 := by
    calc (n:ℝ) * 2 ^ (-500 : ℤ) ≤ 1000 * 2 ^ (-30 : ℤ) := mul_le_mul hn' htin htin0.le (by norm_num)
      _ ≤ 1 / 1000 := by norm_num
  have hnt0 : 0 ≤ (n:ℝ) * 2 ^ (-500 : ℤ) := by positivity
  have hε0 : 0 ≤ ε := le_trans (by positivity) hε
  set δ := ρ ^ 2 * ε with hδ
  have hδ0 : 0 ≤ δ := by positivity
  have hδ1 : δ ≤ 1 / 16 := by nlinarith
  -- `ε` is small against `S`
  have hεS : ε ≤ S / 16 := by
    obtain ⟨l, hl⟩ : ∃ l : Fin n, ∀ k, k ≤ l := ⟨⟨n - 1, by omega⟩, fun k => by rw [Fin.le_def]; simp only; omega⟩
    have e1 : 1 ≤ ρ * L l l := by
      have e2 := congrFun (congrFun hW l) l
      rw [Matrix.mul_apply, Matrix.one_apply_eq, Finset.sum_eq_single l] at e2
      · rw [← e2]
        refine mul_le_mul_of_nonneg_right ?_ (hLp _).le
        refine (le_abs_self _).trans (le_trans ?_ (hρ l))
        exact Finset.single_le_sum (f := fun k => |W l k|) (fun k _ => abs_nonneg _) (Finset.mem_univ _)
      · intro k _ hk
        rw [hLz k l (lt_of_le_of_ne (hl k) hk), mul_zero]
      · intro h; exact absurd (Finset.mem_univ _) h
    have e4 : L l l * L l l ≤ (L * L.transpose) l l := by
      rw [Matrix.mul_apply]
      exact Finset.single_le_sum (f := fun k => L l k * L.transpose k l) (fun k _ => mul_self_nonneg _) (Finset.mem_univ _)
    have e5 := e4.trans ((le_abs_self _).trans (hLL l l))
    have e6 : 1 ≤ ρ ^ 2 * S := by
      have : 1 ≤ (ρ * L l l) * (ρ * L l l) := by nlinarith
      have : ρ ^ 2 * (L l l * L l l) ≤ ρ ^ 2 * S := mul_le_mul_of_nonneg_left e5 (sq_nonneg _)
      nlinarith
    have e7 : ε * 1 ≤ ε * (ρ ^ 2 * S) := mul_le_mul_of_nonneg_left e6 hε0
    have e8 : δ * S ≤ 1 / 16 * S := mul_le_mul_of_nonneg_right hδ1 (by linarith)
    have e9 : ε * (ρ ^ 2 * S) = δ * S := by rw [hδ]; ring
    linarith
  -- the computed matrix
  have hMd : ∀ i j : Fin n, |M' i j - M i j| ≤ Arith.uRound * ((3 * n + 18) * S + |c|) + n * 2 ^ (-500 : ℤ) := by
    intro i j
    have e1 : |M i j| ≤ S + |c| := by
      rw [hML, Matrix.add_apply]
      refine (abs_add_le _ _).trans (add_le_add (hLL i j) ?_)
      rw [Matrix.smul_apply, Matrix.one_apply, smul_eq_mul]
      split
      · rw [mul_one]
      · rw [mul_zero, abs_zero]; exact hc0
    have e2 := hMM i j
    have e3 : (n:ℝ) * 2 ^ (-1073 : ℤ) ≤ n * 2 ^ (-500 : ℤ) := mul_le_mul_of_nonneg_left (Arith.small_zpow (by norm_num)) (by positivity)
    have e4 : Arith.uRound * ((3 * n + 17) * ∑ k ∈ Finset.range n, factorSize t i k * factorSize t j k + |M i j|) ≤
        Arith.uRound * ((3 * n + 17) * S + (S + |c|)) := by
      refine mul_le_mul_of_nonneg_left (add_le_add (mul_le_mul_of_nonneg_left (hcross i i.2 j j.2) (by positivity)) e1) hu.le
    have e5 : Arith.uRound * ((3 * n + 17) * S + (S + |c|)) = Arith.uRound * ((3 * n + 18) * S + |c|) := by ring
    linarith
  have h499 : (n:ℝ) * 2 ^ (-499 : ℤ) = 2 * (n * 2 ^ (-500 : ℤ)) := by
    rw [show (-499 : ℤ) = 1 + -500 by norm_num, Arith.zpow_split 1, zpow_one]; ring
  rw [h499] at hε
  have hunS : 0 ≤ Arith.uRound * n * S := by positivity
  have huS : 0 ≤ Arith.uRound * S := by positivity
  have hMε : ∀ i j : Fin n, |M' i j - M i j| ≤ S / 16 := by
    intro i j
    have := hMd i j
    have e : Arith.uRound * ((8 * n + 20) * S + |c|) = Arith.uRound * ((3 * n + 18) * S + |c|) + 5 * (Arith.uRound * n * S) + 2 * (Arith.uRound * S) := by ring
    linarith
  have hdg : ∀ i : Fin n, |M' i i - c| ≤ 17 / 16 * S := by
    intro i
    have e1 : M i i - c = (L * L.transpose) i i := by rw [hML]; simp
    have e2 := abs_add_le (M' i i - M i i) (M i i - c)
    rw [sub_add_sub_cancel, e1] at e2
    have := hMε i i
    have := hLL i i
    linarith
  have hMach : ∀ i j : Fin n, A.Machine (.fin (M' i j)) := by
    intro i j
    have e1 := psd_fold_round (A := A) hp (l := t.map .fin) (by rw [List.length_map]; exact ht)
    rw [hM', matData_eq] at e1
    simp only [Except.ok.injEq, Val.arr.injEq] at e1
    have e2 := ofFn2_inj e1 i i.2 j j.2
    simp only [natMat, i.2, j.2, and_self, dite_true, Fin.eta] at e2
    rw [e2, Arith.add]
    exact round_machine hA _
  have hbig : (2:ℝ) ^ (890 : ℤ) = 2 ^ (800 : ℤ) * 2 ^ (90 : ℤ) := by rw [← Arith.zpow_split]; norm_num
  have h90 : (8:ℝ) ≤ 2 ^ (90 : ℤ) := by norm_num
  have hMs : ∀ i j : Fin n, |M' i j| ≤ 2 ^ (890 : ℤ) := by
    intro i j
    have e1 := abs_add_le (M' i j - M i j) (M i j)
    rw [sub_add_cancel] at e1
    have e2 : |M i j| ≤ S + |c| := by
      rw [hML, Matrix.add_apply]
      refine (abs_add_le _ _).trans (add_le_add (hLL i j) ?_)
      rw [Matrix.smul_apply, Matrix.one_apply, smul_eq_mul]
      split
      · rw [mul_one]
      · rw [mul_zero, abs_zero]; exact hc0
    have e3 := hMε i j
    rw [hbig]
    clear hbig
    generalize (2:ℝ) ^ (800 : ℤ) = w at *
    generalize (2:ℝ) ^ (90 : ℤ) = w' at *
    have e4 : w * 8 ≤ w * w' := mul_le_mul_of_nonneg_left h90 (by linarith)
    linarith
  have hMc : ∀ i : Fin n, |M' i i - c| ≤ 2 ^ (890 : ℤ) := by
    intro i
    have e3 := hdg i
    rw [hbig]
    clear hbig
    generalize (2:ℝ) ^ (800 : ℤ) = w at *
    generalize (2:ℝ) ^ (90 : ℤ) = w' at *
    have e4 : w * 8 ≤ w * w' := mul_le_mul_of_nonneg_left h90 (by linarith)
    linarith
  clear hbig
  exact ⟨M', hM', hS1, fun i j => hML ▸ hMd i j, hdg, hMach, hMs, hMc⟩

/-- Flattening a matrix close to `L @ L.T + c * I` gives a vector close to the one `L` is made from. -/
theorem flattened_matrix (hA : A.Sane) (hB : A.Accurate) (hL : A.LogAccurate) (hC : A.CholAccurate) {p : Pattern} {n : ℕ} {lb : PyNum}
    {dv : Bool} {fd : Option Bool} (hp : mkPSD n lb dv fd = .ok p) (hn : n ≤ 1000) (hn0 : 0 < n) {c : ℝ} (hlb : lb.toFlt = .fin c) (hc : A.Machine (.fin c))
    {t : List ℝ} (ht : t.length = n * (n + 1) / 2) {S : ℝ} (hS' : S ≤ 2 ^ (800 : ℤ)) (hS1 : 1 ≤ S)
    {L W : Matrix (Fin n) (Fin n) ℝ} (hLd : ∀ i : Fin n, L i i = Real.exp (lower t i i)) (hLo : ∀ i j : Fin n, j < i → L i j = lower t i j)
    (hLz : ∀ i j : Fin n, i < j → L i j = 0) (hW : W * L = 1) {ρ ε : ℝ} (hρ : ∀ i, ∑ k, |W i k| ≤ ρ)
    (hε : 2 ^ (-53 : ℤ) * ((8 * n + 20) * S + |c|) + n * 2 ^ (-499 : ℤ) ≤ ε) (hρε : 16 * n * (ρ ^ 2 * ε) ≤ 1) {M' : Matrix (Fin n) (Fin n) ℝ}
    (hMd : ∀ i j, |M' i j - (L * L.transpose + c • 1) i j| ≤ Arith.uRound * ((3 * n + 18) * S + |c|) + n * 2 ^ (-500 : ℤ))
    (hdg : ∀ i, |M' i i - c| ≤ 17 / 16 * S) (hMach : ∀ i j, A.Machine (.fin (M' i j))) (hMs : ∀ i j, |M' i j| ≤ 2 ^ (890 : ℤ))
    (hMc : ∀ i, |M' i i - c| ≤ 2 ^ (890 : ℤ)) {vv : Option Bool} {w : NDArray Flt} (hw : p.flattenFreeA A (.arr ⟨[n, n], matData M'⟩) vv = .ok w) :
    ∃ y : List ℝ, w = vec (y.map .fin) ∧ y.length = t.length ∧
      (∀ i < n, |lower y i i - lower t i i| ≤ 3 * (ρ ^ 2 * ε) + 2 ^ (-53 : ℤ) * (5 * |lower t i i| + 3 * Real.exp (lower t i i))) ∧
      ∀ i : Fin n, ∀ j < i, |lower y i j - lower t i j| ≤ 2 * (ρ ^ 2 * ε) * ∑ k, |L i k| := by
  have hu := Arith.uRound_pos
  have hu' : Arith.uRound ≤ 1 / 2 ^ 50 := Arith.uRound_le
  have hn' : (n:ℝ) ≤ 1000 := by exact_mod_cast hn
  have hLp : ∀ i, 0 < L i i := fun i => by rw [hLd]; exact Real.exp_pos _
  rw [Arith.uRound_val] at hε ⊢
  have htin0 : (0:ℝ) < 2 ^ (-500 : ℤ) := two_zpow_pos _
  have htin : (2:ℝ) ^ (-500 : ℤ) ≤ 2 ^ (-30 : ℤ) := Arith.small_zpow (by norm_num)
  have hnt : (n:ℝ) * 2 ^ (-500 : ℤ) ≤ 1 / 1000 := by
    calc (n:ℝ) * 2 ^ (-500 : ℤ) ≤ 1000 * 2 ^ (-30 : ℤ) := mul_le_mul hn' htin htin0.le (by norm_num)
      _ ≤ 1 / 1000 := by norm_num
  have hnt0 : 0 ≤ (n:ℝ) * 2 ^ (-500 : ℤ) := by positivity
  have h499 : (n:ℝ) * 2 ^ (-499 : ℤ) = 2 * (n * 2 ^ (-500 : ℤ)) := by
    rw [show (-499 : ℤ) = 1 + -500 by norm_num, Arith.zpow_split 1, zpow_one]; ring
  rw [h499] at hε
  have hunS : 0 ≤ Arith.uRound * n * S := by positivity
  have huS : 0 ≤ Arith.uRound * S := by positivity
  have hn1 : (1:ℝ) ≤ n := by exact_mod_cast hn0
  have hc0 := abs_nonneg c
  have hε0 : 0 ≤ ε := le_trans (by positivity) hε
  set δ := ρ ^ 2 * ε with hδ
  have hδ0 : 0 ≤ δ := by positivity
  have hδ1 : δ ≤ 1 / 16 := by nlinarith
  set M : Matrix (Fin n) (Fin n) ℝ := L * L.transpose + c • 1 with hML
  obtain ⟨K, hK1, hK2, hK3, hK4, hK5⟩ := flatten_entries hA hB hC hn hlb hc (M := M') (w := w)
    (fun i j => ⟨hMach i j, Arith.up_zpow (hMs i j) (by norm_num)⟩) hMc (by rw [mkPSD_eq hp] at hw; exact hw)
  have hrow : ∀ i < n, ∑ k ∈ Finset.range n, K i k * K i k ≤ 108 / 100 * S := by
    intro i hi
    have h1 := hK5 ⟨i, hi⟩ ⟨i, hi⟩ le_rfl
    simp only [if_true, abs_mul_abs_self] at h1
    have h2 := (row_size hn (Finset.sum_nonneg fun k _ => mul_self_nonneg _) hnt0 h1).1
    have := hdg ⟨i, hi⟩
    linarith
  set K' : Matrix (Fin n) (Fin n) ℝ := Matrix.of fun i j => K i j with hK'
  have hKK : ∀ i j, (K' * K'.transpose) i j = ∑ k ∈ Finset.range n, K i k * K j k := by
    intro i j
    rw [Finset.sum_range (fun k => K i k * K j k), Matrix.mul_apply]
    rfl
  have hsym : (K' * K'.transpose).IsSymm := by
    rw [Matrix.IsSymm, Matrix.transpose_mul, Matrix.transpose_transpose]
  have hlow : ∀ i j : Fin n, j ≤ i → |(K' * K'.transpose) i j - (L * L.transpose) i j| ≤ ε := by
    intro i j hij
    have h1 := hK5 i j hij
    rw [← hKK] at h1
    have h2 := cross_le (hrow i i.2) (hrow j j.2)
    have h3 := hMd i j
    have h4 : (n:ℝ) * 2 ^ (-51 : ℤ) * ∑ k ∈ Finset.range n, |K i k| * |K j k| ≤ 432 / 100 * (Arith.uRound * n * S) := by
      have e1 : (2:ℝ) ^ (-51 : ℤ) = 4 * Arith.uRound := by unfold Arith.uRound; norm_num
      rw [e1]
      have e2 : (n:ℝ) * (4 * Arith.uRound) * ∑ k ∈ Finset.range n, |K i k| * |K j k| ≤ n * (4 * Arith.uRound) * (108 / 100 * S) :=
        mul_le_mul_of_nonneg_left h2 (by positivity)
      refine e2.trans (le_of_eq (by ring))
    have h5 : (if i = j then Arith.uRound * |M' i j - c| else 0) ≤ 17 / 16 * (Arith.uRound * S) := by
      split
      · next h =>
        subst h
        have := mul_le_mul_of_nonneg_left (hdg i) hu.le
        linarith
      · linarith
    have h6 : M i j - (if i = j then c else 0) = (L * L.transpose) i j := by
      rw [hML, Matrix.add_apply, Matrix.smul_apply, Matrix.one_apply, smul_eq_mul]
      split <;> ring
    have h7 : (K' * K'.transpose) i j - (L * L.transpose) i j =
        ((K' * K'.transpose) i j - (M' i j - if i = j then c else 0)) + (M' i j - M i j) := by rw [← h6]; ring
    rw [h7]
    refine (abs_add_le _ _).trans (le_trans ?_ hε)
    generalize (n:ℝ) * 2 ^ (-500 : ℤ) = d at *
    generalize (n:ℝ) * 2 ^ (-51 : ℤ) * ∑ k ∈ Finset.range n, |K i k| * |K j k| = e' at *
    have e : Arith.uRound * ((8 * n + 20) * S + |c|) = Arith.uRound * ((3 * n + 18) * S + |c|) + 5 * (Arith.uRound * n * S) + 2 * (Arith.uRound * S) := by ring
    linarith
  have hall : ∀ i j : Fin n, |(K' * K'.transpose) i j - (L * L.transpose) i j| ≤ ε := by
    intro i j
    rcases le_total j i with h | h
    · exact hlow i j h
    · have e1 : (L * L.transpose).IsSymm := by rw [Matrix.IsSymm, Matrix.transpose_mul, Matrix.transpose_transpose]
      rw [← hsym.apply, ← e1.apply]
      exact hlow j i h
  obtain ⟨L', h1, h2, h3, h4, h5⟩ := chol_perturb hLz hLp hW hρ hsym hall hρε
  have hKL : K' = L' := chol_unique_nonneg (fun i j h => hK2 i i.2 j j.2 h) (fun i => hK3 i i.2) h1 h2 h3.symm
  subst hKL
  -- the logarithms
  have hlog : ∀ i, ∃ z, ∀ hi : i < n, A.sub (A.add (A.log (.fin (K i i))) (.fin (K i i))) (.fin (K i i)) = .fin z ∧
      |z - Real.log (K i i)| ≤ Arith.uRound * (5 * |Real.log (K i i)| + 2 * K i i) := by
    intro i
    by_cases hi : i < n
    · have e1 : 0 < K i i := h2 ⟨i, hi⟩
      have e2 : K i i ≤ 2 ^ (500 : ℤ) := by
        have e3 : K i i * K i i ≤ ∑ k ∈ Finset.range n, K i k * K i k :=
          Finset.single_le_sum (f := fun k => K i k * K i k) (fun k _ => mul_self_nonneg _) (Finset.mem_range.mpr hi)
        have e4 := e3.trans (hrow i hi)
        refine (le_abs_self _).trans (abs_le_of_sq_le_sq ?_ (two_zpow_pos _).le)
        rw [sq, sq, ← Arith.zpow_split]
        have e5 : (2:ℝ) ^ (500 + 500 : ℤ) = 2 ^ (800 : ℤ) * 2 ^ (200 : ℤ) := by rw [← Arith.zpow_split]; norm_num
        have e6 : (8:ℝ) ≤ 2 ^ (200 : ℤ) := by norm_num
        rw [e5]
        clear e5
        generalize (2:ℝ) ^ (800 : ℤ) = w at *
        generalize (2:ℝ) ^ (200 : ℤ) = w' at *
        nlinarith
      obtain ⟨z, h1, -, h3⟩ := Arith.logDiag_close hA hB hL (hK1 i hi i hi) e1 e2
      exact ⟨z, fun _ => ⟨h1, h3⟩⟩
    · exact ⟨0, fun h => absurd h hi⟩
  choose z hz using hlog
  set y : List ℝ := (trilIndices n).map fun ij => if ij.1 = ij.2 then z ij.1 else K ij.1 ij.2 with hy
  have hyl : y.length = tri n := by rw [hy, List.length_map, length_trilIndices]
  have hyf : y.map Flt.fin = (trilIndices n).map fun ij => Flt.fin (if ij.1 = ij.2 then z ij.1 else K ij.1 ij.2) := by
    rw [hy, List.map_map]; rfl
  have hlw : ∀ i < n, ∀ j ≤ i, lower y i j = if i = j then z i else K i j := by
    intro i hi j hj
    have e1 := getD_tril (n := n) (fun i j => Flt.fin (if i = j then z i else K i j)) hi hj
    rw [← hyf, getD_map_fin (by rw [hyl]; exact symIndex_lt hi hj), ← lower_eq y hj] at e1
    exact Flt.fin_injective e1
  refine ⟨y, ?_, by rw [hyl, ht]; rfl, ?_, ?_⟩
  · rw [hK4, hyf]
    congr 1
    apply List.map_congr_left
    intro ij hij
    obtain ⟨hi, hj⟩ := mem_trilIndices.mp hij
    by_cases h : ij.1 = ij.2
    · rw [if_pos h, if_pos h, (hz ij.1 hi).1]
    · rw [if_neg h, if_neg h]
  · intro i hi
    rw [hlw i hi i le_rfl, if_pos rfl]
    have e1 := (hz i hi).2
    have e2 : |Real.log (K i i) - lower t i i| ≤ 2 * δ := by
      have := h4 ⟨i, hi⟩
      rwa [hLd, Real.log_exp] at this
    have e3 : K i i ≤ 3 / 2 * Real.exp (lower t i i) := by
      have e4 : K i i = Real.exp (Real.log (K i i)) := (Real.exp_log (h2 ⟨i, hi⟩)).symm
      have e5 : Real.exp (Real.log (K i i)) ≤ Real.exp (lower t i i + 1 / 8) := by
        apply Real.exp_le_exp.mpr
        have := (abs_le.mp e2).2
        linarith
      rw [Real.exp_add] at e5
      have e6 : Real.exp (1 / 8) ≤ 3 / 2 := by
        have := Real.exp_bound_div_one_sub_of_interval (x := 1 / 8) (by norm_num) (by norm_num)
        linarith
      have := mul_le_mul_of_nonneg_left e6 (Real.exp_pos (lower t i i)).le
      linarith
    have e7 : |Real.log (K i i)| ≤ 2 * δ + |lower t i i| := by
      have := abs_add_le (Real.log (K i i) - lower t i i) (lower t i i)
      rw [sub_add_cancel] at this
      linarith
    have e8 := abs_add_le (z i - Real.log (K i i)) (Real.log (K i i) - lower t i i)
    rw [sub_add_sub_cancel] at e8
    have e9 : Arith.uRound * (5 * |Real.log (K i i)| + 2 * K i i) ≤ Arith.uRound * (5 * (2 * δ + |lower t i i|) + 2 * (3 / 2 * Real.exp (lower t i i))) :=
      mul_le_mul_of_nonneg_left (by linarith) hu.le
    have e10 : Arith.uRound * δ ≤ 1 / 100 * δ := mul_le_mul_of_nonneg_right (hu'.trans (by norm_num)) hδ0
    linarith
  · intro i j hij
    have hij' : (j : ℕ) < i := hij
    rw [hlw i i.2 j hij'.le, if_neg (by omega), ← hLo i j hij]
    exact h5 i j

/-- **C112, floating point.**  Fold a free vector `t` and flatten the matrix, both in floating point.  If flattening does not raise, it gives a finite vector
`y`, and `y` is `t` up to `ρ² ε` times small factors, where `ρ` bounds the absolute row sums of the inverse of the factor `L` made from `t`, and `ε` is about
`n` rounding errors of the largest sum of squares of a row of `L`.  It is assumed that `16 n ρ² ε ≤ 1`. -/
theorem C112_float (hA : A.Sane) (hB : A.Accurate) (hL : A.LogAccurate) (hD : A.DotAccurate) (hC : A.CholAccurate) {p : Pattern} {n : ℕ} {lb : PyNum}
    {dv : Bool} {fd : Option Bool} (hp : mkPSD n lb dv fd = .ok p) (hn : n ≤ 1000) {c : ℝ} (hlb : lb.toFlt = .fin c) (hc : A.Machine (.fin c))
    (hc' : |c| ≤ 2 ^ (800 : ℤ)) {t : List ℝ} (ht : t.length = n * (n + 1) / 2) (hm : ∀ u ∈ t, A.Machine (.fin u)) (hdiag : ∀ i < n, |lower t i i| ≤ 330)
    {S : ℝ} (hS : ∀ i < n, ∑ k ∈ Finset.range n, factorSize t i k ^ 2 ≤ S) (hS' : S ≤ 2 ^ (800 : ℤ))
    {L W : Matrix (Fin n) (Fin n) ℝ} (hLd : ∀ i : Fin n, L i i = Real.exp (lower t i i)) (hLo : ∀ i j : Fin n, j < i → L i j = lower t i j)
    (hLz : ∀ i j : Fin n, i < j → L i j = 0) (hW : W * L = 1) {ρ ε : ℝ} (hρ : ∀ i, ∑ k, |W i k| ≤ ρ)
    (hε : 2 ^ (-53 : ℤ) * ((8 * n + 20) * S + |c|) + n * 2 ^ (-499 : ℤ) ≤ ε) (hρε : 16 * n * (ρ ^ 2 * ε) ≤ 1)
    {v : Val Flt} (hv : p.foldFreeA A (vec (t.map .fin)) = .ok v) {vv : Option Bool} {w : NDArray Flt} (hw : p.flattenFreeA A v vv = .ok w) :
    ∃ y : List ℝ, w = vec (y.map .fin) ∧ y.length = t.length ∧
      (∀ i < n, |lower y i i - lower t i i| ≤ 3 * (ρ ^ 2 * ε) + 2 ^ (-53 : ℤ) * (5 * |lower t i i| + 3 * Real.exp (lower t i i))) ∧
      ∀ i : Fin n, ∀ j < i, |lower y i j - lower t i j| ≤ 2 * (ρ ^ 2 * ε) * ∑ k, |L i k| := by
  rcases Nat.eq_zero_or_pos n with rfl | hn0
  · obtain ⟨M, M', hM, hM', hMM⟩ := C108_fold hA hB hD hp (by omega) hlb hc (Arith.up_zpow hc' (by norm_num)) ht hm
      (fun i hi => absurd hi (by omega)) hdiag
    rw [hM'] at hv
    obtain rfl := Except.ok.inj hv
    obtain ⟨K, -, -, -, h4, -⟩ := flatten_entries hA hB hC hn hlb hc (M := M') (fun i => i.elim0) (fun i => i.elim0) (by rw [mkPSD_eq hp] at hw; exact hw)
    exact ⟨[], by rw [h4]; rfl, by rw [ht]; rfl, fun i hi => absurd hi (by omega), fun i => i.elim0⟩
  obtain ⟨M', hM', hS1, hMd, hdg, hMach, hMs, hMc⟩ := folded_matrix hA hB hD hp hn hn0 hlb hc hc' ht hm hdiag hS hS' hLd hLo hLz hW hρ hε hρε
  rw [hM'] at hv
  obtain rfl := Except.ok.inj hv
  exact flattened_matrix hA hB hL hC hp hn hn0 hlb hc ht hS' hS1 hLd hLo hLz hW hρ hε hρε hMd hdg hMach hMs hMc hw

/-- The free vector (0, 1, 0) of a 2x2 matrix, in binary64, folded and flattened. -/
theorem fold_flatten64 : ∃ v w, (Pattern.psd 2 (.int 0) true none).foldFreeA binary64 (vec ([0, 1, 0].map .fin)) = .ok v ∧
    (Pattern.psd 2 (.int 0) true none).flattenFreeA binary64 v (some false) = .ok w := by
  have hr : ∀ m : ℤ, |m| ≤ 4 → round64 (.fin m) = .fin m := fun m hm => by
    rw [← round64_eq]; exact binary64_int_machine (le_trans hm (by norm_num))
  have hr0 : round64 (.fin 0) = .fin 0 := by simpa using hr 0 (by norm_num)
  have hr1 : round64 (.fin 1) = .fin 1 := by simpa using hr 1 (by norm_num)
  have hr2 : round64 (.fin 2) = .fin 2 := by simpa using hr 2 (by norm_num)
  have hadd : ∀ a b : ℝ, binary64.add (.fin a) (.fin b) = round64 (.fin (a + b)) := fun a b => by rw [Arith.add, add_fin, round64_eq]
  have hsub : ∀ a b : ℝ, binary64.sub (.fin a) (.fin b) = round64 (.fin (a - b)) := fun a b => by rw [Arith.sub, sub_fin, round64_eq]
  have hexp : binary64.exp (.fin 0) = .fin 1 := binary64_sane.exp_zero
  have hfac : ∀ i < 2, ∀ j < 2, factorA binary64 ([(0:ℝ), 1, 0].map .fin) i j = .fin (natMat !![(1:ℝ), 0; 1, 1] i j) := by
    intro i hi j hj
    have hi' : i < 2 := hi
    have hj' : j < 2 := hj
    interval_cases i <;> interval_cases j <;> simp [factorA, symIndex, natMat, hexp, hadd, hsub, hr0, hr1, Arith.zero_flt]
  have hfold := psd_fold_round (A := binary64) (p := .psd 2 (.int 0) true none) (n := 2) (lb := .int 0) (dv := true) (fd := none)
    (by simp [mkPSD, PyNum.toFlt, lt]) (l := [(0:ℝ), 1, 0].map .fin) rfl
  have hM : (ofFn2 2 2 fun i j => binary64.add (binary64.dot ((List.range 2).map fun k => (factorA binary64 ([(0:ℝ), 1, 0].map .fin) i k,
      factorA binary64 ([(0:ℝ), 1, 0].map .fin) j k))) (if i = j then (PyNum.int 0).toFlt else 0)) =
      ofFn2 2 2 fun i j => .fin (natMat !![(1:ℝ), 1; 1, 2] i j) := by
    apply ofFn2_congr
    intro i hi j hj
    have e : List.range 2 = [0, 1] := rfl
    have e' : (if i = j then (PyNum.int 0).toFlt else 0) = .fin 0 := by simp [PyNum.toFlt, Arith.zero_flt]
    rw [e, e']
    clear hfold
    generalize factorA binary64 ([(0:ℝ), 1, 0].map .fin) = F at hfac ⊢
    simp only [List.map_cons, List.map_nil, hfac i hi 0 (by norm_num), hfac i hi 1 (by norm_num), hfac j hj 0 (by norm_num), hfac j hj 1 (by norm_num)]
    change binary64.add (round64 (round64 (.fin 0 + round64 (_ * _)) + round64 (_ * _))) (.fin 0) = _
    have hi' : i < 2 := hi
    have hj' : j < 2 := hj
    interval_cases i <;> interval_cases j <;> (simp [natMat, hadd, hr0, hr1, hr2, Flt.mul_fin, Flt.add_fin]; try norm_num [hr0, hr1, hr2, hadd])
  rw [hM] at hfold
  have hch : IsChol 2 (natMat !![(1:ℝ), 1; 1, 2]) (natMat !![(1:ℝ), 0; 1, 1]) := by
    refine ⟨?_, ?_, ?_⟩
    · intro i j hi hj hij
      have hi' : i < 2 := hi
      have hj' : j < 2 := hj
      interval_cases i
      · interval_cases j; simp [natMat]
      · omega
    · intro i hi
      have hi' : i < 2 := hi
      interval_cases i <;> simp [natMat]
    · intro i j hi hj
      have hi' : i < 2 := hi
      interval_cases i <;> interval_cases j <;> (simp [natMat, Finset.sum_range_succ]; try norm_num)
  exact ⟨_, _, hfold, flatten_chol64 (n := 2) (by norm_num) hch (by
    intro i hi j hj
    have hi' : i < 2 := hi
    have hj' : j < 2 := hj
    interval_cases i <;> interval_cases j
    · simpa [natMat] using binary64_sane.one_machine
    · simpa [natMat] using binary64_sane.one_machine
    · simpa [natMat] using binary64_sane.one_machine
    · simpa [natMat] using two64) (by
    intro i hi j hj
    have hi' : i < 2 := hi
    have hj' : j < 2 := hj
    interval_cases i <;> interval_cases j
    · simpa [natMat] using binary64_sane.one_machine
    · simpa [natMat] using binary64_sane.zero_machine
    · simpa [natMat] using binary64_sane.one_machine
    · simpa [natMat] using binary64_sane.one_machine) (by simp [natMat])⟩

/-- It comes back to twelve digits. -/
example : ∃ (v : Val Flt) (y : List ℝ), (Pattern.psd 2 (.int 0) true none).foldFreeA binary64 (vec ([0, 1, 0].map .fin)) = .ok v ∧
    (Pattern.psd 2 (.int 0) true none).flattenFreeA binary64 v (some false) = .ok (vec (y.map .fin)) ∧
    |lower y 0 0| ≤ 1 / 10 ^ 12 ∧ |lower y 1 0 - 1| ≤ 1 / 10 ^ 12 ∧ |lower y 1 1| ≤ 1 / 10 ^ 12 := by
  obtain ⟨v, w, h1, h2⟩ := fold_flatten64
  have htin : (2:ℝ) ^ (-499 : ℤ) ≤ 2 ^ (-60 : ℤ) := Arith.small_zpow (by norm_num)
  have e1 : lower [0, 1, 0] 0 0 = 0 := rfl
  have e2 : lower [0, 1, 0] 1 0 = 1 := rfl
  have e3 : lower [0, 1, 0] 1 1 = 0 := rfl
  obtain ⟨y, h3, -, h4, h5⟩ := C112_float binary64_sane binary64_accurate binary64_logAccurate binary64_dotAccurate binary64_cholAccurate (n := 2)
    (lb := .int 0) (dv := true) (fd := none) (by simp [mkPSD, PyNum.toFlt, lt]) (by norm_num) (c := 0) (by simp [PyNum.toFlt]) binary64_sane.zero_machine
    (by simp) (t := [0, 1, 0]) rfl (by
      intro u hu
      simp only [List.mem_cons, List.not_mem_nil, or_false] at hu
      rcases hu with rfl | rfl | rfl
      · exact binary64_sane.zero_machine
      · exact binary64_sane.one_machine
      · exact binary64_sane.zero_machine) (by
      intro i hi
      have hi' : i < 2 := hi
      interval_cases i <;> simp [lower]) (S := 2) (by
      intro i hi
      have hi' : i < 2 := hi
      interval_cases i <;> (simp [factorSize, lower, Finset.sum_range_succ]; try norm_num)) (two_le_big (by norm_num) (by norm_num))
    (L := !![(1:ℝ), 0; 1, 1]) (W := !![(1:ℝ), 0; -1, 1]) (by intro i; fin_cases i <;> simp [lower])
    (by intro i j h; fin_cases i <;> fin_cases j <;> simp [lower] at h ⊢)
    (by intro i j h; fin_cases i <;> fin_cases j <;> simp at h ⊢)
    (by ext i j; fin_cases i <;> fin_cases j <;> simp [Matrix.mul_apply, Fin.sum_univ_two])
    (ρ := 2) (ε := 1 / 2 ^ 46) (by intro i; fin_cases i <;> (simp [Fin.sum_univ_two]; try norm_num)) (by
      generalize (2:ℝ) ^ (-499 : ℤ) = d at *
      norm_num at htin ⊢
      linarith) (by norm_num) h1 h2
  subst h3
  refine ⟨v, y, h1, h2, ?_, ?_, ?_⟩
  · have := h4 0 (by norm_num)
    rw [e1] at this
    norm_num at this ⊢
    linarith
  · have := h5 1 0 (by decide)
    simp only [Fin.val_one, Fin.val_zero, e2, Fin.sum_univ_two] at this
    norm_num at this ⊢
    linarith
  · have := h4 1 (by norm_num)
    rw [e3] at this
    norm_num at this ⊢
    linarith

end Paragami
