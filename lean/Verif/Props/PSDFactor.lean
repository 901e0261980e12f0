import Verif.Props.PSD
import Mathlib.LinearAlgebra.Matrix.Block
import Mathlib.Analysis.SpecialFunctions.Log.Basic

/-! # C83: the free vector of a matrix is its Cholesky factor -/

namespace Paragami
open NDArray

/-- **C83, layout.**  Folding a free vector `r` gives `L Lᵀ + diag_lb I`, where `L` is the lower-triangular matrix whose row `i` is
`r[i(i+1)/2], …, r[i(i+1)/2 + i]`, with the last of these (on the diagonal) exponentiated. -/
theorem C83_fold_layout {n : Nat} {lb : PyNum} {dv fd} {l : ℝ}
    (hl : lb.toFlt = .fin l) {r : List ℝ} (hr : r.length = n * (n + 1) / 2) (vv : Option Bool) :
    ∃ L : Matrix (Fin n) (Fin n) ℝ,
      (Pattern.psd n lb dv fd).fold (vec (r.map .fin)) (some true) vv = .ok (.arr ⟨[n, n], Spec.matData (L * L.transpose + l • 1)⟩) ∧
      (∀ i j : Fin n, i < j → L i j = 0) ∧
      (∀ i j : Fin n, j < i → r[i.val * (i.val + 1) / 2 + j.val]? = some (L i j)) ∧
      ∀ i : Fin n, ∃ y, r[i.val * (i.val + 1) / 2 + i.val]? = some y ∧ L i i = Real.exp y := by
  have hr' : r.length = tri n := hr
  have hlt : ∀ i j : Fin n, j ≤ i → i.val * (i.val + 1) / 2 + j.val < r.length := by
    intro i j h
    have := symIndex_lt (n := n) i.2 (j := j.val) h
    rw [hr']
    simpa [symIndex, show j.val ≤ i.val from h, Nat.add_comm] using this
  have hget : ∀ i j : Fin n, j ≤ i → r[i.val * (i.val + 1) / 2 + j.val]? = some (r.getD (symIndex i j) 0) := by
    intro i j h
    rw [List.getElem?_eq_getElem (hlt i j h)]
    have e : symIndex i.val j.val = i.val * (i.val + 1) / 2 + j.val := by simp [symIndex, show j.val ≤ i.val from h, Nat.add_comm]
    rw [e, List.getD_eq_getElem?_getD, List.getElem?_eq_getElem (hlt i j h)]; rfl
  refine ⟨Matrix.of fun i j => freeFactor r i j, ?_, ?_, ?_, ?_⟩
  · rw [Pattern.fold_true]
    simp only [Pattern.foldFree, bind, Except.bind]
    rw [PSD.foldFree_ok.mpr ⟨by simp, by simpa using hr', by rw [atleast1d_of_ne (by simp [vec]), hl, unpackPosdef_fin hr']⟩]
    simp only [pure, Except.pure]
    rw [matData_of]
    congr 4
    ext i j
    simp only [Matrix.of_apply, freeMat, Matrix.add_apply, Matrix.mul_apply, Matrix.transpose_apply, Matrix.smul_apply, Matrix.one_apply, smul_eq_mul,
      mul_ite, mul_one, mul_zero]
    rw [Finset.sum_range (fun k => freeFactor r i k * freeFactor r j k)]
    simp only [Fin.val_inj]
  · intro i j h
    have h : i.val < j.val := h
    simp only [Matrix.of_apply, freeFactor]
    rw [if_neg (by omega), if_neg (by omega)]
  · intro i j h
    rw [hget i j h.le]
    simp only [Matrix.of_apply, freeFactor]
    rw [if_pos (show j.val < i.val from h)]
  · intro i
    refine ⟨_, hget i i le_rfl, ?_⟩
    simp only [Matrix.of_apply, freeFactor]
    rw [if_neg (lt_irrefl _), if_true]

theorem matData_inj {n m : Nat} {M N : Matrix (Fin n) (Fin m) ℝ} (h : Spec.matData M = Spec.matData N) : M = N := by
  have e := matData_eq M
  rw [h, matData_eq N] at e
  ext i j
  have := ofFn2_inj e i i.2 j j.2
  simpa [natMat] using this.symm

/-- The determinant of a lower-triangular matrix times its transpose. -/
theorem det_gram {n : Nat} {L : Matrix (Fin n) (Fin n) ℝ} (h : ∀ i j : Fin n, i < j → L i j = 0) :
    (L * L.transpose).det = (∏ i, L i i) ^ 2 := by
  rw [Matrix.det_mul, Matrix.det_transpose, Matrix.det_of_isLowerTriangular L (fun i j hij => h i j (by simpa using hij)), sq]

/-- **C83, determinant.**  The diagonal entries of the free vector (positions `i(i+1)/2 + i`) sum to half the log-determinant of the folded
matrix minus `diag_lb I`; the others do not matter for it. -/
theorem C83_determinant {n : Nat} {lb : PyNum} {dv fd} {l : ℝ}
    (hl : lb.toFlt = .fin l) {r : List ℝ} (hr : r.length = n * (n + 1) / 2) (vv : Option Bool) {M : Matrix (Fin n) (Fin n) ℝ}
    (h : (Pattern.psd n lb dv fd).fold (vec (r.map .fin)) (some true) vv = .ok (.arr ⟨[n, n], Spec.matData M⟩)) :
    ∃ y : Fin n → ℝ, (∀ i, r[i.val * (i.val + 1) / 2 + i.val]? = some (y i)) ∧
      (M - l • (1 : Matrix (Fin n) (Fin n) ℝ)).det = Real.exp (2 * ∑ i, y i) := by
  obtain ⟨L, h1, h2, -, h4⟩ := C83_fold_layout (dv := dv) (fd := fd) hl hr vv
  rw [h] at h1
  simp only [Except.ok.injEq, Val.arr.injEq, NDArray.mk.injEq, true_and] at h1
  have hM := matData_inj h1
  choose y hy hL using h4
  refine ⟨y, hy, ?_⟩
  rw [hM, add_sub_cancel_right, det_gram h2, two_mul, Real.exp_add, ← sq, Real.exp_sum]
  simp only [hL]

/-- **C83, value side.**  Flattening a symmetric matrix `M` with `M - diag_lb I` positive definite gives the Cholesky factor of the latter,
row by row with logarithms on the diagonal: whatever lower-triangular `L` with positive diagonal has `L Lᵀ = M - diag_lb I`. -/
theorem C83_flatten_layout {n : Nat} {lb : PyNum} {dv fd} {l : ℝ} (hp : Pattern.Built (.psd n lb dv fd))
    (hl : lb.toFlt = .fin l) {M L : Matrix (Fin n) (Fin n) ℝ} (hL : ∀ i j : Fin n, i < j → L i j = 0) (hd : ∀ i, 0 < L i i)
    (hM : L * L.transpose = M - l • 1) (vv : Option Bool) :
    ∃ r : List ℝ, (Pattern.psd n lb dv fd).flatten (.arr ⟨[n, n], Spec.matData M⟩) (some true) vv = .ok (vec (r.map .fin)) ∧
      r.length = n * (n + 1) / 2 ∧
      (∀ i j : Fin n, j < i → r[i.val * (i.val + 1) / 2 + j.val]? = some (L i j)) ∧
      (∀ i : Fin n, r[i.val * (i.val + 1) / 2 + i.val]? = some (Real.log (L i i))) ∧
      Real.log (M - l • (1 : Matrix (Fin n) (Fin n) ℝ)).det = 2 * ∑ i, Real.log (L i i) := by
  have hgram : (M - l • (1 : Matrix (Fin n) (Fin n) ℝ)).PosDef := by
    rw [← hM]
    have hdet : L.det ≠ 0 := by
      rw [Matrix.det_of_isLowerTriangular L (fun i j hij => hL i j (by simpa using hij))]
      exact Finset.prod_ne_zero_iff.mpr fun i _ => (hd i).ne'
    have := Matrix.PosDef.mul_conjTranspose_self L (Matrix.vecMul_injective_of_isUnit ((Matrix.isUnit_iff_isUnit_det L).mpr hdet.isUnit))
    rwa [Matrix.conjTranspose_eq_transpose_of_trivial] at this
  have hsym : M.IsSymm := by
    have : M = L * L.transpose + l • 1 := by rw [hM]; simp
    rw [this]
    refine Matrix.IsSymm.add ?_ (Matrix.IsSymm.smul Matrix.isSymm_one l)
    rw [Matrix.IsSymm, Matrix.transpose_mul, Matrix.transpose_transpose]
  have hdg : ∀ i, l ≤ M i i := by
    intro i
    have := hgram.diag_pos (i := i)
    simp at this
    linarith
  obtain ⟨r, hr, h1, h2⟩ := (C19_psd_flatten_iff hp hl hsym hdg vv).1 hgram
  obtain ⟨L', e1, e2, e3, e4⟩ := C83_fold_layout (dv := dv) (fd := fd) hl hr vv
  rw [h2 vv] at e1
  simp only [Except.ok.injEq, Val.arr.injEq, NDArray.mk.injEq, true_and] at e1
  have hM' : L' * L'.transpose = M - l • 1 := by rw [matData_inj e1]; simp
  have chol : ∀ K : Matrix (Fin n) (Fin n) ℝ, (∀ i j : Fin n, i < j → K i j = 0) → (∀ i, 0 < K i i) → K * K.transpose = M - l • 1 →
      IsChol n (natMat (M - l • 1)) (natMat K) := by
    intro K k1 k2 k3
    refine ⟨fun i j hi hj hij => ?_, fun i hi => ?_, fun i j hi hj => ?_⟩
    · simp [natMat, hi, hj, k1 ⟨i, hi⟩ ⟨j, hj⟩ hij]
    · simp [natMat, hi, k2]
    · have hj' : j < n := by omega
      rw [← k3, Finset.sum_range]
      simp [natMat, hi, hj', Matrix.mul_apply]
  have hpos' : ∀ i, 0 < L' i i := fun i => by
    obtain ⟨y, -, hy⟩ := e4 i
    rw [hy]; exact Real.exp_pos y
  have huniq := isChol_unique (chol L hL hd hM) (chol L' e2 hpos' hM')
  have hLL : L = L' := by
    ext i j
    have := huniq i j i.2 j.2
    simpa [natMat] using this
  subst hLL
  refine ⟨r, h1, hr, e3, fun i => ?_, ?_⟩
  · obtain ⟨y, hy, hy'⟩ := e4 i
    rw [hy, hy', Real.log_exp]
  · rw [← hM, det_gram hL, Real.log_pow, Real.log_prod (fun i _ => (hd i).ne')]
    norm_num

/-- Non-vacuity: a 2 x 2 pattern with `diag_lb = 1/2`, and a factor with the matrix it belongs to. -/
example : Pattern.Built (.psd 2 (.flt (.fin (1 / 2))) true none) ∧ ([3, -1, 0.5] : List ℝ).length = 2 * (2 + 1) / 2 ∧
    ∃ M L : Matrix (Fin 2) (Fin 2) ℝ, (∀ i j : Fin 2, i < j → L i j = 0) ∧ (∀ i, 0 < L i i) ∧ L 1 0 = -1 ∧
      L * L.transpose = M - (1 / 2 : ℝ) • 1 := by
  refine ⟨Pattern.WF.built _ (by simp [Pattern.WF, PyNum.toFlt, Flt.lt]), by simp,
    !![2, 0; -1, 3] * (!![2, 0; -1, 3] : Matrix (Fin 2) (Fin 2) ℝ).transpose + (1 / 2 : ℝ) • 1, !![2, 0; -1, 3], ?_, ?_, rfl, by simp⟩
  · intro i j h
    fin_cases i <;> fin_cases j <;> simp_all
  · intro i
    fin_cases i <;> simp

end Paragami
