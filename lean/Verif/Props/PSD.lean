import Verif.Proofs.User
import Verif.Props.Validation
import Mathlib.Algebra.Order.Star.Real

/-! # C18–C20: positive definite matrices -/

set_option linter.unusedSimpArgs false

namespace Paragami
open NDArray

/-- **C18.**  For every size and every finite `diag_lb ≥ 0`, folding a finite free vector of length `n(n+1)/2` returns a
symmetric `n × n` matrix `M` with `M - diag_lb * I` positive definite; hence `M` is positive definite and its diagonal
strictly exceeds `diag_lb`. -/
theorem C18_psd_fold_admissible {n : Nat} {lb : PyNum} {dv fd} {l : ℝ} (hp : Pattern.Built (.psd n lb dv fd))
    (hl : lb.toFlt = .fin l) {r : List ℝ} (hr : r.length = n * (n + 1) / 2) (vv : Option Bool) :
    ∃ M : Matrix (Fin n) (Fin n) ℝ,
      (Pattern.psd n lb dv fd).fold (vec (r.map .fin)) (some true) vv = .ok (.arr ⟨[n, n], Spec.matData M⟩) ∧
      M.IsSymm ∧ (M - l • (1 : Matrix (Fin n) (Fin n) ℝ)).PosDef ∧ M.PosDef ∧ ∀ i, l < M i i := by
  have hw := hp.wf
  have hf : (Pattern.psd n lb dv fd).FiniteLb := by simp [Pattern.FiniteLb, hl, Flt.IsFin]
  obtain ⟨d, h1, _, hI, _⟩ := Pattern.psd_free_vec hf hw (r := r) hr
  simp only [Spec.Interior] at hI
  obtain ⟨M, hM, hpd⟩ := hI
  rw [hl] at hpd
  change (M - l • (1 : Matrix (Fin n) (Fin n) ℝ)).PosDef at hpd
  have hl0 : 0 ≤ l := by
    have : lb.toFlt.lt 0 = false := hw
    rw [hl] at this
    simpa [Flt.lt] using this
  have hM' : M = (M - l • (1 : Matrix (Fin n) (Fin n) ℝ)) + l • 1 := by simp
  refine ⟨M, by rw [Pattern.fold_true, h1, ← hM], ?_, hpd, ?_, ?_⟩
  · have h := hpd.1
    rw [hM']
    apply Matrix.IsSymm.add
    · rw [Matrix.IsHermitian, Matrix.conjTranspose_eq_transpose_of_trivial] at h; exact h
    · exact Matrix.IsSymm.smul Matrix.isSymm_one l
  · rw [hM']
    apply hpd.add_posSemidef
    exact Matrix.PosSemidef.one.smul hl0
  · intro i
    have := hpd.diag_pos (i := i)
    simp at this
    linarith

/-- C18 is not vacuous: 3 × 3 matrices with `diag_lb = 1/2`. -/
example : Pattern.Built (.psd 3 (.flt (.fin (1 / 2))) true none) ∧ (PyNum.flt (.fin (1 / 2))).toFlt = .fin (1 / 2) ∧
    (List.replicate 6 (2 : ℝ)).length = 3 * (3 + 1) / 2 :=
  ⟨Pattern.WF.built _ (by simp [Pattern.WF, PyNum.toFlt, Flt.lt]), rfl, by simp⟩

theorem acc_matData {n : Nat} {lb : PyNum} {dv fd} {l : ℝ} (hl : lb.toFlt = .fin l) {M : Matrix (Fin n) (Fin n) ℝ}
    (hs : M.IsSymm) (hd : ∀ i, l ≤ M i i) (vv) :
    Pattern.Acc (.psd n lb dv fd) (.arr (⟨[n, n], Spec.matData M⟩ : NDArray Flt)) vv := by
  rw [Pattern.acc_psd]
  refine ⟨_, rfl, rfl, fun _ => ?_⟩
  have e : (⟨[n, n], Spec.matData M⟩ : NDArray Flt).data.map (Elem.toFlt : Flt → Flt) =
      (ofFn2 n n (fun i j => Flt.fin (natMat M i j))).data := by
    rw [matData_eq]; show List.map id _ = _; simp
  rw [e]
  constructor
  · intro i hi
    rw [entry_ofFn2 n n _ hi hi, hl]
    have := hd ⟨i, hi⟩
    simpa [Flt.lt, natMat, hi] using this
  · intro i hi j hj
    rw [entry_ofFn2 n n _ hj hi, entry_ofFn2 n n _ hi hj]
    have := hs.apply ⟨i, hi⟩ ⟨j, hj⟩
    simpa [Flt.eq, natMat, hi, hj] using this

/-- **C19.**  For every real symmetric matrix `M` with diagonal at least `diag_lb` (that is, every real matrix that
validation accepts), `flatten(free=True)` succeeds exactly when `M - diag_lb * I` is positive definite; then folding the
result gives `M` back; otherwise it raises a linear algebra error. -/
theorem C19_psd_flatten_iff {n : Nat} {lb : PyNum} {dv fd} {l : ℝ} (hp : Pattern.Built (.psd n lb dv fd))
    (hl : lb.toFlt = .fin l) {M : Matrix (Fin n) (Fin n) ℝ} (hs : M.IsSymm) (hd : ∀ i, l ≤ M i i) (vv : Option Bool) :
    ((M - l • (1 : Matrix (Fin n) (Fin n) ℝ)).PosDef →
      ∃ r : List ℝ, r.length = n * (n + 1) / 2 ∧
        (Pattern.psd n lb dv fd).flatten (.arr ⟨[n, n], Spec.matData M⟩) (some true) vv = .ok (vec (r.map .fin)) ∧
        ∀ vv', (Pattern.psd n lb dv fd).fold (vec (r.map .fin)) (some true) vv' = .ok (.arr ⟨[n, n], Spec.matData M⟩)) ∧
    (¬ (M - l • (1 : Matrix (Fin n) (Fin n) ℝ)).PosDef →
      (Pattern.psd n lb dv fd).flatten (.arr ⟨[n, n], Spec.matData M⟩) (some true) vv = .error .linAlgError) := by
  have hf : (Pattern.psd n lb dv fd).FiniteLb := by simp [Pattern.FiniteLb, hl, Flt.IsFin]
  constructor
  · intro hpd
    have hI : Spec.Interior (.psd n lb dv fd) (.arr ⟨[n, n], Spec.matData M⟩) := by
      simp only [Spec.Interior]
      exact ⟨M, rfl, by rw [hl]; exact hpd⟩
    obtain ⟨r, h1, h2, h3⟩ := Pattern.psd_free_val hf hp.wf hI
    exact ⟨r, h1, by rw [Pattern.flatten_true]; exact h2 vv, fun vv' => by rw [Pattern.fold_true]; exact h3⟩
  · intro hnpd
    obtain ⟨m, hm⟩ := acc_matData (dv := dv) (fd := fd) hl hs hd vv
    have hm' : PSD.validate n lb.toFlt dv (⟨[n, n], Spec.matData M⟩ : NDArray Flt) vv = .ok (true, m) := hm
    have hnone : packPosdef n (.fin l) (ofFn2 n n fun i j => .fin (natMat M i j)) = .error .linAlgError := by
      apply packPosdef_none
      rintro ⟨L, hL⟩
      apply hnpd
      rw [← of_natMat M, sub_smul_one, ← pd_iff_posDef n (fun i j => natMat M i j - if i = j then l else 0)]
      refine hL.pd fun i j hi hj => ?_
      have := hs.apply ⟨i, hi⟩ ⟨j, hj⟩
      simp only [natMat, hi, hj, and_self, dif_pos]
      rw [this]
      simp only [eq_comm (a := j) (b := i)]
    rw [Pattern.flatten_true]
    simp only [Pattern.flattenFree, Val.asArr, bind, Except.bind, PSD.flattenFree, hm', Bool.not_true,
      Bool.false_eq_true, if_false, throw, throwThe, MonadExceptOf.throw]
    rw [hl, matData_eq, hnone]

/-- The same as an equivalence: `flatten` succeeds iff `M - diag_lb * I` is positive definite. -/
theorem C19_psd_flatten_succeeds_iff {n : Nat} {lb : PyNum} {dv fd} {l : ℝ} (hp : Pattern.Built (.psd n lb dv fd))
    (hl : lb.toFlt = .fin l) {M : Matrix (Fin n) (Fin n) ℝ} (hs : M.IsSymm) (hd : ∀ i, l ≤ M i i) (vv : Option Bool) :
    (∃ x, (Pattern.psd n lb dv fd).flatten (.arr ⟨[n, n], Spec.matData M⟩) (some true) vv = .ok x) ↔
      (M - l • (1 : Matrix (Fin n) (Fin n) ℝ)).PosDef := by
  obtain ⟨h1, h2⟩ := C19_psd_flatten_iff hp hl hs hd vv
  constructor
  · rintro ⟨x, hx⟩
    by_contra hn
    rw [h2 hn] at hx; cases hx
  · intro h
    obtain ⟨r, _, hr, _⟩ := h1 h
    exact ⟨_, hr⟩

/-- The matrix `[[1, 0.9], [0.9, 1]]`. -/
noncomputable def exCorr : Matrix (Fin 2) (Fin 2) ℝ := !![1, 9 / 10; 9 / 10, 1]

/-- **C19, the failure.**  With `diag_lb = 0.5` the positive definite matrix `[[1, 0.9], [0.9, 1]]` passes
`validate_folded`, yet `flatten(free=True)` raises a linear algebra error. -/
theorem C19_valid_posdef_rejected : exCorr.PosDef ∧
    (∃ msg, (Pattern.psd 2 (.flt (.fin (1 / 2))) true none).validate (.arr ⟨[2, 2], Spec.matData exCorr⟩) (some true) =
      .ok (true, msg)) ∧
    (Pattern.psd 2 (.flt (.fin (1 / 2))) true none).flatten (.arr ⟨[2, 2], Spec.matData exCorr⟩) (some true) (some true) =
      .error .linAlgError := by
  have hs : exCorr.IsSymm := by
    ext i j; fin_cases i <;> fin_cases j <;> simp [exCorr]
  have hd : ∀ i, (1 / 2 : ℝ) ≤ exCorr i i := by intro i; fin_cases i <;> simp [exCorr] <;> norm_num
  refine ⟨?_, acc_matData (l := 1 / 2) rfl hs hd (some true), ?_⟩
  · refine Matrix.posDef_iff_dotProduct_mulVec.mpr ⟨?_, ?_⟩
    · rw [Matrix.IsHermitian, Matrix.conjTranspose_eq_transpose_of_trivial]; exact hs
    · intro x hx
      have e : star x ⬝ᵥ (exCorr.mulVec x) = x 0 * x 0 + 2 * (9 / 10) * (x 0 * x 1) + x 1 * x 1 := by
        simp [exCorr, Matrix.mulVec, dotProduct, Fin.sum_univ_two]; ring
      rw [e]
      have hne : x 0 ≠ 0 ∨ x 1 ≠ 0 := by
        by_contra hc
        push Not at hc
        apply hx; ext i; fin_cases i
        · exact hc.1
        · exact hc.2
      have h3 : 0 < x 0 ^ 2 + x 1 ^ 2 := by
        rcases hne with h | h
        · have := pow_pos (abs_pos.mpr h) 2; rw [sq_abs] at this; nlinarith [sq_nonneg (x 1)]
        · have := pow_pos (abs_pos.mpr h) 2; rw [sq_abs] at this; nlinarith [sq_nonneg (x 0)]
      nlinarith [sq_nonneg (x 0 + x 1)]
  · apply (C19_psd_flatten_iff (l := 1 / 2) (Pattern.WF.built _ (by simp [Pattern.WF, PyNum.toFlt, Flt.lt])) rfl hs hd
      (some true)).2
    intro hpd
    have := (Matrix.posDef_iff_dotProduct_mulVec.mp hpd).2 (x := ![1, -1]) (by
      intro h; have := congrFun h 0; simp at this)
    have e : star ![(1 : ℝ), -1] ⬝ᵥ ((exCorr - (1 / 2 : ℝ) • (1 : Matrix (Fin 2) (Fin 2) ℝ)).mulVec ![1, -1]) =
        - 4 / 5 := by
      simp [exCorr, Matrix.mulVec, dotProduct, Fin.sum_univ_two, Matrix.one_apply]; norm_num
    rw [e] at this
    norm_num at this

/-- C19's positive direction is not vacuous: the identity with `diag_lb = 1/2`. -/
example : ((1 : Matrix (Fin 2) (Fin 2) ℝ) - (1 / 2 : ℝ) • (1 : Matrix (Fin 2) (Fin 2) ℝ)).PosDef := by
  have : (1 : Matrix (Fin 2) (Fin 2) ℝ) - (1 / 2 : ℝ) • (1 : Matrix (Fin 2) (Fin 2) ℝ) = (1 / 2 : ℝ) • 1 := by
    ext i j; simp [Matrix.one_apply]; split <;> norm_num
  rw [this]
  exact Matrix.PosDef.one.smul (by norm_num)

/-! ### C20: the lower triangle -/

/-- **C20, stacking.**  For every `n × n` array, the stacked lower triangle has length `n(n+1)/2` and the entry `(i, j)`
with `j ≤ i` sits at position `i(i+1)/2 + j`. -/
theorem C20_stack_positions {n : Nat} {d : List Flt} (hd : d.length = n * n) :
    ∃ v : List Flt, vectorizeLd ⟨[n, n], d⟩ = .ok (vec v) ∧ v.length = n * (n + 1) / 2 ∧
      ∀ i < n, ∀ j ≤ i, v[i * (i + 1) / 2 + j]? = d[i * n + j]? := by
  refine ⟨(trilIndices n).map fun ij => entry n d ij.1 ij.2, ?_, by simp [length_trilIndices, tri], ?_⟩
  · rw [← ofFn2_entry hd, vectorizeLd_ofFn2]
  · intro i hi j hj
    have h1 := getD_tril (n := n) (fun i j => entry n d i j) hi hj
    have h2 : symIndex i j < ((trilIndices n).map fun ij => entry n d ij.1 ij.2).length := by
      simpa [length_trilIndices] using symIndex_lt hi hj
    have e : symIndex i j = i * (i + 1) / 2 + j := by simp [symIndex, hj]; omega
    rw [entry_eq hd hi (by omega), ← h1, ← e, List.getD, List.getElem?_eq_getElem h2]; simp

/-- **C20, rebuilding.**  Every vector of length `n(n+1)/2` is rebuilt into an `n × n` array with that lower triangle and
zeros above; stacking it again gives the vector back. -/
theorem C20_rebuild {n : Nat} {v : List Flt} (hv : v.length = n * (n + 1) / 2) :
    ∃ d : List Flt, unvectorizeLd (vec v) = .ok ⟨[n, n], d⟩ ∧ d.length = n * n ∧
      (∀ i < n, ∀ j ≤ i, d[i * n + j]? = v[i * (i + 1) / 2 + j]?) ∧
      (∀ i < n, ∀ j < n, i < j → d[i * n + j]? = some 0) ∧
      vectorizeLd ⟨[n, n], d⟩ = .ok (vec v) := by
  refine ⟨(ofFn2 n n fun i j => if j ≤ i then v.getD (symIndex i j) .nan else 0).data, ?_, length_ofFn2 _ _ _, ?_, ?_, ?_⟩
  · rw [unvectorizeLd_vec hv]; rfl
  · intro i hi j hj
    have h2 : symIndex i j < v.length := by rw [hv]; exact symIndex_lt hi hj
    have e : symIndex i j = i * (i + 1) / 2 + j := by simp [symIndex, hj]; omega
    rw [entry_eq (length_ofFn2 _ _ _) hi (by omega), entry_ofFn2 n n _ hi (by omega), if_pos hj, ← e, List.getD,
      List.getElem?_eq_getElem h2]
    simp
  · intro i hi j hj hij
    rw [entry_eq (length_ofFn2 _ _ _) hi hj, entry_ofFn2 n n _ hi hj, if_neg (by omega)]
  · have h := vectorize_unvectorize (n := n) hv
    rw [unvectorizeLd_vec hv] at h
    exact h

/-- **C20, the other inverse.**  Stacking a lower-triangular array and rebuilding it gives the array back. -/
theorem C20_rebuild_stack {n : Nat} {d : List Flt} (hd : d.length = n * n)
    (hz : ∀ i < n, ∀ j < n, i < j → d[i * n + j]? = some 0) :
    (vectorizeLd ⟨[n, n], d⟩ >>= unvectorizeLd) = .ok ⟨[n, n], d⟩ := by
  conv_lhs => rw [← ofFn2_entry hd]
  rw [unvectorize_vectorize]
  conv_rhs => rw [← ofFn2_entry hd]
  congr 1
  apply ofFn2_congr
  intro i hi j hj
  split
  · rfl
  · next h =>
    have := hz i hi j hj (by omega)
    rw [entry_eq hd hi hj] at this
    exact (Option.some.inj this).symm

/-- **C20, rejection.**  A vector is accepted exactly when its length is a triangular number. -/
theorem C20_rejects_non_triangular (v : List Flt) :
    (∃ a, unvectorizeLd (vec v) = .ok a) ↔ ∃ n, v.length = n * (n + 1) / 2 := by
  have := matSize_check (m := v.length)
  rw [show (∃ n, v.length = n * (n + 1) / 2) ↔ ∃ n, v.length = tri n from Iff.rfl, ← this]
  constructor
  · rintro ⟨a, h⟩
    by_contra hne
    unfold unvectorizeLd at h
    simp only at h
    rw [if_pos (by exact hne)] at h; cases h
  · intro h
    unfold unvectorizeLd
    simp only
    rw [if_neg (by exact not_not_intro h)]
    exact ⟨_, rfl⟩

/-- **C20, symmetric unpacking.**  For finite vectors the unpacked matrix is symmetric and its lower triangle is the
vector. -/
theorem C20_symmetric_unpack {n : Nat} {r : List ℝ} (hr : r.length = n * (n + 1) / 2) :
    ∃ M : Matrix (Fin n) (Fin n) ℝ, unvectorizeSymmetric (vec (r.map .fin)) = .ok ⟨[n, n], Spec.matData M⟩ ∧ M.IsSymm ∧
      ∀ i j : Fin n, j ≤ i → r[(i : Nat) * (i + 1) / 2 + j]? = some (M i j) := by
  refine ⟨Matrix.of fun i j => r.getD (symIndex i j) 0, ?_, ?_, ?_⟩
  · rw [← matData_of n n fun i j => r.getD (symIndex i j) 0]
    have hm : matSize (vec (r.map Flt.fin)).size = n := by simp [hr]; exact matSize_tri n
    simp only [unvectorizeSymmetric]
    rw [unvectorizeLd_vec (n := n) (by rw [List.length_map]; exact hr)]
    simp only [bind, Except.bind, pure, Except.pure, hm, Except.ok.injEq]
    apply ofFn2_congr
    intro i hi j hj
    have hg : ∀ i j, i < n → j ≤ i → (r.map Flt.fin).getD (symIndex i j) .nan = .fin (r.getD (symIndex i j) 0) :=
      fun i j hi hj => getD_map_fin (by rw [hr]; exact symIndex_lt hi hj)
    rw [entry_ofFn2 n n _ hi hj, entry_ofFn2 n n _ hj hi, entry_ofFn2 n n _ hi hi]
    have h0 : (0 : Flt) = Flt.fin 0 := by simp
    rcases Nat.lt_trichotomy i j with h | h | h
    · have hsym : symIndex i j = symIndex j i := by
        simp only [symIndex]; rw [if_neg (by omega), if_pos (by omega)]
      rw [if_neg (by omega), if_pos (by omega), if_neg (by omega), hg j i hj (by omega), h0, hsym]; simp
    · subst h
      rw [if_pos le_rfl, if_pos rfl, hg i i hi le_rfl]; simp
    · rw [if_pos (by omega), if_neg (by omega), if_neg (by omega), hg i j hi (by omega), h0]; simp
  · ext i j
    simp only [Matrix.transpose_apply, Matrix.of_apply]
    congr 1
    simp only [symIndex]
    rcases Nat.lt_trichotomy (i : Nat) j with h | h | h
    · rw [if_pos (by omega), if_neg (by omega)]
    · rw [h]
    · rw [if_neg (by omega), if_pos (by omega)]
  · intro i j hij
    have hij' : (j : Nat) ≤ i := hij
    have h2 : symIndex i j < r.length := by rw [hr]; exact symIndex_lt i.2 hij'
    have e : symIndex i j = (i : Nat) * (i + 1) / 2 + j := by simp [symIndex, hij']; omega
    rw [← e]
    simp [List.getD, h2]

/-- The hypotheses of C20 hold for instance for `n = 3`. -/
example : (List.replicate 9 (Flt.fin 1)).length = 3 * 3 ∧ (List.replicate 6 (1 : ℝ)).length = 3 * (3 + 1) / 2 := by
  simp

end Paragami
