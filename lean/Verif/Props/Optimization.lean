import Verif.Proofs.Optimization

/-! # C51–C58, C68, C72, C73: eigenvalues, preconditioners, and the logging objective -/

namespace Paragami
open NDArray LinAlg Optimization

/-! ### C51 -/

/-- **C51.** `truncate_eigenvalues` returns a new array: the old entries, clamped; no array that existed before changes. -/
theorem C51_clamp (m : Mem) (a : Nat) (lo hi : Option ℝ) :
    ∃ m' b, truncateIn m a (lo.map .real) (hi.map .real) = .ok (m', b) ∧ m.cells.length ≤ b ∧
      m'.read b = (m.read a).map (Spec.clamp lo hi) ∧ ∀ c < m.cells.length, m'.read c = m.read c := by
  obtain ⟨m', h1, h2, h3, -⟩ := truncateIn_real m a lo hi
  exact ⟨m', _, h1, le_rfl, h2, h3⟩

/-- **C51, clamping.** What the clamped number is: inside the interval, unchanged strictly inside it, the threshold outside it. -/
theorem C51_values {d r : List ℝ} {lo hi : Option ℝ} (h : truncate d (lo.map .real) (hi.map .real) = .ok r) :
    r.length = d.length ∧ ∀ (i : Nat) (x y : ℝ), d[i]? = some x → r[i]? = some y →
      ((∀ l ∈ lo, l < x) → (∀ u ∈ hi, x < u) → y = x) ∧
      (∀ l ∈ lo, (∀ u ∈ hi, l ≤ u) → l ≤ y ∧ (x ≤ l → y = l)) ∧
      ∀ u ∈ hi, y ≤ u ∧ (u ≤ x → y = u) := by
  rw [truncate_real] at h
  cases h
  refine ⟨List.length_map .., fun i x y hx hy => ?_⟩
  rw [List.getElem?_map, hx] at hy
  cases hy
  rcases lo with _ | l <;> rcases hi with _ | u <;> simp only [Spec.clamp, Option.mem_def, Option.some.injEq, reduceCtorEq, forall_eq', false_imp_iff,
    implies_true, true_imp_iff, true_and, and_true]
  · exact ⟨fun h => min_eq_left h.le, min_le_right .., fun h => min_eq_right h⟩
  · exact ⟨fun h => max_eq_left h.le, le_max_right .., fun h => max_eq_right h⟩
  · refine ⟨fun h h' => ?_, fun hlu => ⟨le_min (le_max_right ..) hlu, fun h => ?_⟩, min_le_right .., fun h => ?_⟩
    · rw [max_eq_left h.le, min_eq_left h'.le]
    · rw [max_eq_right h, min_eq_left hlu]
    · exact min_eq_right (h.trans (le_max_left ..))

/-- **C51, order.** Truncation keeps the order of the entries. -/
theorem C51_monotone {d r : List ℝ} {lo hi : Option ℝ} (h : truncate d (lo.map .real) (hi.map .real) = .ok r) {i j : Nat} {x x' y y' : ℝ}
    (hx : d[i]? = some x) (hx' : d[j]? = some x') (hy : r[i]? = some y) (hy' : r[j]? = some y') (hle : x ≤ x') : y ≤ y' := by
  rw [truncate_real] at h
  cases h
  rw [List.getElem?_map, hx] at hy
  rw [List.getElem?_map, hx'] at hy'
  cases hy; cases hy'
  rcases lo with _ | l <;> rcases hi with _ | u <;> simp only [Spec.clamp]
  · exact hle
  · exact min_le_min_right _ hle
  · exact max_le_max_right _ hle
  · exact min_le_min_right _ (max_le_max_right _ hle)

/-- **C51, idempotence.** Truncating again changes nothing (even if the thresholds are the wrong way round). -/
theorem C51_idempotent {d r : List ℝ} {lo hi : Option ℝ} (h : truncate d (lo.map .real) (hi.map .real) = .ok r) :
    truncate r (lo.map .real) (hi.map .real) = .ok r := by
  rw [truncate_real] at h ⊢
  cases h
  rw [List.map_map]
  congr 1
  refine List.map_congr_left fun x _ => ?_
  rcases lo with _ | l <;> rcases hi with _ | u <;> simp only [Spec.clamp, Function.comp]
  · exact min_eq_left (min_le_right ..)
  · exact max_eq_left (le_max_right ..)
  · rcases le_total l u with h | h
    · rw [max_eq_left (le_min (le_max_right ..) h)]
      exact min_eq_left (min_le_right ..)
    · have h1 : ∀ z : ℝ, min (max z l) u = u := fun z => min_eq_right (h.trans (le_max_right ..))
      rw [h1, h1]

/-- **C51, complex thresholds.** They raise: `ValueError`, or `TypeError` if the imaginary part is zero. -/
theorem C51_complex (m : Mem) (a : Nat) (re im : ℝ) (hi : Option Threshold) : ∃ e,
    truncateIn m a (some (.complex re im)) hi = .error e ∧ ((im = 0 ∧ e = .typeError) ∨ (im ≠ 0 ∧ ∃ msg, e = .valueError msg)) := by
  by_cases h : im = 0
  · refine ⟨.typeError, ?_, .inl ⟨h, rfl⟩⟩
    simp only [truncateIn, Threshold.toFloat, if_pos h, bind, Except.bind]
  · refine ⟨.valueError "ev_min must be real-valued.", ?_, .inr ⟨h, _, rfl⟩⟩
    simp only [truncateIn, Threshold.toFloat, if_neg h, bind, Except.bind]

/-- Non-vacuity: an array of four eigenvalues and two thresholds. -/
example : ∃ m' b, truncateIn ⟨[[7], [-3, 0.5, 2, 40]]⟩ 1 (some (.real 1)) (some (.real 10)) = .ok (m', b) ∧ b = 2 ∧
    m'.read 2 = [1, 1, 2, 10] ∧ m'.read 1 = [-3, 0.5, 2, 40] ∧ m'.read 0 = [7] := by
  obtain ⟨m', h1, h2, h3, -⟩ := truncateIn_real ⟨[[7], [-3, 0.5, 2, 40]]⟩ 1 (some 1) (some 10)
  refine ⟨m', 2, h1, rfl, ?_, h3 1 (by decide), h3 0 (by decide)⟩
  refine Eq.trans h2 ?_
  simp only [Mem.read, Spec.clamp, List.getD_cons_succ, List.getD_cons_zero, List.map_cons, List.map_nil]
  norm_num

/-! ### C52 -/

/-- **C52.** The operator is linear, multiplies each column by its transformed eigenvalue, and fixes everything orthogonal to the
columns. -/
theorem C52_eigenspace {n k : Nat} (U : Matrix (Fin n) (Fin k) ℝ) (hU : U.transpose * U = 1) (d d' : Fin k → ℝ) {tf : NDArray ℝ → NDArray ℝ}
    (ht : tf (vecOf d) = vecOf d') :
    ∃ (op : Op) (g : (Fin n → ℝ) →ₗ[ℝ] (Fin n → ℝ)), transformEigenspace (ofMatrix U) (vecOf d) tf = .ok op ∧ (∀ v, op (vecOf v) = .ok (vecOf (g v))) ∧
      (∀ j, g (U.col j) = d' j • U.col j) ∧ ∀ v, (∀ j, dotProduct (U.col j) v = 0) → g v = v := by
  obtain ⟨op, h1, h2⟩ := transformEigenspace_eq U d d' ht
  refine ⟨op, (eigMat U d').mulVecLin, h1, h2, fun j => ?_, fun v hv => ?_⟩
  · have := congrArg (fun M => Matrix.col M j) (eigMat_col hU d')
    ext i
    have := congrFun this i
    simp only [Matrix.col_apply, Matrix.mul_diagonal] at this
    rw [Matrix.mulVecLin_apply, Pi.smul_apply, smul_eq_mul, Matrix.col_apply, mul_comm, ← this]
    rfl
  · exact eigMat_orth d' (funext hv)

/-- **C52, mismatches.** Arrays of the wrong dimension or of lengths that do not match raise `ValueError`. -/
theorem C52_mismatch (vecs vals : NDArray ℝ) (tf : NDArray ℝ → NDArray ℝ)
    (h : vecs.shape.length ≠ 2 ∨ vals.shape.length ≠ 1 ∨ ∃ n k k', vecs.shape = [n, k] ∧ vals.shape = [k'] ∧ k ≠ k') :
    ∃ msg, transformEigenspace vecs vals tf = .error (.valueError msg) := by
  simp only [transformEigenspace, bind, Except.bind, throw, throwThe, MonadExceptOf.throw, pure, Except.pure]
  by_cases h1 : vecs.ndim ≠ 2
  · rw [if_pos h1]; exact ⟨_, rfl⟩
  rw [if_neg h1]
  by_cases h2 : vals.ndim ≠ 1
  · simp only [if_pos h2]; exact ⟨_, rfl⟩
  simp only [if_neg h2]
  rcases h with h | h | ⟨n, k, k', ha, hb, hk⟩
  · exact absurd h h1
  · exact absurd h h2
  · have : vecs.shape[1]? ≠ vals.shape[0]? := by rw [ha, hb]; simpa using hk
    simp only [if_pos this]; exact ⟨_, rfl⟩

/-- Non-vacuity: one axis of the plane is stretched by 5, the other one is fixed. -/
example : ∃ op, transformEigenspace (ofMatrix (n := 2) (m := 1) !![0; 1]) (vecOf ![25]) (·.map Real.sqrt) = .ok op ∧
    op (vecOf ![3, 4]) = .ok (vecOf ![3, 20]) := by
  have ht : (vecOf ![(25 : ℝ)]).map Real.sqrt = vecOf ![5] := by
    rw [map_vec]
    congr 1
    ext i; fin_cases i
    simp [show (25 : ℝ) = 5 ^ 2 by norm_num]
  have hU : (!![0; 1] : Matrix (Fin 2) (Fin 1) ℝ).transpose * (!![0; 1] : Matrix (Fin 2) (Fin 1) ℝ) = 1 := by
    ext i j; fin_cases i; fin_cases j; simp [Matrix.mul_apply, Fin.sum_univ_two]
  obtain ⟨op, g, h1, h2, h3, h4⟩ := C52_eigenspace (n := 2) (k := 1) !![0; 1] hU ![25] ![5] (tf := (·.map Real.sqrt)) ht
  refine ⟨op, h1, ?_⟩
  have e1 : (![3, 4] : Fin 2 → ℝ) = ![3, 0] + (4 : ℝ) • Matrix.col !![0; 1] 0 := by
    ext i; fin_cases i <;> simp
  have e2 : ∀ j : Fin 1, dotProduct (Matrix.col !![(0 : ℝ); 1] j) ![3, 0] = 0 := by
    intro j; fin_cases j; simp [dotProduct, Fin.sum_univ_two]
  rw [h2, e1, map_add, map_smul, h3, h4 _ e2]
  congr 2
  ext i
  fin_cases i <;> simp
  norm_num

/-! ### C53 -/

/-- **C53.** The two operators are symmetric, inverse to each other, and the first applied twice is the symmetrized matrix with
truncated eigenvalues; `V`, `e` is any eigendecomposition of the symmetrized matrix, not only the one that is computed. -/
theorem C53_square_roots {eigh : Eigh} (he : Spec.EighSpec eigh) {n : Nat} (M V : Matrix (Fin n) (Fin n) ℝ) (e : Fin n → ℝ) (lo hi : Option ℝ)
    (hV : V.transpose * V = 1) (hM : (1 / 2 : ℝ) • (M + M.transpose) = V * Matrix.diagonal e * V.transpose)
    (hp : ∀ i, 0 < Spec.clamp lo hi (e i)) :
    ∃ (f g : Op) (A B : Matrix (Fin n) (Fin n) ℝ), symMatrixInvSqrtFuncs eigh (ofMatrix M) (lo.map .real) (hi.map .real) = .ok (f, g) ∧
      Spec.ActsAs f A ∧ Spec.ActsAs g B ∧ A * B = 1 ∧ B * A = 1 ∧ A.transpose = A ∧ B.transpose = B ∧
      A * A = V * Matrix.diagonal (fun i => Spec.clamp lo hi (e i)) * V.transpose ∧
      ((∀ i, Spec.clamp lo hi (e i) = e i) → A * A = (1 / 2 : ℝ) • (M + M.transpose)) ∧
      ∀ v, v ≠ 0 → 0 < dotProduct v (A.mulVec v) := by
  obtain ⟨f, g, h, hf, hg⟩ := symSqrt_acts he lo hi hV hM
  have hs : ∀ i, 0 < Real.sqrt (Spec.clamp lo hi (e i)) := fun i => Real.sqrt_pos.mpr (hp i)
  have hA : V * Matrix.diagonal (fun i => Real.sqrt (Spec.clamp lo hi (e i))) * V.transpose *
      (V * Matrix.diagonal (fun i => Real.sqrt (Spec.clamp lo hi (e i))) * V.transpose) =
      V * Matrix.diagonal (fun i => Spec.clamp lo hi (e i)) * V.transpose := by
    rw [conj_mul hV]
    congr 3
    funext i
    exact Real.mul_self_sqrt (hp i).le
  refine ⟨f, g, _, _, h, hf, hg, ?_, ?_, conj_transpose .., conj_transpose .., hA, fun hc => ?_, fun v hv => ?_⟩
  · rw [conj_mul hV]
    exact conj_one hV fun i => mul_one_div_cancel (hs i).ne'
  · rw [conj_mul hV]
    exact conj_one hV fun i => one_div_mul_cancel (hs i).ne'
  · rw [hA, hM, show (fun i => Spec.clamp lo hi (e i)) = e from funext hc]
  · have hV' : V * V.transpose = 1 := mul_eq_one_comm.mp hV
    have hw : V.transpose.mulVec v ≠ 0 := by
      intro h0
      apply hv
      have := congrArg V.mulVec h0
      rwa [Matrix.mulVec_mulVec, hV', Matrix.one_mulVec, Matrix.mulVec_zero] at this
    rw [← Matrix.mulVec_mulVec, ← Matrix.mulVec_mulVec, Matrix.dotProduct_mulVec, ← Matrix.mulVec_transpose]
    obtain ⟨i, hi⟩ := Function.ne_iff.mp hw
    generalize V.transpose.mulVec v = w at hi
    simp only [dotProduct, Matrix.mulVec_diagonal]
    refine Finset.sum_pos' (fun j _ => ?_) ⟨i, Finset.mem_univ _, ?_⟩
    · nlinarith [hs j, mul_self_nonneg (w j)]
    · have := mul_self_pos.mpr hi
      nlinarith [hs i, mul_pos (hs i) this]

/-- Non-vacuity: there is an `eigh`, and a matrix that is not symmetric, with eigenvalues 1 and 9 after symmetrization, the first
raised to 4. -/
example : ∃ eigh, Spec.EighSpec eigh ∧ ∃ f g, symMatrixInvSqrtFuncs eigh (ofMatrix (n := 2) (m := 2) !![1, 3; -3, 9]) (some (.real 4)) none = .ok (f, g) ∧
    f (vecOf ![1, 1]) = .ok (vecOf ![2, 3]) ∧ g (vecOf ![2, 3]) = .ok (vecOf ![1, 1]) := by
  obtain ⟨eigh, he⟩ := exists_eigh
  have hM : (1 / 2 : ℝ) • (!![1, 3; -3, 9] + (!![1, 3; -3, 9] : Matrix (Fin 2) (Fin 2) ℝ).transpose) =
      (1 : Matrix (Fin 2) (Fin 2) ℝ) * Matrix.diagonal ![1, 9] * (1 : Matrix (Fin 2) (Fin 2) ℝ).transpose := by
    ext i j
    fin_cases i <;> fin_cases j <;> simp <;> norm_num
  obtain ⟨f, g, h, hf, hg⟩ := symSqrt_acts he (some 4) none (V := 1) (by simp) hM
  have h4 : Real.sqrt 4 = 2 := by rw [show (4 : ℝ) = 2 ^ 2 by norm_num]; simp
  have h9 : Real.sqrt 9 = 3 := by rw [show (9 : ℝ) = 3 ^ 2 by norm_num]; simp
  have e2 : max (9 : ℝ) 4 = 9 := by norm_num
  refine ⟨eigh, he, f, g, h, ?_, ?_⟩
  · rw [hf]
    congr 2
    ext i
    fin_cases i <;> simp [Spec.clamp, Matrix.mulVec_diagonal, e2, h4, h9]
  · rw [hg]
    congr 2
    ext i
    fin_cases i <;> simp [Spec.clamp, Matrix.mulVec_diagonal, e2, h4, h9]

/-! ### C54 -/

/-- **C54, only the last setter matters.** After any history in which the last successful setter is `o`, the preconditioner is what
`o` makes of a new object. -/
theorem C54_last_setter (eigh : Eigh) (auto : NDArray ℝ → Except Err MatArg) (l l' : List PrecondOp) {o : PrecondOp} {s' : Precond}
    (ho : Spec.IsSetter o) (h : Precond.init.step eigh auto o = .ok s')
    (hl : ∀ o' ∈ l', Spec.IsSetter o' → ∃ e, Precond.init.step eigh auto o' = .error e) (s : Precond) :
    s.run eigh auto (l ++ o :: l') = s' := by
  rw [run_append, Precond.run, step_setter eigh auto ho _ Precond.init, h]
  refine run_noop eigh auto l' s' fun o' h1 h2 => ?_
  rw [step_setter eigh auto h2 _ Precond.init]
  exact hl o' h1 h2

/-- **C54, no setter.** A history without a successful setter leaves the identity. -/
theorem C54_no_setter (eigh : Eigh) (auto : NDArray ℝ → Except Err MatArg) {l : List PrecondOp}
    (hl : ∀ o ∈ l, Spec.IsSetter o → ∃ e, Precond.init.step eigh auto o = .error e) : Precond.init.run eigh auto l = Precond.init :=
  run_noop eigh auto l _ hl

/-- **C54, evaluation.** With mutually inverse functions, the preconditioned function at the preconditioned point is the function at
the point, and the two changes of variables undo each other. -/
theorem C54_evaluation (eigh : Eigh) (auto : NDArray ℝ → Except Err MatArg) (l : List PrecondOp) {n : Nat} {Y : Type} (f : NDArray ℝ → Except Err Y)
    (h : Spec.Inverse (Precond.init.run eigh auto l) n) (x : Fin n → ℝ) :
    let s := Precond.init.run eigh auto l
    (∃ xc : Fin n → ℝ, s.precondition (vecOf x) = .ok (vecOf xc) ∧ s.call f (vecOf xc) = f (vecOf x) ∧ s.unprecondition (vecOf xc) = .ok (vecOf x)) ∧
      ∃ y : Fin n → ℝ, s.unprecondition (vecOf x) = .ok (vecOf y) ∧ s.call f (vecOf x) = f (vecOf y) ∧ s.precondition (vecOf y) = .ok (vecOf x) := by
  obtain ⟨⟨w, h1, h2⟩, y, h3, h4⟩ := h x
  refine ⟨⟨w, h1, ?_, h2⟩, y, h3, ?_, h4⟩
  · simp only [Precond.call, Precond.unprecondition, h2, bind, Except.bind]
  · simp only [Precond.call, Precond.unprecondition, h3, bind, Except.bind]

/-- **C54, a new object.** Its functions are the identity. -/
theorem C54_new (n : Nat) {Y : Type} (f : NDArray ℝ → Except Err Y) (x : NDArray ℝ) :
    Spec.Inverse Precond.init n ∧ Precond.init.precondition x = .ok x ∧ Precond.init.unprecondition x = .ok x ∧ Precond.init.call f x = f x :=
  ⟨fun v => ⟨⟨v, rfl, rfl⟩, v, rfl, rfl⟩, rfl, rfl, rfl⟩

/-- **C54, matrices.** For an invertible matrix, dense or sparse, and no inverse given, `unprecondition` multiplies by the matrix,
`precondition` by its inverse, and they are inverse functions. -/
theorem C54_matrix (eigh : Eigh) (auto : NDArray ℝ → Except Err MatArg) {n : Nat} (A : Matrix (Fin n) (Fin n) ℝ) (hA : A.det ≠ 0) (sp : Bool) (s : Precond) :
    ∃ s', s.step eigh auto (.setMatrix ⟨ofMatrix A, sp⟩ none) = .ok s' ∧ s.step eigh auto (.setDeprecated ⟨ofMatrix A, sp⟩ none) = .ok s' ∧
      Spec.Inverse s' n ∧ (∀ v : Fin n → ℝ, s'.unprecondition (vecOf v) = .ok (vecOf (A.mulVec v))) ∧
      ∀ v w : Fin n → ℝ, s'.precondition (vecOf v) = .ok (vecOf w) ↔ A.mulVec w = v := by
  obtain ⟨s', h, h1, h2⟩ := setMatrix_eq A hA sp
  have hu : IsUnit A.det := isUnit_iff_ne_zero.mpr hA
  refine ⟨s', h, h, inverse_of_matrices h1 h2 (Matrix.mul_nonsing_inv A hu), h1, fun v w => ?_⟩
  rw [Precond.precondition, h2 v]
  constructor
  · intro h
    have := vecOf_inj (Except.ok.inj h)
    rw [← this, Matrix.mulVec_mulVec, Matrix.mul_nonsing_inv A hu, Matrix.one_mulVec]
  · rintro rfl
    rw [Matrix.mulVec_mulVec, Matrix.nonsing_inv_mul A hu, Matrix.one_mulVec]

/-- **C54, matrix and inverse.** Given both, `unprecondition` multiplies by the first and `precondition` by the second, whatever they
are; so the functions are inverse if the matrices are. -/
theorem C54_matrix_and_inverse (eigh : Eigh) (auto : NDArray ℝ → Except Err MatArg) {n : Nat} (A B : Matrix (Fin n) (Fin n) ℝ) (sp sp' : Bool) (s : Precond) :
    ∃ s', s.step eigh auto (.setMatrix ⟨ofMatrix A, sp⟩ (some ⟨ofMatrix B, sp'⟩)) = .ok s' ∧
      (∀ v : Fin n → ℝ, s'.unprecondition (vecOf v) = .ok (vecOf (A.mulVec v))) ∧ (∀ v : Fin n → ℝ, s'.precondition (vecOf v) = .ok (vecOf (B.mulVec v))) ∧
      (A * B = 1 → Spec.Inverse s' n) := by
  obtain ⟨s', h, h1, h2⟩ := setMatrix_given A B sp sp'
  exact ⟨s', h, h1, h2, inverse_of_matrices h1 h2⟩

/-- **C54, a singular matrix.** A dense one without inverse raises `LinAlgError`, so it changes nothing. -/
theorem C54_singular (eigh : Eigh) (auto : NDArray ℝ → Except Err MatArg) {n : Nat} (A : Matrix (Fin n) (Fin n) ℝ) (hA : A.det = 0) (s : Precond) :
    s.step eigh auto (.setMatrix ⟨ofMatrix A, false⟩ none) = .error .linAlgError ∧ s.run eigh auto [.setMatrix ⟨ofMatrix A, false⟩ none] = s := by
  have h : s.step eigh auto (.setMatrix ⟨ofMatrix A, false⟩ none) = .error .linAlgError := by
    have hi : inv (ofMatrix A) = .error .linAlgError := by rw [inv_mat, if_pos hA]
    simp only [Precond.step, Precond.setMatrix, hi, bind, Except.bind]; rfl
  exact ⟨h, by rw [Precond.run, h]; rfl⟩

/-- **C54, functions.** The two functions are used as they are given. -/
theorem C54_functions (eigh : Eigh) (auto : NDArray ℝ → Except Err MatArg) (a b : Op) (s : Precond) :
    ∃ s', s.step eigh auto (.setFunctions a b) = .ok s' ∧ (∀ v, s'.unprecondition v = a v) ∧ ∀ v, s'.precondition v = b v :=
  ⟨_, rfl, fun _ => rfl, fun _ => rfl⟩

/-- **C54, Hessians.** With a Hessian whose truncated eigenvalues are positive the functions are inverse. -/
theorem C54_hessian {eigh : Eigh} (he : Spec.EighSpec eigh) (auto : NDArray ℝ → Except Err MatArg) {n : Nat} (M V : Matrix (Fin n) (Fin n) ℝ)
    (e : Fin n → ℝ) (lo hi : Option ℝ) (hV : V.transpose * V = 1) (hM : (1 / 2 : ℝ) • (M + M.transpose) = V * Matrix.diagonal e * V.transpose)
    (hp : ∀ i, 0 < Spec.clamp lo hi (e i)) (s : Precond) :
    ∃ s', s.step eigh auto (.withHessian none (some ⟨ofMatrix M, false⟩) (lo.map .real) (hi.map .real)) = .ok s' ∧ Spec.Inverse s' n := by
  obtain ⟨f, g, A, B, h, hf, hg, -, hBA, -⟩ := C53_square_roots he M V e lo hi hV hM hp
  refine ⟨⟨g, f⟩, ?_, inverse_of_matrices hg hf hBA⟩
  simp only [Precond.step, Precond.withHessian, h, Option.isSome_none, Bool.false_eq_true, false_and, if_false, bind, Except.bind, pure, Except.pure]

/-- Non-vacuity: a singular matrix, a diagonal one, then a failing check: the diagonal one is in force. -/
example (eigh : Eigh) (auto : NDArray ℝ → Except Err MatArg) :
    let l := [PrecondOp.setMatrix ⟨ofMatrix (n := 2) (m := 2) !![1, 2; 2, 4], false⟩ none, .setMatrix ⟨ofMatrix (n := 2) (m := 2) !![2, 0; 0, 4], false⟩ none,
      .check (vecOf ![1, 1]) (-1), .setMatrix ⟨ofMatrix (n := 2) (m := 2) !![1, 2; 2, 4], false⟩ none]
    Spec.Inverse (Precond.init.run eigh auto l) 2 ∧ (Precond.init.run eigh auto l).unprecondition (vecOf ![3, 1]) = .ok (vecOf ![6, 4]) := by
  obtain ⟨s', h1, -, h2, h3, -⟩ := C54_matrix eigh auto (n := 2) !![2, 0; 0, 4] (by simp [Matrix.det_fin_two]) false Precond.init
  have hs := (C54_singular eigh auto (n := 2) !![1, 2; 2, 4] (by rw [Matrix.det_fin_two]; norm_num) Precond.init).1
  have := C54_last_setter eigh auto [PrecondOp.setMatrix ⟨ofMatrix (n := 2) (m := 2) !![1, 2; 2, 4], false⟩ none]
    [.check (vecOf ![1, 1]) (-1), .setMatrix ⟨ofMatrix (n := 2) (m := 2) !![1, 2; 2, 4], false⟩ none]
    (o := .setMatrix ⟨ofMatrix (n := 2) (m := 2) !![2, 0; 0, 4], false⟩ none) trivial h1
    (by
      intro o' ho' hset
      simp only [List.mem_cons, List.not_mem_nil, or_false] at ho'
      rcases ho' with rfl | rfl
      · exact hset.elim
      · exact ⟨_, hs⟩) Precond.init
  simp only [List.cons_append, List.nil_append] at this
  intro l
  rw [show Precond.init.run eigh auto l = s' from this]
  refine ⟨h2, (h3 _).trans ?_⟩
  congr 2
  ext i
  fin_cases i <;> norm_num [Matrix.mulVec, dotProduct, Fin.sum_univ_two]

/-! ### C55 and C72 -/

/-- **C72.** With thresholds, the preconditioned function has the Hessian with the same eigenvectors and the eigenvalues divided by
the truncated ones. -/
theorem C72_truncated {eigh : Eigh} (he : Spec.EighSpec eigh) (auto : NDArray ℝ → Except Err MatArg) {n : Nat} (H V : Matrix (Fin n) (Fin n) ℝ)
    (e : Fin n → ℝ) (lo hi : Option ℝ) (hV : V.transpose * V = 1) (hH : H = V * Matrix.diagonal e * V.transpose)
    (hp : ∀ i, 0 < Spec.clamp lo hi (e i)) (s : Precond) {F : NDArray ℝ → Except Err ℝ} {f : (Fin n → ℝ) → ℝ} (hF : ∀ x, F (vecOf x) = .ok (f x))
    {x : Fin n → ℝ} (hf : Spec.HasHessianAt f H x) :
    ∃ (s' : Precond) (xc : Fin n → ℝ) (g : (Fin n → ℝ) → ℝ), s.step eigh auto (.withHessian none (some ⟨ofMatrix H, false⟩) (lo.map .real) (hi.map .real)) = .ok s' ∧
      s'.precondition (vecOf x) = .ok (vecOf xc) ∧ (∀ w, s'.call F (vecOf w) = .ok (g w)) ∧
      Spec.HasHessianAt g (V * Matrix.diagonal (fun i => e i / Spec.clamp lo hi (e i)) * V.transpose) xc := by
  have hsym : H.transpose = H := by rw [hH]; exact conj_transpose V e
  have hM : (1 / 2 : ℝ) • (H + H.transpose) = V * Matrix.diagonal e * V.transpose := by
    rw [hsym, ← hH]; ext i j; simp; ring
  obtain ⟨a, b, h, ha, hb⟩ := symSqrt_acts he lo hi hV hM
  have hs : ∀ i, 0 < Real.sqrt (Spec.clamp lo hi (e i)) := fun i => Real.sqrt_pos.mpr (hp i)
  obtain ⟨R, hR⟩ : ∃ R, R = V * Matrix.diagonal (fun i => 1 / Real.sqrt (Spec.clamp lo hi (e i))) * V.transpose := ⟨_, rfl⟩
  obtain ⟨Q, hQ⟩ : ∃ Q, Q = V * Matrix.diagonal (fun i => Real.sqrt (Spec.clamp lo hi (e i))) * V.transpose := ⟨_, rfl⟩
  rw [← hR] at hb
  rw [← hQ] at ha
  have hRQ : R * Q = 1 := by
    rw [hR, hQ, conj_mul hV]
    exact conj_one hV fun i => one_div_mul_cancel (hs i).ne'
  have hRHR : R.transpose * H * R = V * Matrix.diagonal (fun i => e i / Spec.clamp lo hi (e i)) * V.transpose := by
    have : R.transpose = R := by rw [hR]; exact conj_transpose _ _
    rw [this, hR, hH, conj_mul hV, conj_mul hV]
    congr 3
    funext i
    have h1 := Real.mul_self_sqrt (hp i).le
    have h2 := (hs i).ne'
    have h3 := (hp i).ne'
    rw [eq_div_iff h3]
    nth_rewrite 3 [← h1]
    field_simp
  have hstep : s.step eigh auto (.withHessian none (some ⟨ofMatrix H, false⟩) (lo.map .real) (hi.map .real)) = .ok ⟨b, a⟩ := by
    simp only [Precond.step, Precond.withHessian, h, Option.isSome_none, Bool.false_eq_true, false_and, if_false, bind, Except.bind, pure, Except.pure]
  refine ⟨⟨b, a⟩, Q.mulVec x, fun w => f (R.mulVec w), hstep, ha x, fun w => ?_, ?_⟩
  · simp only [Precond.call, Precond.unprecondition, hb w, bind, Except.bind, hF]
  rw [← hRHR]
  exact hasHessianAt_comp hf (by rw [Matrix.mulVec_mulVec, hRQ, Matrix.one_mulVec])

/-- **C55.** With a symmetric positive definite Hessian and no thresholds, the Hessian of the preconditioned function is the identity
at the point where the function has that Hessian. -/
theorem C55_whitens {eigh : Eigh} (he : Spec.EighSpec eigh) (auto : NDArray ℝ → Except Err MatArg) {n : Nat} {H : Matrix (Fin n) (Fin n) ℝ}
    (hH : H.transpose = H) (hp : ∀ v : Fin n → ℝ, v ≠ 0 → 0 < dotProduct v (H.mulVec v)) (s : Precond) {F : NDArray ℝ → Except Err ℝ}
    {f : (Fin n → ℝ) → ℝ} (hF : ∀ x, F (vecOf x) = .ok (f x)) {x : Fin n → ℝ} (hf : Spec.HasHessianAt f H x) :
    ∃ (s' : Precond) (xc : Fin n → ℝ) (g : (Fin n → ℝ) → ℝ), s.step eigh auto (.withHessian none (some ⟨ofMatrix H, false⟩) none none) = .ok s' ∧
      s'.precondition (vecOf x) = .ok (vecOf xc) ∧ (∀ w, s'.call F (vecOf w) = .ok (g w)) ∧ Spec.HasHessianAt g 1 xc := by
  obtain ⟨V, e, hV, hH', he0⟩ := posDef_eig hH hp
  obtain ⟨s', xc, g, h1, h2, h3, h4⟩ := C72_truncated he auto H V e none none hV hH' he0 s hF hf
  refine ⟨s', xc, g, h1, h2, h3, ?_⟩
  have h5 : V * Matrix.diagonal (fun i => e i / Spec.clamp none none (e i)) * V.transpose = 1 := conj_one hV fun i => div_self (he0 i).ne'
  rwa [h5] at h4

/-- **C55, with `x`.** Giving `x` is the same as giving the Hessian that automatic differentiation computes there. -/
theorem C55_at_point (eigh : Eigh) {auto : NDArray ℝ → Except Err MatArg} {x : NDArray ℝ} {H : MatArg} (h : auto x = .ok H) (lo hi : Option Threshold)
    (s : Precond) : s.step eigh auto (.withHessian (some x) none lo hi) = s.step eigh auto (.withHessian none (some H) lo hi) := by
  simp [Precond.step, Precond.withHessian, h, bind, Except.bind, pure, Except.pure]

/-- **C55, errors.** Both or neither of `x` and `hessian` raise `ValueError`; a sparse one raises `NotImplementedError`. -/
theorem C55_arguments (eigh : Eigh) (auto : NDArray ℝ → Except Err MatArg) (x : NDArray ℝ) (H : MatArg) (lo hi : Option Threshold) (s : Precond) :
    (∃ msg, s.step eigh auto (.withHessian (some x) (some H) lo hi) = .error (.valueError msg)) ∧
      (∃ msg, s.step eigh auto (.withHessian none none lo hi) = .error (.valueError msg)) ∧
      (H.sparse = true → ∃ msg, s.step eigh auto (.withHessian none (some H) lo hi) = .error (.notImplementedError msg)) := by
  refine ⟨?_, ?_, fun h => ?_⟩ <;>
    simp [Precond.step, Precond.withHessian, bind, Except.bind, throw, throwThe, MonadExceptOf.throw, pure, Except.pure, *]

/-- **C55, raising.** A call that raises (for whatever reason) leaves the preconditioner as it was. -/
theorem C55_unchanged (eigh : Eigh) (auto : NDArray ℝ → Except Err MatArg) {o : PrecondOp} {s : Precond} {e : Err} (h : s.step eigh auto o = .error e) :
    s.run eigh auto [o] = s := by
  rw [Precond.run, h]; rfl

/-- Non-vacuity: `2 x²+ 4 y²` in the plane (Hessian `diag(4, 8)`). -/
example : Spec.HasHessianAt (n := 2) (fun x => 2 * x 0 ^ 2 + 4 * x 1 ^ 2) !![4, 0; 0, 8] ![1, 1] := by
  have hd : ∀ x : Fin 2 → ℝ, HasFDerivAt (fun x : Fin 2 → ℝ => 2 * x 0 ^ 2 + 4 * x 1 ^ 2)
      ((4 * x 0) • ContinuousLinearMap.proj (R := ℝ) (φ := fun _ : Fin 2 => ℝ) 0 + (8 * x 1) • ContinuousLinearMap.proj (R := ℝ) (φ := fun _ : Fin 2 => ℝ) 1) x := by
    intro x
    have h0 : HasFDerivAt (fun x : Fin 2 → ℝ => x 0) (ContinuousLinearMap.proj (R := ℝ) (φ := fun _ : Fin 2 => ℝ) 0) x := hasFDerivAt_apply 0 x
    have h1 : HasFDerivAt (fun x : Fin 2 → ℝ => x 1) (ContinuousLinearMap.proj (R := ℝ) (φ := fun _ : Fin 2 => ℝ) 1) x := hasFDerivAt_apply 1 x
    refine (((h0.pow 2).const_mul 2).add ((h1.pow 2).const_mul 4)).congr_fderiv ?_
    ext v
    simp
    ring
  refine ⟨Filter.Eventually.of_forall fun y => (hd y).differentiableAt, ?_⟩
  have hf : fderiv ℝ (fun x : Fin 2 → ℝ => 2 * x 0 ^ 2 + 4 * x 1 ^ 2) = fun x => (4 * x 0) • ContinuousLinearMap.proj (R := ℝ) (φ := fun _ : Fin 2 => ℝ) 0 +
      (8 * x 1) • ContinuousLinearMap.proj (R := ℝ) (φ := fun _ : Fin 2 => ℝ) 1 := funext fun x => (hd x).fderiv
  rw [hf]
  have h0 : HasFDerivAt (fun x : Fin 2 → ℝ => x 0) (ContinuousLinearMap.proj (R := ℝ) (φ := fun _ : Fin 2 => ℝ) 0) ![1, 1] := hasFDerivAt_apply 0 _
  have h1 : HasFDerivAt (fun x : Fin 2 → ℝ => x 1) (ContinuousLinearMap.proj (R := ℝ) (φ := fun _ : Fin 2 => ℝ) 1) ![1, 1] := hasFDerivAt_apply 1 _
  refine ⟨_, ((h0.const_mul 4).smul_const (ContinuousLinearMap.proj (R := ℝ) (φ := fun _ : Fin 2 => ℝ) 0)).add
    ((h1.const_mul 8).smul_const (ContinuousLinearMap.proj (R := ℝ) (φ := fun _ : Fin 2 => ℝ) 1)), fun v w => ?_⟩
  simp [Matrix.mulVec, dotProduct, Fin.sum_univ_two]
  ring

/-! ### C56 -/

/-- **C56.** For a linear preconditioner the matrices represent the two functions. -/
theorem C56_matrix {s : Precond} {n : Nat} (hn : 0 < n) {m : Nat} (g : (Fin n → ℝ) →ₗ[ℝ] (Fin m → ℝ)) (g' : (Fin n → ℝ) →ₗ[ℝ] (Fin m → ℝ))
    (hg : ∀ v, s.unprecondition (vecOf v) = .ok (vecOf (g v))) (hg' : ∀ v, s.precondition (vecOf v) = .ok (vecOf (g' v))) :
    ∃ P Q, s.matrix n = .ok P ∧ s.matrixInv n = .ok Q ∧ P.shape = [m, n] ∧ Q.shape = [m, n] ∧
      ∀ v : Fin n → ℝ, matmul P (vecOf v) = s.unprecondition (vecOf v) ∧ matmul Q (vecOf v) = s.precondition (vecOf v) := by
  have key : ∀ (g : (Fin n → ℝ) →ₗ[ℝ] (Fin m → ℝ)) v, (LinearMap.toMatrix' g).mulVec v = g v := fun g v => LinearMap.toMatrix'_mulVec g v
  have h1 : Spec.ActsAs s.aTimes (LinearMap.toMatrix' g) := fun v => (hg v).trans (by rw [key])
  have h2 : Spec.ActsAs s.aInvTimes (LinearMap.toMatrix' g') := fun v => (hg' v).trans (by rw [key])
  refine ⟨_, _, matrixFromOperator_eq h1 hn, matrixFromOperator_eq h2 hn, ofMatrix_shape _, ofMatrix_shape _, fun v => ⟨?_, ?_⟩⟩
  · rw [matmul_vec, hg, key]
  · rw [matmul_vec, hg', key]

/-- **C56, inverses.** If the functions are inverse, so are the matrices. -/
theorem C56_inverse {s : Precond} {n : Nat} (hn : 0 < n) (g : (Fin n → ℝ) →ₗ[ℝ] (Fin n → ℝ)) (hg : ∀ v, s.unprecondition (vecOf v) = .ok (vecOf (g v)))
    (hi : Spec.Inverse s n) :
    ∃ P Q, s.matrix n = .ok P ∧ s.matrixInv n = .ok Q ∧ matmul P Q = .ok (ofMatrix (1 : Matrix (Fin n) (Fin n) ℝ)) ∧
      matmul Q P = .ok (ofMatrix (1 : Matrix (Fin n) (Fin n) ℝ)) := by
  have key : ∀ v, (LinearMap.toMatrix' g).mulVec v = g v := fun v => LinearMap.toMatrix'_mulVec g v
  have h1 : Spec.ActsAs s.aTimes (LinearMap.toMatrix' g) := fun v => (hg v).trans (by rw [key])
  obtain ⟨A, hA⟩ : ∃ A, A = LinearMap.toMatrix' g := ⟨_, rfl⟩
  rw [← hA] at h1
  have hsurj : Function.Surjective A.mulVec := by
    intro v
    obtain ⟨⟨w, -, h⟩, -⟩ := hi v
    exact ⟨w, vecOf_inj (Except.ok.inj ((h1 w).symm.trans h))⟩
  have hu : IsUnit A := Matrix.mulVec_surjective_iff_isUnit.mp hsurj
  have hdet : IsUnit A.det := (Matrix.isUnit_iff_isUnit_det A).mp hu
  have h2 : Spec.ActsAs s.aInvTimes A⁻¹ := by
    intro v
    obtain ⟨⟨w, h, h'⟩, -⟩ := hi v
    rw [h]
    have := vecOf_inj (Except.ok.inj ((h1 w).symm.trans h'))
    rw [← this, Matrix.mulVec_mulVec, Matrix.nonsing_inv_mul A hdet, Matrix.one_mulVec]
  refine ⟨_, _, matrixFromOperator_eq h1 hn, matrixFromOperator_eq h2 hn, ?_, ?_⟩
  · rw [matmul_mat, Matrix.mul_nonsing_inv A hdet]
  · rw [matmul_mat, Matrix.nonsing_inv_mul A hdet]

/-- **C56, dimension zero.** It raises `ValueError`. -/
theorem C56_zero (s : Precond) : (∃ msg, s.matrix 0 = .error (.valueError msg)) ∧ ∃ msg, s.matrixInv 0 = .error (.valueError msg) :=
  ⟨⟨_, rfl⟩, _, rfl⟩

/-- Non-vacuity: the matrix of a matrix preconditioner is the matrix. -/
example (eigh : Eigh) (auto : NDArray ℝ → Except Err MatArg) : ∃ s, Precond.init.step eigh auto (.setMatrix ⟨ofMatrix (n := 2) (m := 2) !![2, 1; 0, 4], true⟩ none) = .ok s ∧
    s.matrix 2 = .ok (ofMatrix (n := 2) (m := 2) !![2, 1; 0, 4]) := by
  obtain ⟨s', h, h1, -⟩ := setMatrix_eq (n := 2) !![2, 1; 0, 4] (by simp [Matrix.det_fin_two]) true
  exact ⟨s', h, matrixFromOperator_eq h1 (by decide)⟩

/-! ### C57 -/

/-- **C57, counter.** -/
theorem C57_iterations {X Y : Type} (fn : X → Except Err Y) (p q : ℤ) (l : List (ObjOp X)) :
    ((Objective.init p q : Objective X Y).run fn l).numEvals = Spec.iterations fn l :=
  (run_counters fn p q l).1

/-- **C57, log.** The log is the list of what each call contributes, in order. -/
theorem C57_log {X Y : Type} (fn : X → Except Err Y) (p q : ℤ) (l : List (ObjOp X)) :
    ((Objective.init p q : Objective X Y).run fn l).log = (List.range l.length).filterMap (Spec.logEntry fn q l) :=
  run_log fn p q l

/-- **C57, printing.** -/
theorem C57_print {X Y : Type} (fn : X → Except Err Y) (p q : ℤ) (l : List (ObjOp X)) :
    ((Objective.init p q : Objective X Y).run fn l).printed = (List.range l.length).filterMap (Spec.printEntry fn p l) :=
  run_print fn p q l

/-- **C57, value.** `f` returns what the objective returns, whatever happened before. -/
theorem C57_value {X Y : Type} (fn : X → Except Err Y) (s : Objective X Y) (x : X) : (s.eval fn x).2 = fn x := by
  rw [Objective.eval]
  rcases ok_or_error (fn x) with ⟨e, h⟩ | ⟨v, h⟩ <;> rw [h]

/-- Non-vacuity: evaluations at 1, 2 (raises), 3, then `log_every = 2`, evaluations at 4, 5, 6. -/
example :
    let fn : Nat → Except Err Nat := fun x => if x = 2 then .error .typeError else .ok (x * x)
    let s := (Objective.init 0 1 : Objective Nat Nat).run fn [.f 1, .f 2, .f 3, .setLogEvery 2, .f 4, .f 5, .f 6, .resetIterationCount, .f 7]
    s.log = [(0, 1, 1), (1, 3, 9), (2, 4, 16), (4, 6, 36), (0, 7, 49)] ∧ s.numEvals = 1 ∧ s.printed = [] := by
  decide

/-! ### C58 -/

/-- **C58.** Every log entry comes from an evaluation of the recorded array object, with the iteration number and value of that time;
if the caller has not written to the array since, it still has the contents at which the objective was evaluated. -/
theorem C58_log {Y : Type} (fn : List ℝ → Except Err Y) (p q : ℤ) (m : Mem) (l : List MemOp) {k a : Nat} {v : Y}
    (h : (k, a, v) ∈ (Mem.run fn (m, Objective.init p q) l).2.log) :
    ∃ l₁ l₂, l = l₁ ++ .call (.f a) :: l₂ ∧ fn ((Mem.run fn (m, Objective.init p q) l₁).1.read a) = .ok v ∧
      k = (Mem.run fn (m, Objective.init p q) l₁).2.numEvals ∧
      ((∀ w, .mutate a w ∉ l₂) → (Mem.run fn (m, Objective.init p q) l).1.read a = (Mem.run fn (m, Objective.init p q) l₁).1.read a) := by
  induction l using List.reverseRecOn with
  | nil => cases h
  | append_singleton l o ih =>
    have hc : ∀ s : Mem × Objective Nat Y, Mem.run fn s (l ++ [o]) = Mem.step fn (Mem.run fn s l) o := by
      intro s; simp [Mem.run]
    rw [hc] at h ⊢
    have hread : (∀ w, o ≠ .mutate a w) → (Mem.step fn (Mem.run fn (m, Objective.init p q) l) o).1.read a =
        (Mem.run fn (m, Objective.init p q) l).1.read a := by
      intro ho
      cases o with
      | call c => rfl
      | mutate b w =>
        refine read_write_ne _ ?_ _
        rintro rfl
        exact ho w rfl
    have hold : (k, a, v) ∈ (Mem.run fn (m, Objective.init p q) l).2.log → ∃ l₁ l₂, l ++ [o] = l₁ ++ .call (.f a) :: l₂ ∧
        fn ((Mem.run fn (m, Objective.init p q) l₁).1.read a) = .ok v ∧ k = (Mem.run fn (m, Objective.init p q) l₁).2.numEvals ∧
        ((∀ w, .mutate a w ∉ l₂) → (Mem.step fn (Mem.run fn (m, Objective.init p q) l) o).1.read a = (Mem.run fn (m, Objective.init p q) l₁).1.read a) := by
      intro h
      obtain ⟨l₁, l₂, h1, h2, h3, h4⟩ := ih h
      refine ⟨l₁, l₂ ++ [o], by rw [h1]; simp, h2, h3, fun hw => ?_⟩
      rw [hread fun w ho => hw w (by simp [ho])]
      exact h4 fun w hm => hw w (List.mem_append_left _ hm)
    cases o with
    | mutate b w => exact hold h
    | call c =>
      cases c with
      | f b =>
        simp only [Mem.step, Objective.step, Objective.eval] at h
        rcases ok_or_error (fn ((Mem.run fn (m, Objective.init p q) l).1.read b)) with ⟨e, hx⟩ | ⟨u, hx⟩
        · rw [hx] at h; exact hold h
        · rw [hx] at h
          simp only at h
          split at h
          · rcases List.mem_append.mp h with h | h
            · exact hold h
            · rw [List.mem_singleton] at h
              cases h
              exact ⟨l, [], rfl, hx, rfl, fun _ => rfl⟩
          · exact hold h
      | reset => cases h
      | resetLog => cases h
      | _ => exact hold h

/-- **C58, mutation.** The log keeps a reference: after an evaluation and an in-place write, the entry shows the new contents with the
old value. -/
theorem C58_mutation {Y : Type} (fn : List ℝ → Except Err Y) (m : Mem) {a : Nat} (ha : a < m.cells.length) {v : Y} (hv : fn (m.read a) = .ok v) (w : List ℝ) :
    let s := Mem.run fn (m, Objective.init 0 1) [.call (.f a), .mutate a w]
    s.2.log = [(0, a, v)] ∧ s.1.read a = w := by
  simp only [Mem.run, List.foldl_cons, List.foldl_nil, Mem.step, Objective.step, Objective.eval, hv, Objective.init]
  exact ⟨by simp, read_write ha w⟩

/-- **C58, the unrestricted claim is false.** -/
theorem C58_claim_false : ¬ ∀ (fn : List ℝ → Except Err ℝ) (m : Mem) (l : List MemOp) (k a : Nat) (v : ℝ),
    (k, a, v) ∈ (Mem.run fn (m, Objective.init 0 1) l).2.log → fn ((Mem.run fn (m, Objective.init 0 1) l).1.read a) = .ok v := by
  intro h
  have h1 := C58_mutation (fun x => .ok x.sum) ⟨[[1, 2]]⟩ (a := 0) (by decide) (v := 3) (by simp [Mem.read]; norm_num) [5, 5]
  have := h (fun x => .ok x.sum) ⟨[[1, 2]]⟩ [.call (.f 0), .mutate 0 [5, 5]] 0 0 3 (by rw [h1.1]; simp)
  rw [h1.2] at this
  have := Except.ok.inj this
  norm_num at this

/-- Non-vacuity of `C58_log`: a write before the evaluation, then a write to another array. -/
example : ∃ k a v, (k, a, v) ∈ (Mem.run (fun x => .ok x.sum) ((⟨[[1, 2], [7]]⟩ : Mem), (Objective.init 0 1 : Objective Nat ℝ))
    [.mutate 0 [5, 5], .call (.f 0), .mutate 1 [0]]).2.log := by
  refine ⟨0, 0, 10, ?_⟩
  simp [Mem.run, Mem.step, Objective.step, Objective.eval, Objective.init, Mem.read, Mem.write]
  norm_num

/-! ### C68 -/

/-- **C68.** If the two functions return vectors, the check raises (`ValueError`) exactly when the distance exceeds the tolerance. -/
theorem C68_check {s : Precond} {n : Nat} {v w u : Fin n → ℝ} (h1 : s.precondition (vecOf v) = .ok (vecOf w)) (h2 : s.unprecondition (vecOf w) = .ok (vecOf u))
    (tol : ℝ) : (tol < Real.sqrt (∑ i, (v i - u i) ^ 2) → ∃ msg, s.check (vecOf v) tol = .error (.valueError msg)) ∧
      (Real.sqrt (∑ i, (v i - u i) ^ 2) ≤ tol → s.check (vecOf v) tol = .ok ()) := by
  have hn : norm (vecOf fun i => v i - u i) = Real.sqrt (∑ i, (v i - u i) ^ 2) := by
    rw [norm_vec]; simp [pow_two]
  have hc : s.check (vecOf v) tol = if decide (norm (vecOf fun i => v i - u i) > tol) then
      .error (.valueError "``a_times`` does not invert ``a_inv_times``.") else .ok () := by
    rw [Precond.precondition] at h1
    rw [Precond.unprecondition] at h2
    simp only [Precond.check, h1, h2, sub_vec, bind, Except.bind, throw, throwThe, MonadExceptOf.throw, pure, Except.pure]
    rfl
  rw [hc, hn]
  refine ⟨fun h => ⟨"``a_times`` does not invert ``a_inv_times``.", ?_⟩, fun h => ?_⟩
  · rw [if_pos (by simpa using h)]
  · rw [if_neg (by simpa using h)]

/-- **C68, inverse functions.** The check passes for every non-negative tolerance. -/
theorem C68_inverse {s : Precond} {n : Nat} (hi : Spec.Inverse s n) (v : Fin n → ℝ) {tol : ℝ} (ht : 0 ≤ tol) : s.check (vecOf v) tol = .ok () := by
  obtain ⟨⟨w, h1, h2⟩, -⟩ := hi v
  refine (C68_check h1 h2 tol).2 ?_
  simpa using ht

/-- **C68, exceptions of the functions.** They are passed on. -/
theorem C68_raises {s : Precond} {v : NDArray ℝ} (tol : ℝ) {e : Err} :
    (s.precondition v = .error e → s.check v tol = .error e) ∧
      ∀ w, s.precondition v = .ok w → s.unprecondition w = .error e → s.check v tol = .error e := by
  refine ⟨fun h => ?_, fun w h1 h2 => ?_⟩
  · rw [Precond.precondition] at h
    simp only [Precond.check, h, bind, Except.bind]
  · rw [Precond.precondition] at h1
    rw [Precond.unprecondition] at h2
    simp only [Precond.check, h1, h2, bind, Except.bind]

/-- Non-vacuity: a pair that is not inverse fails the check at tolerance 4 and passes it at tolerance 5. -/
example (eigh : Eigh) (auto : NDArray ℝ → Except Err MatArg) : ∃ s, Precond.init.step eigh auto (.setFunctions .ok (fun _ => .ok (vecOf ![0, 0]))) = .ok s ∧
    (∃ msg, s.check (vecOf ![3, 4]) 4 = .error (.valueError msg)) ∧ s.check (vecOf ![3, 4]) 5 = .ok () := by
  obtain ⟨s, h, h1, h2⟩ := C54_functions eigh auto .ok (fun _ => .ok (vecOf ![0, 0])) Precond.init
  have hc := C68_check (v := ![3, 4]) (w := ![0, 0]) (u := ![0, 0]) (h2 _) (h1 _)
  have e : Real.sqrt (∑ i, ((![3, 4] : Fin 2 → ℝ) i - (![0, 0] : Fin 2 → ℝ) i) ^ 2) = 5 := by
    rw [show (∑ i, ((![3, 4] : Fin 2 → ℝ) i - (![0, 0] : Fin 2 → ℝ) i) ^ 2) = 5 ^ 2 by simp; norm_num]
    simp
  exact ⟨s, h, (hc 4).1 (by rw [e]; norm_num), (hc 5).2 (by rw [e])⟩

/-! ### C73 -/

/-- **C73.** A one-dimensional Hessian `a` (for instance a diagonal) is not rejected: it is used as the matrix `(a_i + a_j) / 2`. -/
theorem C73_vector_hessian (eigh : Eigh) (auto : NDArray ℝ → Except Err MatArg) {n : Nat} (a : Fin n → ℝ) (lo hi : Option Threshold) (s : Precond) :
    s.step eigh auto (.withHessian none (some ⟨vecOf a, false⟩) lo hi) =
      s.step eigh auto (.withHessian none (some ⟨ofMatrix (Matrix.of fun i j : Fin n => 1 / 2 * (a i + a j)), false⟩) lo hi) := by
  have h : symmetrize (atleast2d (vecOf a)) = symmetrize (atleast2d (ofMatrix (Matrix.of fun i j : Fin n => 1 / 2 * (a i + a j)))) := by
    rw [symmetrize_mat, symPart_of_symm (by ext i j; simp [add_comm])]
    have e : atleast2d (vecOf a) = ⟨[1, n], List.ofFn a⟩ := by simp [atleast2d, vecOf, vec]
    rw [e, symmetrize]
    by_cases h1 : n = 1
    · subst h1
      simp only [if_true]
      congr 2
      ext i j
      fin_cases i; fin_cases j
      simp
    · simp only [if_neg (Ne.symm h1), if_true, if_neg h1]
      congr 2
      ext i j
      simp [add_comm]
  have h' : symMatrixInvSqrtFuncs eigh (vecOf a) lo hi = symMatrixInvSqrtFuncs eigh (ofMatrix (Matrix.of fun i j : Fin n => 1 / 2 * (a i + a j))) lo hi := by
    simp only [symMatrixInvSqrtFuncs, h]
  simp only [Precond.step, Precond.withHessian, Option.isSome_none, Bool.false_eq_true, false_and, if_false, bind, Except.bind, pure, Except.pure, h']

/-- **C73, consequence.** From dimension 2 on that matrix is never positive definite, so without thresholds there is no valid
preconditioner. -/
theorem C73_never_positive {n : Nat} (a : Fin (n + 2) → ℝ) : ∃ v : Fin (n + 2) → ℝ, v ≠ 0 ∧
    dotProduct v ((Matrix.of fun i j : Fin (n + 2) => 1 / 2 * (a i + a j)).mulVec v) = 0 := by
  refine ⟨Pi.single 0 1 - Pi.single 1 1, ?_, ?_⟩
  · intro h
    have := congrFun h 0
    simp at this
  · rw [Matrix.mulVec_sub, dotProduct_sub, sub_dotProduct, sub_dotProduct]
    simp
    ring

/-- Non-vacuity: the diagonal `(4, 9)` is used as `[[4, 6.5], [6.5, 9]]`. -/
example (eigh : Eigh) (auto : NDArray ℝ → Except Err MatArg) : ∃ s,
    Precond.init.step eigh auto (.withHessian none (some ⟨vecOf ![4, 9], false⟩) none none) = .ok s := by
  rw [C73_vector_hessian eigh auto]
  obtain ⟨f, g, h, -⟩ := symSqrt_eq eigh (Matrix.of fun i j : Fin 2 => 1 / 2 * ((![4, 9] : Fin 2 → ℝ) i + (![4, 9] : Fin 2 → ℝ) j)) none none
  exact ⟨⟨g, f⟩, by
    simp only [Precond.step, Precond.withHessian, Option.isSome_none, Bool.false_eq_true, false_and, if_false, bind, Except.bind, pure, Except.pure]
    erw [h]⟩

end Paragami
