import Mathlib.Analysis.Matrix.Spectrum
import Mathlib.Analysis.Calculus.FDeriv.Comp
import Verif.Spec.Optimization
import Verif.Proofs.LinAlg
import Verif.Proofs.NonfreeTrip

/-! # Lemmas about `optimization_lib` -/

namespace Paragami
namespace Optimization
open NDArray LinAlg Pattern

/-! ### Eigenvalues -/

theorem raiseTo_eq (t : ℝ) (v : List ℝ) : raiseTo t v = v.map (Spec.clamp (some t) none) := by
  refine List.map_congr_left fun x _ => ?_
  simp only [Spec.clamp]
  split
  · rw [max_eq_right ‹_›]
  · rw [max_eq_left (le_of_lt (not_le.mp ‹_›))]

theorem lowerTo_eq (t : ℝ) (v : List ℝ) : lowerTo t v = v.map (Spec.clamp none (some t)) := by
  refine List.map_congr_left fun x _ => ?_
  simp only [Spec.clamp]
  split
  · rw [min_eq_right ‹_›]
  · rw [min_eq_left (le_of_lt (not_le.mp ‹_›))]

theorem read_alloc (m : Mem) (v : List ℝ) : (⟨m.cells ++ [v]⟩ : Mem).read m.cells.length = v := by
  simp [Mem.read]

theorem read_alloc_old (m : Mem) (v : List ℝ) {c : Nat} (hc : c < m.cells.length) : (⟨m.cells ++ [v]⟩ : Mem).read c = m.read c := by
  simp [Mem.read, List.getElem?_append_left hc]

theorem read_write {m : Mem} {a : Nat} (ha : a < m.cells.length) (v : List ℝ) : (m.write a v).read a = v := by
  simp [Mem.write, Mem.read, ha]

theorem read_write_ne (m : Mem) {a c : Nat} (h : c ≠ a) (v : List ℝ) : (m.write a v).read c = m.read c := by
  simp [Mem.write, Mem.read, List.getElem?_set_ne (Ne.symm h)]

theorem length_write (m : Mem) (a : Nat) (v : List ℝ) : (m.write a v).cells.length = m.cells.length := by
  simp [Mem.write]

theorem truncateIn_real (m : Mem) (a : Nat) (lo hi : Option ℝ) : ∃ m', truncateIn m a (lo.map .real) (hi.map .real) = .ok (m', m.cells.length) ∧
    m'.read m.cells.length = (m.read a).map (Spec.clamp lo hi) ∧ (∀ c < m.cells.length, m'.read c = m.read c) ∧
    m'.cells.length = m.cells.length + 1 := by
  have hl : (⟨m.cells ++ [m.read a]⟩ : Mem).cells.length = m.cells.length + 1 := by simp
  have hlt : m.cells.length < (⟨m.cells ++ [m.read a]⟩ : Mem).cells.length := by omega
  cases lo with
  | none =>
    cases hi with
    | none =>
      refine ⟨_, rfl, ?_, fun c hc => read_alloc_old m _ hc, hl⟩
      rw [read_alloc]; exact (List.map_id _).symm
    | some h =>
      refine ⟨_, rfl, ?_, fun c hc => ?_, ?_⟩
      · rw [read_write hlt, read_alloc, lowerTo_eq]
      · rw [read_write_ne _ (by omega), read_alloc_old m _ hc]
      · rw [length_write, hl]
  | some l =>
    cases hi with
    | none =>
      refine ⟨_, rfl, ?_, fun c hc => ?_, ?_⟩
      · rw [read_write hlt, read_alloc, raiseTo_eq]
      · rw [read_write_ne _ (by omega), read_alloc_old m _ hc]
      · rw [length_write, hl]
    | some h =>
      refine ⟨_, rfl, ?_, fun c hc => ?_, ?_⟩
      · rw [read_write (by rw [length_write]; exact hlt), read_write hlt, read_alloc, lowerTo_eq, raiseTo_eq, List.map_map]
        rfl
      · rw [read_write_ne _ (by omega), read_write_ne _ (by omega), read_alloc_old m _ hc]
      · rw [length_write, length_write, hl]

theorem truncate_real (d : List ℝ) (lo hi : Option ℝ) : truncate d (lo.map .real) (hi.map .real) = .ok (d.map (Spec.clamp lo hi)) := by
  obtain ⟨m', h1, h2, -⟩ := truncateIn_real ⟨[d]⟩ 0 lo hi
  rw [truncate, h1]
  simp only [bind, Except.bind, h2, pure, Except.pure]
  rfl

/-! ### Eigenspaces -/

/-- The matrix of `transform_eigenspace`. -/
noncomputable def eigMat {n k : Nat} (U : Matrix (Fin n) (Fin k) ℝ) (d : Fin k → ℝ) : Matrix (Fin n) (Fin n) ℝ :=
  1 + U * Matrix.diagonal (d - 1) * U.transpose

theorem transformEigenspace_eq {n k : Nat} (U : Matrix (Fin n) (Fin k) ℝ) (d d' : Fin k → ℝ) {tf : NDArray ℝ → NDArray ℝ}
    (h : tf (vecOf d) = vecOf d') : ∃ op, transformEigenspace (ofMatrix U) (vecOf d) tf = .ok op ∧ Spec.ActsAs op (eigMat U d') := by
  refine ⟨fun v => do
    let loadings ← matmul (← transpose (ofMatrix U)) v
    let scaled ← mul ((vecOf d').map (· - 1)) loadings
    add v (← matmul (ofMatrix U) scaled), ?_, ?_⟩
  · unfold transformEigenspace
    simp only [ndim, ofMatrix_shape, vecOf_shape, List.length_cons, List.length_nil, ne_eq, not_true, if_false, List.getElem?_cons_succ,
      List.getElem?_cons_zero, h]
    rfl
  · intro v
    simp only [bind, Except.bind, transpose_mat, matmul_vec, map_vec, mul_vec, add_vec]
    congr 2
    rw [eigMat, Matrix.add_mulVec, Matrix.one_mulVec, ← Matrix.mulVec_mulVec, ← Matrix.mulVec_mulVec]
    congr 2
    funext i
    rw [Matrix.mulVec_diagonal]
    rfl

theorem eigMat_col {n k : Nat} {U : Matrix (Fin n) (Fin k) ℝ} (hU : U.transpose * U = 1) (d : Fin k → ℝ) :
    eigMat U d * U = U * Matrix.diagonal d := by
  rw [eigMat, Matrix.add_mul, Matrix.one_mul, Matrix.mul_assoc, hU, Matrix.mul_one]
  have : (U : Matrix (Fin n) (Fin k) ℝ) = U * Matrix.diagonal 1 := by
    rw [show (Matrix.diagonal (1 : Fin k → ℝ)) = 1 from Matrix.diagonal_one, Matrix.mul_one]
  conv_lhs => lhs; rw [this]
  rw [← Matrix.mul_add, Matrix.diagonal_add]
  simp

theorem eigMat_orth {n k : Nat} {U : Matrix (Fin n) (Fin k) ℝ} (d : Fin k → ℝ) {v : Fin n → ℝ} (hv : U.transpose.mulVec v = 0) :
    (eigMat U d).mulVec v = v := by
  rw [eigMat, Matrix.add_mulVec, Matrix.one_mulVec, ← Matrix.mulVec_mulVec, hv, Matrix.mulVec_zero, add_zero]

/-- For a full orthonormal basis. -/
theorem eigMat_full {n : Nat} {U : Matrix (Fin n) (Fin n) ℝ} (hU : U.transpose * U = 1) (d : Fin n → ℝ) :
    eigMat U d = U * Matrix.diagonal d * U.transpose := by
  have hU' : U * U.transpose = 1 := mul_eq_one_comm.mp hU
  rw [← eigMat_col hU, Matrix.mul_assoc, hU', Matrix.mul_one]

theorem eigMat_mul {n : Nat} {U : Matrix (Fin n) (Fin n) ℝ} (hU : U.transpose * U = 1) (d e : Fin n → ℝ) :
    eigMat U d * eigMat U e = eigMat U (d * e) := by
  rw [eigMat_full hU, eigMat_full hU, eigMat_full hU]
  calc U * Matrix.diagonal d * U.transpose * (U * Matrix.diagonal e * U.transpose)
      = U * Matrix.diagonal d * (U.transpose * U) * Matrix.diagonal e * U.transpose := by simp only [Matrix.mul_assoc]
    _ = U * Matrix.diagonal (d * e) * U.transpose := by
      rw [hU, Matrix.mul_one, Matrix.mul_assoc U, Matrix.diagonal_mul_diagonal]; rfl

theorem eigMat_one {n : Nat} (U : Matrix (Fin n) (Fin n) ℝ) : eigMat U 1 = 1 := by
  simp [eigMat]

theorem eigMat_transpose {n k : Nat} (U : Matrix (Fin n) (Fin k) ℝ) (d : Fin k → ℝ) : (eigMat U d).transpose = eigMat U d := by
  rw [eigMat, Matrix.transpose_add, Matrix.transpose_one, Matrix.transpose_mul, Matrix.transpose_mul, Matrix.transpose_transpose,
    Matrix.diagonal_transpose, Matrix.mul_assoc]

theorem ActsAs.comp {f g : Op} {n m k : Nat} {A : Matrix (Fin m) (Fin n) ℝ} {B : Matrix (Fin k) (Fin m) ℝ} (hf : Spec.ActsAs f A)
    (hg : Spec.ActsAs g B) (v : Fin n → ℝ) : (f (vecOf v) >>= g) = .ok (vecOf ((B * A).mulVec v)) := by
  rw [hf v]
  exact (hg _).trans (by rw [Matrix.mulVec_mulVec])

/-! ### Square roots -/

/-- The symmetric part. -/
noncomputable def symPart {n : Nat} (M : Matrix (Fin n) (Fin n) ℝ) : Matrix (Fin n) (Fin n) ℝ := (1 / 2 : ℝ) • (M + M.transpose)

theorem symPart_transpose {n : Nat} (M : Matrix (Fin n) (Fin n) ℝ) : (symPart M).transpose = symPart M := by
  rw [symPart, Matrix.transpose_smul, Matrix.transpose_add, Matrix.transpose_transpose, add_comm]

theorem symPart_of_symm {n : Nat} {M : Matrix (Fin n) (Fin n) ℝ} (h : M.transpose = M) : symPart M = M := by
  rw [symPart, h]; ext i j; simp; ring

theorem symmetrize_mat {n : Nat} (M : Matrix (Fin n) (Fin n) ℝ) : symmetrize (atleast2d (ofMatrix M)) = .ok (ofMatrix (symPart M)) := by
  have e : atleast2d (ofMatrix M) = ofMatrix M := rfl
  rw [e, symmetrize]
  simp only [ofMatrix_shape, if_true]
  congr 2
  ext i j
  have key : ∀ a b : Fin n, (ofMatrix M).data.getD ((if n = 1 then 0 else (a : Nat)) * n + if n = 1 then 0 else (b : Nat)) 0 = M a b := by
    intro a b
    have h1 : (if n = 1 then 0 else (a : Nat)) = a := by split <;> omega
    have h2 : (if n = 1 then 0 else (b : Nat)) = b := by split <;> omega
    rw [h1, h2]
    exact congrFun (congrFun (toMatrix_ofMatrix M) a) b
  rw [key, key, symPart]
  simp

theorem symSqrt_eq (eigh : Eigh) {n : Nat} (M : Matrix (Fin n) (Fin n) ℝ) (lo hi : Option ℝ) :
    ∃ f g, symMatrixInvSqrtFuncs eigh (ofMatrix M) (lo.map .real) (hi.map .real) = .ok (f, g) ∧
      Spec.ActsAs f (eigMat (eigh n (symPart M)).2 fun i => Real.sqrt (Spec.clamp lo hi ((eigh n (symPart M)).1 i))) ∧
      Spec.ActsAs g (eigMat (eigh n (symPart M)).2 fun i => 1 / Real.sqrt (Spec.clamp lo hi ((eigh n (symPart M)).1 i))) := by
  have ev : vec ((List.ofFn (eigh n (symPart M)).1).map (Spec.clamp lo hi)) = vecOf fun i => Spec.clamp lo hi ((eigh n (symPart M)).1 i) := by
    rw [vecOf, List.map_ofFn]; rfl
  obtain ⟨f, hf, hf'⟩ := transformEigenspace_eq (eigh n (symPart M)).2 (fun i => Spec.clamp lo hi ((eigh n (symPart M)).1 i)) _
    (tf := fun a => a.map Real.sqrt) (map_vec _ _)
  obtain ⟨g, hg, hg'⟩ := transformEigenspace_eq (eigh n (symPart M)).2 (fun i => Spec.clamp lo hi ((eigh n (symPart M)).1 i)) _
    (tf := fun a => a.map fun x => 1 / Real.sqrt x) (map_vec _ _)
  refine ⟨f, g, ?_, hf', hg'⟩
  rw [symMatrixInvSqrtFuncs, symmetrize_mat]
  simp only [bind, Except.bind, len, ofMatrix_shape, toMatrix_ofMatrix, truncate_real, ev, hf, hg, pure, Except.pure]

/-- Mathlib's spectral theorem gives such an `eigh`. -/
theorem exists_eigh : ∃ eigh, Spec.EighSpec eigh := by
  classical
  refine ⟨fun n S => if h : S.transpose = S then
    have hS : S.IsHermitian := by rw [Matrix.IsHermitian, Matrix.conjTranspose_eq_transpose_of_trivial]; exact h
    (hS.eigenvalues, (hS.eigenvectorUnitary : Matrix (Fin n) (Fin n) ℝ)) else (0, 1), fun n S h => ?_⟩
  simp only [h, dif_pos]
  have hS : S.IsHermitian := by rw [Matrix.IsHermitian, Matrix.conjTranspose_eq_transpose_of_trivial]; exact h
  constructor
  · have := Unitary.coe_star_mul_self hS.eigenvectorUnitary
    rwa [Matrix.star_eq_conjTranspose, Matrix.conjTranspose_eq_transpose_of_trivial] at this
  · have := hS.spectral_theorem
    rw [Unitary.conjStarAlgAut_apply, Matrix.star_eq_conjTranspose, Matrix.conjTranspose_eq_transpose_of_trivial] at this
    exact this

/-- A function of a symmetric matrix does not depend on the chosen orthonormal eigenvectors. -/
theorem conj_unique {n : Nat} {U V : Matrix (Fin n) (Fin n) ℝ} (hU : U.transpose * U = 1) (hV : V.transpose * V = 1) {d e : Fin n → ℝ}
    (h : U * Matrix.diagonal d * U.transpose = V * Matrix.diagonal e * V.transpose) :
    (∀ f : ℝ → ℝ, U * Matrix.diagonal (fun i => f (d i)) * U.transpose = V * Matrix.diagonal (fun i => f (e i)) * V.transpose) ∧
      ∀ i, ∃ j, d i = e j := by
  have hU' : U * U.transpose = 1 := mul_eq_one_comm.mp hU
  have hV' : V * V.transpose = 1 := mul_eq_one_comm.mp hV
  obtain ⟨W, hW⟩ : ∃ W, W = U.transpose * V := ⟨_, rfl⟩
  have hUW : U * W = V := by rw [hW, ← Matrix.mul_assoc, hU', Matrix.one_mul]
  have h1 : Matrix.diagonal d * W = W * Matrix.diagonal e := by
    calc Matrix.diagonal d * W = (U.transpose * U) * Matrix.diagonal d * U.transpose * V := by rw [hU, Matrix.one_mul, hW, Matrix.mul_assoc]
      _ = U.transpose * (U * Matrix.diagonal d * U.transpose) * V := by simp only [Matrix.mul_assoc]
      _ = U.transpose * (V * Matrix.diagonal e * V.transpose) * V := by rw [h]
      _ = U.transpose * V * Matrix.diagonal e * (V.transpose * V) := by simp only [Matrix.mul_assoc]
      _ = W * Matrix.diagonal e := by rw [hV, Matrix.mul_one, hW]
  have h2 : ∀ i j, W i j = 0 ∨ d i = e j := by
    intro i j
    have := congrFun (congrFun h1 i) j
    rw [Matrix.diagonal_mul, Matrix.mul_diagonal, mul_comm] at this
    by_cases hw : W i j = 0
    · exact .inl hw
    · exact .inr (mul_left_cancel₀ hw this)
  refine ⟨fun f => ?_, fun i => ?_⟩
  · have h3 : Matrix.diagonal (fun i => f (d i)) * W = W * Matrix.diagonal (fun i => f (e i)) := by
      ext i j
      rw [Matrix.diagonal_mul, Matrix.mul_diagonal, mul_comm]
      rcases h2 i j with h | h
      · rw [h, zero_mul, zero_mul]
      · rw [h]
    calc U * Matrix.diagonal (fun i => f (d i)) * U.transpose
        = U * Matrix.diagonal (fun i => f (d i)) * U.transpose * (V * V.transpose) := by rw [hV', Matrix.mul_one]
      _ = U * (Matrix.diagonal (fun i => f (d i)) * W) * V.transpose := by rw [hW]; simp only [Matrix.mul_assoc]
      _ = U * W * Matrix.diagonal (fun i => f (e i)) * V.transpose := by rw [h3]; simp only [Matrix.mul_assoc]
      _ = V * Matrix.diagonal (fun i => f (e i)) * V.transpose := by rw [hUW]
  · by_contra hne
    push Not at hne
    have h4 : ∀ j, W i j = 0 := fun j => (h2 i j).resolve_right (hne j)
    have h5 : W * W.transpose = 1 := by
      rw [hW, Matrix.transpose_mul, Matrix.transpose_transpose]
      calc U.transpose * V * (V.transpose * U) = U.transpose * (V * V.transpose) * U := by simp only [Matrix.mul_assoc]
        _ = 1 := by rw [hV', Matrix.mul_one, hU]
    have := congrFun (congrFun h5 i) i
    rw [Matrix.mul_apply, Finset.sum_eq_zero (fun j _ => by rw [h4 j, zero_mul]), Matrix.one_apply_eq] at this
    exact zero_ne_one this

/-- The two operators, in terms of any eigendecomposition of the symmetric part. -/
theorem symSqrt_acts {eigh : Eigh} (he : Spec.EighSpec eigh) {n : Nat} {M V : Matrix (Fin n) (Fin n) ℝ} (lo hi : Option ℝ)
    (hV : V.transpose * V = 1) {e : Fin n → ℝ} (hM : (1 / 2 : ℝ) • (M + M.transpose) = V * Matrix.diagonal e * V.transpose) :
    ∃ f g, symMatrixInvSqrtFuncs eigh (ofMatrix M) (lo.map .real) (hi.map .real) = .ok (f, g) ∧
      Spec.ActsAs f (V * Matrix.diagonal (fun i => Real.sqrt (Spec.clamp lo hi (e i))) * V.transpose) ∧
      Spec.ActsAs g (V * Matrix.diagonal (fun i => 1 / Real.sqrt (Spec.clamp lo hi (e i))) * V.transpose) := by
  obtain ⟨f, g, h, hf, hg⟩ := symSqrt_eq eigh M lo hi
  obtain ⟨hU, hd⟩ := he n (symPart M) (symPart_transpose M)
  obtain ⟨h1, -⟩ := conj_unique hU hV (hd.symm.trans hM)
  rw [eigMat_full hU] at hf hg
  rw [h1 fun x => Real.sqrt (Spec.clamp lo hi x)] at hf
  rw [h1 fun x => 1 / Real.sqrt (Spec.clamp lo hi x)] at hg
  exact ⟨f, g, h, hf, hg⟩

theorem conj_mul {n : Nat} {V : Matrix (Fin n) (Fin n) ℝ} (hV : V.transpose * V = 1) (d e : Fin n → ℝ) :
    V * Matrix.diagonal d * V.transpose * (V * Matrix.diagonal e * V.transpose) = V * Matrix.diagonal (fun i => d i * e i) * V.transpose := by
  calc V * Matrix.diagonal d * V.transpose * (V * Matrix.diagonal e * V.transpose)
      = V * Matrix.diagonal d * (V.transpose * V) * Matrix.diagonal e * V.transpose := by simp only [Matrix.mul_assoc]
    _ = _ := by rw [hV, Matrix.mul_one, Matrix.mul_assoc V, Matrix.diagonal_mul_diagonal]

theorem conj_transpose {n : Nat} (V : Matrix (Fin n) (Fin n) ℝ) (d : Fin n → ℝ) :
    (V * Matrix.diagonal d * V.transpose).transpose = V * Matrix.diagonal d * V.transpose := by
  rw [Matrix.transpose_mul, Matrix.transpose_mul, Matrix.transpose_transpose, Matrix.diagonal_transpose, Matrix.mul_assoc]

theorem conj_one {n : Nat} {V : Matrix (Fin n) (Fin n) ℝ} (hV : V.transpose * V = 1) {d : Fin n → ℝ} (h : ∀ i, d i = 1) :
    V * Matrix.diagonal d * V.transpose = 1 := by
  rw [show d = fun _ => 1 from funext h]
  rw [show (Matrix.diagonal (fun _ : Fin n => (1 : ℝ))) = 1 from Matrix.diagonal_one, Matrix.mul_one]
  exact mul_eq_one_comm.mp hV

/-- A symmetric positive definite matrix has an eigendecomposition with positive eigenvalues. -/
theorem posDef_eig {n : Nat} {H : Matrix (Fin n) (Fin n) ℝ} (hH : H.transpose = H) (hp : ∀ v : Fin n → ℝ, v ≠ 0 → 0 < dotProduct v (H.mulVec v)) :
    ∃ (V : Matrix (Fin n) (Fin n) ℝ) (e : Fin n → ℝ), V.transpose * V = 1 ∧ H = V * Matrix.diagonal e * V.transpose ∧ ∀ i, 0 < e i := by
  obtain ⟨eigh, he⟩ := exists_eigh
  obtain ⟨h1, h2⟩ := he n H hH
  refine ⟨_, _, h1, h2, fun i => ?_⟩
  have hc : H * (eigh n H).2 = (eigh n H).2 * Matrix.diagonal (eigh n H).1 := by
    nth_rewrite 1 [h2]
    rw [Matrix.mul_assoc, h1, Matrix.mul_one]
  generalize (eigh n H).1 = d at hc ⊢
  generalize (eigh n H).2 = V at h1 hc
  have h3 : H.mulVec (V.col i) = d i • V.col i := by
    ext j
    have := congrFun (congrFun hc j) i
    rw [Matrix.mul_diagonal] at this
    simpa [Matrix.mulVec, dotProduct, Matrix.mul_apply, Matrix.col, mul_comm] using this
  have h4 : dotProduct (V.col i) (V.col i) = 1 := by
    have := congrFun (congrFun h1 i) i
    simpa [Matrix.mul_apply, dotProduct, Matrix.col] using this
  have h5 : V.col i ≠ 0 := by
    intro h; rw [h] at h4; simp at h4
  have h6 := hp _ h5
  rw [h3, dotProduct_smul, h4] at h6
  simpa using h6

/-! ### Preconditioners -/

theorem inverse_of_matrices {s : Precond} {n : Nat} {A B : Matrix (Fin n) (Fin n) ℝ} (hA : Spec.ActsAs s.aTimes A) (hB : Spec.ActsAs s.aInvTimes B)
    (h : A * B = 1) : Spec.Inverse s n := by
  have h' : B * A = 1 := mul_eq_one_comm.mp h
  refine fun v => ⟨⟨_, hB v, ?_⟩, _, hA v, ?_⟩
  · rw [hA, Matrix.mulVec_mulVec, h, Matrix.one_mulVec]
  · rw [hB, Matrix.mulVec_mulVec, h', Matrix.one_mulVec]

theorem sparseTimes_acts {n m : Nat} (M : Matrix (Fin n) (Fin m) ℝ) : Spec.ActsAs (sparseTimes (ofMatrix M)) M := by
  intro v
  have e : (vecOf v).atleast1d = vecOf v := by simp [vecOf, vec, atleast1d]
  simp only [sparseTimes, e]
  rw [if_neg (by simp [ndim, vecOf_shape]), matmul_vec]

theorem setMatrix_eq {n : Nat} (A : Matrix (Fin n) (Fin n) ℝ) (hA : A.det ≠ 0) (sp : Bool) :
    ∃ s, Precond.setMatrix ⟨ofMatrix A, sp⟩ none = .ok s ∧ Spec.ActsAs s.aTimes A ∧ Spec.ActsAs s.aInvTimes A⁻¹ := by
  have hi : inv (ofMatrix A) = .ok (ofMatrix A⁻¹) := by rw [inv_mat, if_neg hA]
  cases sp with
  | false =>
    refine ⟨⟨matmul (ofMatrix A), matmul (ofMatrix A⁻¹)⟩, ?_, matmul_vec A, matmul_vec A⁻¹⟩
    simp only [Precond.setMatrix, hi, bind, Except.bind]; rfl
  | true =>
    refine ⟨⟨sparseTimes (ofMatrix A), sparseTimes (ofMatrix A⁻¹)⟩, ?_, sparseTimes_acts A, sparseTimes_acts A⁻¹⟩
    simp only [Precond.setMatrix, sparseInv, hi, bind, Except.bind]; rfl

theorem setMatrix_given {n m n' m' : Nat} (A : Matrix (Fin n) (Fin m) ℝ) (B : Matrix (Fin n') (Fin m') ℝ) (sp sp' : Bool) :
    ∃ s, Precond.setMatrix ⟨ofMatrix A, sp⟩ (some ⟨ofMatrix B, sp'⟩) = .ok s ∧ Spec.ActsAs s.aTimes A ∧ Spec.ActsAs s.aInvTimes B := by
  cases sp with
  | false => exact ⟨⟨matmul (ofMatrix A), matmul (ofMatrix B)⟩, rfl, matmul_vec A, matmul_vec B⟩
  | true => exact ⟨⟨sparseTimes (ofMatrix A), sparseTimes (ofMatrix B)⟩, rfl, sparseTimes_acts A, sparseTimes_acts B⟩

theorem run_append (eigh : Eigh) (auto : NDArray ℝ → Except Err MatArg) (l l' : List PrecondOp) : ∀ s : Precond,
    s.run eigh auto (l ++ l') = (s.run eigh auto l).run eigh auto l' := by
  induction l with
  | nil => intro s; rfl
  | cons o l ih =>
    intro s
    rw [List.cons_append, Precond.run, Precond.run]
    split <;> exact ih _

theorem step_setter (eigh : Eigh) (auto : NDArray ℝ → Except Err MatArg) {o : PrecondOp} (h : Spec.IsSetter o) (s s' : Precond) :
    s.step eigh auto o = s'.step eigh auto o := by
  cases o <;> first | rfl | exact h.elim

theorem step_check (eigh : Eigh) (auto : NDArray ℝ → Except Err MatArg) {o : PrecondOp} (h : ¬ Spec.IsSetter o) {s s' : Precond}
    (hs : s.step eigh auto o = .ok s') : s' = s := by
  cases o with
  | check v tol =>
    simp only [Precond.step] at hs
    obtain ⟨u, -, hs⟩ := bind_ok hs
    cases hs; rfl
  | _ => exact absurd trivial h

theorem run_noop (eigh : Eigh) (auto : NDArray ℝ → Except Err MatArg) (l : List PrecondOp) (s : Precond)
    (h : ∀ o ∈ l, Spec.IsSetter o → ∃ e, s.step eigh auto o = .error e) : s.run eigh auto l = s := by
  induction l with
  | nil => rfl
  | cons o l ih =>
    have ih := ih fun o ho => h o (List.mem_cons_of_mem _ ho)
    rw [Precond.run]
    cases ho : s.step eigh auto o with
    | error e => exact ih
    | ok s' =>
      by_cases hs : Spec.IsSetter o
      · obtain ⟨e, he⟩ := h o (List.mem_cons_self ..) hs
        rw [he] at ho; cases ho
      · rw [step_check eigh auto hs ho]; exact ih

/-- The matrix of a linear operator. -/
theorem matrixFromOperator_eq {f : Op} {n m : Nat} {M : Matrix (Fin m) (Fin n) ℝ} (hf : Spec.ActsAs f M) (hn : 0 < n) :
    matrixFromOperator f n = .ok (ofMatrix M) := by
  have hb : ∀ i : Nat, ∀ hi : i < n, vec ((List.replicate n (0 : ℝ)).set i 1) = vecOf (Pi.single (⟨i, hi⟩ : Fin n) (1 : ℝ)) := by
    intro i hi
    rw [vecOf]
    congr 1
    apply List.ext_getElem (by simp)
    intro j h1 h2
    simp only [List.getElem_set, List.getElem_replicate, List.getElem_ofFn, Pi.single_apply, Fin.ext_iff]
    by_cases h : i = j
    · simp [h]
    · simp [h, Ne.symm h]
  have hrows : mapE (fun i => f (vec ((List.replicate n 0).set i 1))) (List.range n) =
      .ok (List.ofFn fun i : Fin n => vecOf (M.transpose i)) := by
    have : ∀ l : List Nat, (∀ i ∈ l, i < n) → mapE (fun i => f (vec ((List.replicate n 0).set i 1))) l =
        .ok (l.map fun i => if hi : i < n then vecOf (M.transpose ⟨i, hi⟩) else vecOf (M.transpose ⟨0, hn⟩)) := by
      intro l
      induction l with
      | nil => intro _; rfl
      | cons i l ih =>
        intro hl
        have hi := hl i (List.mem_cons_self ..)
        rw [mapE, hb i hi, hf, ih fun j hj => hl j (List.mem_cons_of_mem _ hj)]
        simp only [Matrix.mulVec_single_one, List.map_cons, dif_pos hi]
        rfl
    rw [this _ (fun i hi => List.mem_range.mp hi)]
    congr 1
    apply List.ext_getElem (by simp)
    intro i h1 h2
    have hi : i < n := by simpa using h2
    simp [hi]
  obtain ⟨k, rfl⟩ : ∃ k, n = k + 1 := ⟨n - 1, by omega⟩
  have hsh : ∀ i : Fin (k + 1), (vecOf (M.transpose i)).shape = [m] := fun i => vecOf_shape _
  rw [matrixFromOperator, hrows]
  simp only [bind, Except.bind, List.ofFn_succ, hsh]
  have hall : ((vecOf (M.transpose 0)) :: List.ofFn fun i : Fin k => vecOf (M.transpose i.succ)).all
      (fun s => s.shape == [m]) = true := by
    rw [List.all_eq_true]
    intro a ha
    rw [List.mem_cons, List.mem_ofFn] at ha
    rcases ha with rfl | ⟨i, rfl⟩
    · rw [hsh]; simp
    · rw [hsh]; simp
  rw [if_pos hall]
  have hd : (⟨[k + 1, m], ((vecOf (M.transpose 0)) :: List.ofFn fun i : Fin k => vecOf (M.transpose i.succ)).flatMap (·.data)⟩ : NDArray ℝ) =
      ofMatrix M.transpose := by
    rw [ofMatrix]
    congr 1
    rw [List.flatMap_def, List.ofFn_succ, List.map_cons, List.map_ofFn]
    rfl
  rw [hd, transpose_mat, Matrix.transpose_transpose]

/-! ### Second derivatives -/

/-- The second derivative of `f ∘ A` in terms of that of `f`. -/
theorem hasFDerivAt_fderiv_comp {n m : Nat} {f : (Fin m → ℝ) → ℝ} {A : (Fin n → ℝ) →L[ℝ] (Fin m → ℝ)} {u : Fin n → ℝ}
    {B : (Fin m → ℝ) →L[ℝ] ((Fin m → ℝ) →L[ℝ] ℝ)} (hd : ∀ᶠ y in nhds (A u), DifferentiableAt ℝ f y) (hB : HasFDerivAt (fderiv ℝ f) B (A u)) :
    ∃ C : (Fin n → ℝ) →L[ℝ] ((Fin n → ℝ) →L[ℝ] ℝ), HasFDerivAt (fderiv ℝ fun w => f (A w)) C u ∧ ∀ v w, C v w = B (A v) (A w) := by
  have h1 : (fderiv ℝ fun w => f (A w)) =ᶠ[nhds u] fun w => (fderiv ℝ f (A w)).comp A := by
    have : ∀ᶠ w in nhds u, DifferentiableAt ℝ f (A w) := A.continuous.continuousAt.eventually hd
    filter_upwards [this] with w hw
    exact (hw.hasFDerivAt.comp w A.hasFDerivAt).fderiv
  let L : ((Fin m → ℝ) →L[ℝ] ℝ) →L[ℝ] ((Fin n → ℝ) →L[ℝ] ℝ) := (ContinuousLinearMap.compL ℝ (Fin n → ℝ) (Fin m → ℝ) ℝ).flip A
  refine ⟨L.comp (B.comp A), HasFDerivAt.congr_of_eventuallyEq ?_ h1, fun v w => rfl⟩
  exact L.hasFDerivAt.comp u (hB.comp u A.hasFDerivAt)

/-- The Hessian after a linear change of variables. -/
theorem hasHessianAt_comp {n : Nat} {f : (Fin n → ℝ) → ℝ} {H R : Matrix (Fin n) (Fin n) ℝ} {x y : Fin n → ℝ} (hf : Spec.HasHessianAt f H x)
    (hx : R.mulVec y = x) : Spec.HasHessianAt (fun w => f (R.mulVec w)) (R.transpose * H * R) y := by
  obtain ⟨hd, B, hB, hBv⟩ := hf
  have hx : R.mulVecLin.toContinuousLinearMap y = x := hx
  rw [← hx] at hd hB
  refine ⟨?_, ?_⟩
  · have : ∀ᶠ w in nhds y, DifferentiableAt ℝ f (R.mulVecLin.toContinuousLinearMap w) :=
      R.mulVecLin.toContinuousLinearMap.continuous.continuousAt.eventually hd
    filter_upwards [this] with w hw
    exact hw.comp w R.mulVecLin.toContinuousLinearMap.differentiableAt
  · obtain ⟨C, hC, hCv⟩ := hasFDerivAt_fderiv_comp hd hB
    refine ⟨C, hC, fun v w => ?_⟩
    rw [hCv, hBv]
    change dotProduct (R.mulVec v) (H.mulVec (R.mulVec w)) = _
    rw [← Matrix.mulVec_mulVec, ← Matrix.mulVec_mulVec, Matrix.dotProduct_mulVec v, Matrix.vecMul_transpose]

/-! ### Counting and logging -/

section
variable {X Y : Type} (fn : X → Except Err Y)

theorem ok_or_error {ε Y : Type} (r : Except ε Y) : (∃ e, r = .error e) ∨ ∃ v, r = .ok v := by
  cases r with
  | error e => exact .inl ⟨e, rfl⟩
  | ok v => exact .inr ⟨v, rfl⟩

theorem filterMap_singleton' {A B : Type} (g : A → Option B) (a : A) : [a].filterMap g = (g a).toList := by
  cases h : g a <;> simp [h]

theorem run_concat (s : Objective X Y) (l : List (ObjOp X)) (o : ObjOp X) : s.run fn (l ++ [o]) = (s.run fn l).step fn o := by
  simp [Objective.run]

theorem iterations_concat (l : List (ObjOp X)) (o : ObjOp X) : Spec.iterations fn (l ++ [o]) =
    if Spec.resetsCount o then 0 else Spec.iterations fn l + if Spec.evaluates fn o then 1 else 0 := by
  simp only [Spec.iterations, List.reverse_append, List.reverse_singleton, List.singleton_append, List.takeWhile_cons]
  cases h : Spec.resetsCount o <;> simp [List.countP_cons]

theorem logEveryAt_concat (i : ℤ) (l : List (ObjOp X)) (o : ObjOp X) : Spec.logEveryAt i (l ++ [o]) =
    match o with | .setLogEvery n => n | _ => Spec.logEveryAt i l := by
  simp only [Spec.logEveryAt, List.reverse_append, List.reverse_singleton, List.singleton_append, List.findSome?_cons]
  cases o <;> rfl

theorem printEveryAt_concat (i : ℤ) (l : List (ObjOp X)) (o : ObjOp X) : Spec.printEveryAt i (l ++ [o]) =
    match o with | .setPrintEvery n => n | _ => Spec.printEveryAt i l := by
  simp only [Spec.printEveryAt, List.reverse_append, List.reverse_singleton, List.singleton_append, List.findSome?_cons]
  cases o <;> rfl

theorem run_counters (p q : ℤ) (l : List (ObjOp X)) :
    let s := (Objective.init p q : Objective X Y).run fn l
    s.numEvals = Spec.iterations fn l ∧ s.logEvery = Spec.logEveryAt q l ∧ s.printEvery = Spec.printEveryAt p l := by
  induction l using List.reverseRecOn with
  | nil => exact ⟨rfl, rfl, rfl⟩
  | append_singleton l o ih =>
    obtain ⟨h1, h2, h3⟩ := ih
    simp only [run_concat, iterations_concat, logEveryAt_concat, printEveryAt_concat]
    cases o with
    | f x =>
      obtain ⟨e, hx⟩ | ⟨v, hx⟩ := ok_or_error (fn x) <;>
        simp [Objective.step, Objective.eval, Spec.resetsCount, Spec.evaluates, hx, h1, h2, h3]
    | setPrintEvery n => exact ⟨by simpa [Objective.step, Spec.resetsCount, Spec.evaluates] using h1, h2, rfl⟩
    | setLogEvery n => exact ⟨by simpa [Objective.step, Spec.resetsCount, Spec.evaluates] using h1, rfl, h3⟩
    | reset => exact ⟨rfl, h2, h3⟩
    | resetIterationCount => exact ⟨rfl, h2, h3⟩
    | resetLog => exact ⟨by simpa [Objective.step, Spec.resetsCount, Spec.evaluates] using h1, h2, h3⟩

theorem logEntry_concat_lt (q : ℤ) (l : List (ObjOp X)) (o : ObjOp X) {i : Nat} (hi : i < l.length) :
    Spec.logEntry fn q (l ++ [o]) i = if Spec.resetsLog o then none else Spec.logEntry fn q l i := by
  simp only [Spec.logEntry, List.getElem?_append_left hi, List.take_append_of_le_length hi.le, List.drop_append_of_le_length (Nat.succ_le_of_lt hi),
    List.all_append, List.all_cons, List.all_nil, Bool.and_true]
  cases l[i]? with
  | none => simp
  | some o' =>
    cases o' <;> simp only [ite_self]
    split
    · cases Spec.resetsLog o <;> simp
    · simp

theorem logEntry_concat_eq (q : ℤ) (l : List (ObjOp X)) (o : ObjOp X) : Spec.logEntry fn q (l ++ [o]) l.length =
    match o with
    | .f x => match fn x with
      | .ok v => if 0 < Spec.logEveryAt q l ∧ Spec.logEveryAt q l ∣ Spec.iterations fn l then some (Spec.iterations fn l, x, v) else none
      | .error _ => none
    | _ => none := by
  simp only [Spec.logEntry, List.getElem?_append_right le_rfl, Nat.sub_self, List.getElem?_cons_zero, List.take_left']
  cases o with
  | f x => obtain ⟨e, hx⟩ | ⟨v, hx⟩ := ok_or_error (fn x) <;> simp [hx]
  | _ => rfl

theorem run_log (p q : ℤ) (l : List (ObjOp X)) :
    ((Objective.init p q : Objective X Y).run fn l).log = (List.range l.length).filterMap (Spec.logEntry fn q l) := by
  induction l using List.reverseRecOn with
  | nil => rfl
  | append_singleton l o ih =>
    obtain ⟨h1, h2, h3⟩ := run_counters (Y := Y) fn p q l
    have e : (List.range l.length).filterMap (Spec.logEntry fn q (l ++ [o])) =
        if Spec.resetsLog o then [] else (List.range l.length).filterMap (Spec.logEntry fn q l) := by
      by_cases ho : Spec.resetsLog o
      · rw [if_pos ho, List.filterMap_eq_nil_iff]
        intro i hi
        rw [logEntry_concat_lt fn q l o (List.mem_range.mp hi), if_pos ho]
      · rw [if_neg ho]
        exact List.filterMap_congr fun i hi => by rw [logEntry_concat_lt fn q l o (List.mem_range.mp hi), if_neg ho]
    rw [run_concat, List.length_append, List.length_singleton, List.range_succ, List.filterMap_append, e, filterMap_singleton',
      logEntry_concat_eq]
    cases o with
    | f x =>
      obtain ⟨e, hx⟩ | ⟨v, hx⟩ := ok_or_error (fn x)
      · simp [Objective.step, Objective.eval, Spec.resetsLog, hx, ih]
      · simp only [Objective.step, Objective.eval, Spec.resetsLog, hx, h1, h2, ih, Int.dvd_iff_emod_eq_zero]
        split <;> simp
    | _ => simp [Objective.step, Spec.resetsLog, ih]

theorem printEntry_concat_lt (q : ℤ) (l : List (ObjOp X)) (o : ObjOp X) {i : Nat} (hi : i < l.length) :
    Spec.printEntry fn q (l ++ [o]) i = Spec.printEntry fn q l i := by
  simp only [Spec.printEntry, List.getElem?_append_left hi, List.take_append_of_le_length hi.le]

theorem run_print (p q : ℤ) (l : List (ObjOp X)) :
    ((Objective.init p q : Objective X Y).run fn l).printed = (List.range l.length).filterMap (Spec.printEntry fn p l) := by
  induction l using List.reverseRecOn with
  | nil => rfl
  | append_singleton l o ih =>
    obtain ⟨h1, h2, h3⟩ := run_counters (Y := Y) fn p q l
    have e : (List.range l.length).filterMap (Spec.printEntry fn p (l ++ [o])) = (List.range l.length).filterMap (Spec.printEntry fn p l) :=
      List.filterMap_congr fun i hi => by rw [printEntry_concat_lt fn p l o (List.mem_range.mp hi)]
    have e' : Spec.printEntry fn p (l ++ [o]) l.length =
        match o with
        | .f x => match fn x with
          | .ok v => if 0 < Spec.printEveryAt p l ∧ Spec.printEveryAt p l ∣ Spec.iterations fn l then some (Spec.iterations fn l, v) else none
          | .error _ => none
        | _ => none := by
      simp only [Spec.printEntry, List.getElem?_append_right le_rfl, Nat.sub_self, List.getElem?_cons_zero, List.take_left']
      cases o with
      | f x => obtain ⟨e, hx⟩ | ⟨v, hx⟩ := ok_or_error (fn x) <;> simp [hx]
      | _ => rfl
    rw [run_concat, List.length_append, List.length_singleton, List.range_succ, List.filterMap_append, e, filterMap_singleton', e']
    cases o with
    | f x =>
      obtain ⟨e, hx⟩ | ⟨v, hx⟩ := ok_or_error (fn x)
      · simp [Objective.step, Objective.eval, hx, ih]
      · simp only [Objective.step, Objective.eval, hx, h1, h3, ih, Int.dvd_iff_emod_eq_zero]
        split <;> simp
    | _ => simp [Objective.step, ih]

end

end Optimization
end Paragami
