import Verif.Proofs.CholeskyRule
import Verif.Props.Jacobians

/-! # The freeing Jacobian of positive definite matrices (C90) -/

namespace Paragami
open NDArray Pattern Spec Topology

/-- **C90, inverse.**  In every tree, with matrices, the product of the freeing and the unfreeing Jacobian is the identity. -/
theorem C90_inverse {ad : AutogradJacobian} (had : AutogradSpec ad) (hch : AutogradCholesky ad) {p : Pattern} (hp : Built p) (hf : p.FiniteLb)
    (he : NoEmptyBlocks p) {v : Val Flt} (hI : Interior p v) :
    ∃ (n m : Nat) (A : Matrix (Fin m) (Fin n) ℝ) (B : Matrix (Fin n) (Fin m) ℝ),
      p.flatLength (some false) = .ok n ∧ p.flatLength (some true) = .ok m ∧
      freeingJacobian ad p v = .ok ⟨[m, n], matData A⟩ ∧ unfreeingJacobian ad p v = .ok ⟨[n, m], matData B⟩ ∧ A * B = 1 := by
  obtain ⟨M, N, h1, h2, -, -, h3⟩ := Jac.inverse_all had hch p hp.wf hf he v hI
  refine ⟨p.flatLen false, p.flatLen true, Jac.mat _ _ M, Jac.mat _ _ N, rfl, rfl, by rw [h1]; exact congrArg _ (matData_of _ _ M),
    by rw [h2]; exact congrArg _ (matData_of _ _ N), ?_⟩
  ext i k
  have := h3 i i.2 k k.2
  simp only at this
  rw [Matrix.mul_apply, Matrix.one_apply]
  simp only [Jac.mat, Matrix.of_apply, Fin.ext_iff]
  rw [← this, Finset.sum_range]

/-- **C90, derivative along values.**  Let values strictly inside the constraint set depend on a parameter, differentiably in their flat vectors.
Then their free vectors depend differentiably on the parameter, and the derivative is the freeing Jacobian times the derivative of
the flat vectors. -/
theorem C90_along_values {ad : AutogradJacobian} (had : AutogradSpec ad) (hch : AutogradCholesky ad) {p : Pattern} (hp : Built p)
    (hf : p.FiniteLb) (he : NoEmptyBlocks p) {m n : Nat} (hm : p.flatLength (some true) = .ok m) (hn : p.flatLength (some false) = .ok n)
    {E : Type} [NormedAddCommGroup E] [NormedSpace ℝ E] (val : E → Val Flt) (x : E → Fin n → ℝ) (y : E → Fin m → ℝ) {e : E}
    {X : E →L[ℝ] (Fin n → ℝ)} (hX : HasFDerivAt x X e)
    (hv : ∀ᶠ u in 𝓝 e, Interior p (val u) ∧ p.flatten (val u) (some false) = .ok (vec (List.ofFn fun j => .fin (x u j))) ∧
      p.flatten (val u) (some true) = .ok (vec (List.ofFn fun i => .fin (y u i)))) :
    ∃ A : Matrix (Fin m) (Fin n) ℝ, freeingJacobian ad p (val e) = .ok ⟨[m, n], matData A⟩ ∧
      HasFDerivAt y ((LinearMap.toContinuousLinearMap A.mulVecLin).comp X) e :=
  Jac.along_values had hch hp.wf hf he (by simpa [flatLength_some] using hm) (by simpa [flatLength_some] using hn) hX hv

/-- **C90, symmetry.**  In the freeing Jacobian of a matrix the columns of entries `(i, j)` and `(j, i)` are equal. -/
theorem C90_symmetric {ad : AutogradJacobian} (had : AutogradSpec ad) (hch : AutogradCholesky ad) {n : Nat} {lb : PyNum} {dv fd}
    (hp : Built (.psd n lb dv fd)) (hf : (Pattern.psd n lb dv fd).FiniteLb) {v : Val Flt} (hI : Interior (.psd n lb dv fd) v) :
    ∃ A : Matrix (Fin (n * (n + 1) / 2)) (Fin (n * n)) ℝ, freeingJacobian ad (.psd n lb dv fd) v = .ok ⟨[n * (n + 1) / 2, n * n], matData A⟩ ∧
      ∀ c (i j : Fin n) (h : i * n + j < n * n) (h' : j * n + i < n * n), A c ⟨i * n + j, h⟩ = A c ⟨j * n + i, h'⟩ := by
  cases v with
  | dict d => simp [Interior] at hI
  | arr a =>
  obtain ⟨l, hl⟩ := Flt.isFin_iff.mp hf
  obtain ⟨r, hr, ha, h3, -⟩ := Jac.psd_leaf had hch hp.wf hf hl hI
  refine ⟨Jac.mat _ _ (Jac.ruleM n (Jac.factor n r)), by rw [h3]; exact congrArg _ (matData_of _ _ _), fun c i j h h' => ?_⟩
  have hdiv : ∀ i j : Fin n, ((i : Nat) * n + j) / n = i ∧ ((i : Nat) * n + j) % n = j := by
    intro i j
    have := i.2
    rw [Nat.mul_comm, Nat.mul_add_div (by omega), Nat.mul_add_mod, Nat.div_eq_of_lt j.2, Nat.mod_eq_of_lt j.2, Nat.add_zero]
    exact ⟨rfl, rfl⟩
  simp only [Jac.mat, Matrix.of_apply, Jac.ruleM, hdiv, i.2, j.2, and_self, dite_true, Fin.eta]
  exact Jac.row_symm _ _ _ _

/-- **C90, not the derivative of the map.**  The Jacobian that `freeing_jacobian` returns for a matrix with two or more rows is not the Jacobian of
the map from flat vectors to free vectors: the map does not read the upper triangle. -/
theorem C90_not_derivative {ad : AutogradJacobian} (had : AutogradSpec ad) (hch : AutogradCholesky ad) {n : Nat} {lb : PyNum} {dv fd}
    (hp : Built (.psd n lb dv fd)) (hf : (Pattern.psd n lb dv fd).FiniteLb) (hn : 2 ≤ n) {v : Val Flt} (hI : Interior (.psd n lb dv fd) v) :
    ∃ J, freeingJacobian ad (.psd n lb dv fd) v = .ok J ∧ ¬ IsFreeingJacobian (.psd n lb dv fd) v J :=
  Jac.not_derivative had hch hp.wf hf hn hI

/-- **C90, the map has a Jacobian.**  In every tree, with matrices, the map from flat vectors to free vectors is differentiable at every value
strictly inside the constraint set. -/
theorem C90_map_differentiable {p : Pattern} (hp : Built p) (hf : p.FiniteLb) (he : NoEmptyBlocks p) {v : Val Flt} (hI : Interior p v) :
    ∃ J, IsFreeingJacobian p v J :=
  Jac.freeing_differentiable hp.wf hf he hI

/-! ### Examples -/

/-- C90 is not vacuous: there is an `autograd.jacobian` with both assumed properties, and a tree with a matrix and a value in it. -/
example : (∃ ad, AutogradSpec ad ∧ AutogradCholesky ad) ∧ Built exPat ∧ exPat.FiniteLb ∧ NoEmptyBlocks exPat ∧ ∃ v, Interior exPat v :=
  ⟨Jac.autogradSpecs_exist, exPat_built, exPat_finiteLb, by simp [exPat, exInner, NoEmptyBlocks, NoEmptyBlocksEs], by
    obtain ⟨v, _, _, _, h, _⟩ := exPat_value; exact ⟨v, h⟩⟩

/-- What the rules give at a matrix with the identity as its factor: the row of the entry below the diagonal has one half in both columns. -/
example : CholeskyRule.jacobian (1 : Matrix (Fin 2) (Fin 2) ℝ) = ⟨[3, 4], [.fin (1 / 2), .fin 0, .fin 0, .fin 0,
    .fin 0, .fin (1 / 2), .fin (1 / 2), .fin 0, .fin 0, .fin 0, .fin 0, .fin (1 / 2)]⟩ := by
  simp [CholeskyRule.jacobian, ofFn2, List.range_succ, CholeskyRule.row, CholeskyRule.choleskyVjp, CholeskyRule.phi, CholeskyRule.logDiagVjp,
    CholeskyRule.takeVjp, symIndex]
  norm_num

/-- C90 is not vacuous for one matrix: the identity is strictly inside the set of 2 × 2 matrices without a bound. -/
example : Built (.psd 2 (.int 0) true none) ∧ (Pattern.psd 2 (.int 0) true none).FiniteLb ∧ ∃ v, Interior (.psd 2 (.int 0) true none) v := by
  have hw : (Pattern.psd 2 (.int 0) true none).WF := by simp [Pattern.WF, PyNum.toFlt, Flt.lt]
  obtain ⟨v, _, h, _⟩ := free_vec (.psd 2 (.int 0) true none) hw (by simp [FiniteLb, PyNum.toFlt, Flt.IsFin]) [0, 0, 0] (by simp [flatLen])
  exact ⟨WF.built _ hw, by simp [FiniteLb, PyNum.toFlt, Flt.IsFin], v, h⟩

end Paragami
