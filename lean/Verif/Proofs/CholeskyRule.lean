import Verif.Spec.CholeskyRule
import Verif.Proofs.JacobianInv
import Verif.Proofs.CholeskyDiff
import Mathlib.LinearAlgebra.Matrix.Block
import Mathlib.LinearAlgebra.Matrix.Trace

/-! # autograd's rule for the Cholesky factor -/

namespace Paragami
open NDArray Pattern Topology Spec

namespace Jac
open CholeskyRule Matrix
variable {n : Nat}

/-- The inner product of matrices. -/
def inner (P Q : Matrix (Fin n) (Fin n) ℝ) : ℝ := ∑ i, ∑ j, P i j * Q i j

theorem inner_eq (P Q : Matrix (Fin n) (Fin n) ℝ) : inner P Q = (P.transpose * Q).trace := by
  simp only [inner, Matrix.trace, Matrix.diag, Matrix.mul_apply, Matrix.transpose_apply]
  exact Finset.sum_comm

theorem inner_symm_part {S D : Matrix (Fin n) (Fin n) ℝ} (hD : D.transpose = D) :
    inner ((2 : ℝ)⁻¹ • (S + S.transpose)) D = inner S D := by
  have h : (S * D).trace = (S.transpose * D).trace := by
    rw [← Matrix.trace_transpose (S * D), Matrix.transpose_mul, hD, Matrix.trace_mul_comm]
  rw [inner_eq, inner_eq]
  simp only [Matrix.transpose_smul, Matrix.transpose_add, Matrix.transpose_transpose, Matrix.smul_mul, Matrix.add_mul, Matrix.trace_smul,
    Matrix.trace_add, h, smul_eq_mul]
  ring

/-- `phi` is the adjoint of symmetrization on lower triangular matrices. -/
theorem inner_phi {Y K : Matrix (Fin n) (Fin n) ℝ} (hK : ∀ i j, i < j → K i j = 0) : inner (phi Y) (K + K.transpose) = inner Y K := by
  unfold inner
  refine Finset.sum_congr rfl fun i _ => Finset.sum_congr rfl fun j _ => ?_
  simp only [phi, Matrix.of_apply, Matrix.add_apply, Matrix.transpose_apply]
  rcases lt_trichotomy i j with h | h | h
  · simp [not_le.mpr h, hK i j h]
  · subst h
    simp
    ring
  · simp [h.le, h.ne', hK j i h]

/-- **The reverse rule is the derivative along symmetric directions.** -/
theorem inner_choleskyVjp {L dL : Matrix (Fin n) (Fin n) ℝ} (g : Matrix (Fin n) (Fin n) ℝ) (hz : ∀ i j, i < j → L i j = 0)
    (hp : ∀ i, 0 < L i i) (hd : ∀ i j, i < j → dL i j = 0) :
    inner (choleskyVjp L g) (dL * L.transpose + L * dL.transpose) = inner g dL := by
  have hbt : L.BlockTriangular OrderDual.toDual := fun i j h => hz i j h
  have hdet : IsUnit L.det := by
    rw [Matrix.det_of_isLowerTriangular L hbt]
    exact isUnit_iff_ne_zero.mpr (Finset.prod_ne_zero_iff.mpr fun i _ => (hp i).ne')
  have : Invertible L := Matrix.invertibleOfIsUnitDet L hdet
  have hbi := Matrix.blockTriangular_inv_of_blockTriangular hbt
  have hK : ∀ i j, i < j → (L⁻¹ * dL) i j = 0 := fun i j h => (hbi.mul (fun i j h => hd i j h : dL.BlockTriangular OrderDual.toDual)) h
  have hLL : L⁻¹ * L = 1 := Matrix.nonsing_inv_mul L hdet
  have hLL' : L * L⁻¹ = 1 := Matrix.mul_nonsing_inv L hdet
  have hTT : L.transpose * L⁻¹.transpose = 1 := by rw [← Matrix.transpose_mul, hLL, Matrix.transpose_one]
  have hsym : (dL * L.transpose + L * dL.transpose).transpose = dL * L.transpose + L * dL.transpose := by
    simp [Matrix.transpose_add, Matrix.transpose_mul, add_comm]
  rw [choleskyVjp, inner_symm_part hsym, inner_eq, ← Matrix.transpose_nonsing_inv]
  simp only [Matrix.transpose_mul, Matrix.transpose_transpose, Matrix.mul_assoc, Matrix.transpose_nonsing_inv]
  simp only [← Matrix.transpose_nonsing_inv]
  have e : L⁻¹ * (dL * L.transpose + L * dL.transpose) * L⁻¹.transpose = L⁻¹ * dL + (L⁻¹ * dL).transpose := by
    rw [Matrix.mul_add, Matrix.add_mul, Matrix.transpose_mul]
    congr 1
    · rw [Matrix.mul_assoc, Matrix.mul_assoc, hTT, Matrix.mul_one]
    · rw [← Matrix.mul_assoc L⁻¹ L, hLL, Matrix.one_mul]
  have h3 : inner (phi (L.transpose * g)) (L⁻¹ * dL + (L⁻¹ * dL).transpose) = inner g dL := by
    rw [inner_phi hK, inner_eq, inner_eq, Matrix.transpose_mul, Matrix.transpose_transpose, Matrix.mul_assoc, ← Matrix.mul_assoc L, hLL',
      Matrix.one_mul]
  rw [← h3, inner_eq, ← e]
  rw [Matrix.trace_mul_comm]
  simp only [Matrix.mul_assoc]

/-- Sums over the entries of a square matrix, row by row. -/
theorem sum_square (n : Nat) (f : Nat → Nat → ℝ) :
    ∑ t ∈ Finset.range (n * n), f (t / n) (t % n) = ∑ i : Fin n, ∑ j : Fin n, f i j := by
  rw [Finset.sum_range, ← Finset.sum_product', Finset.univ_product_univ]
  exact Fintype.sum_equiv finProdFinEquiv.symm _ _ fun t => rfl

/-- The free Cholesky factor as a matrix. -/
noncomputable def factor (n : Nat) (r : List ℝ) : Matrix (Fin n) (Fin n) ℝ := Matrix.of fun i j => freeFactor r i j

/-- Its derivative with respect to a free parameter. -/
noncomputable def dFac (n : Nat) (r : List ℝ) (c : Nat) : Matrix (Fin n) (Fin n) ℝ := Matrix.of fun i j => dFactor r i j c

theorem factor_upper (r : List ℝ) (i j : Fin n) (h : i < j) : factor n r i j = 0 := by
  have h1 : ¬ (j : Nat) < i := by have : (i : Nat) < j := h; omega
  have h2 : ¬ (i : Nat) = j := by have : (i : Nat) < j := h; omega
  simp only [factor, freeFactor, Matrix.of_apply, h1, h2, if_false]

theorem dFac_upper (r : List ℝ) (c : Nat) (i j : Fin n) (h : i < j) : dFac n r c i j = 0 := by
  have h1 : ¬ (j : Nat) < i := by have : (i : Nat) < j := h; omega
  have h2 : ¬ (i : Nat) = j := by have : (i : Nat) < j := h; omega
  simp only [dFac, dFactor, Matrix.of_apply, h1, h2, if_false]

theorem factor_diag (r : List ℝ) (i : Fin n) : factor n r i i = Real.exp (r.getD (symIndex i i) 0) := by
  simp [factor, freeFactor]

theorem symIndex_inj {i j i' j' : Nat} (hj : j ≤ i) (hj' : j' ≤ i') (h : symIndex i j = symIndex i' j') : i = i' ∧ j = j' := by
  set N := max i i' + 1
  have h1 : (i, j) ∈ trilIndices N := mem_trilIndices.mpr ⟨by simp only [N]; omega, hj⟩
  have h2 : (i', j') ∈ trilIndices N := mem_trilIndices.mpr ⟨by simp only [N]; omega, hj'⟩
  have hnd : ((trilIndices N).map fun ij => symIndex ij.1 ij.2).Nodup := by
    rw [map_symIndex_trilIndices]; exact List.nodup_range
  have := List.inj_on_of_nodup_map hnd h1 h2 h
  simpa using this

theorem dFac_zero (r : List ℝ) {a b : Nat} (hb : b ≤ a) {i j : Fin n} (h : ¬ ((i : Nat) = a ∧ (j : Nat) = b)) :
    dFac n r (symIndex a b) i j = 0 := by
  simp only [dFac, dFactor, Matrix.of_apply]
  split
  · next h1 =>
    rw [if_neg]; intro h2
    exact h (symIndex_inj h1.le hb h2.symm)
  · split
    · next h1 =>
      rw [if_neg]; intro h2
      have := symIndex_inj le_rfl hb h2.symm
      exact h ⟨this.1, h1 ▸ this.2⟩
    · rfl

theorem dFac_lt (r : List ℝ) {i j : Fin n} (h : j < i) : dFac n r (symIndex i j) i j = 1 := by
  have : (j : Nat) < i := h
  simp only [dFac, dFactor, Matrix.of_apply, this, if_true]

theorem dFac_diag (r : List ℝ) (i : Fin n) : dFac n r (symIndex i i) i i = factor n r i i := by
  simp [dFac, dFactor, factor_diag]

theorem inner_logDiagVjp (r : List ℝ) {c c' : Nat} (hc' : c' < tri n) :
    inner (logDiagVjp (factor n r) (takeVjp n fun k => if k = c then 1 else 0)) (dFac n r c') = if c = c' then 1 else 0 := by
  obtain ⟨a, b, ha, hb, rfl⟩ := exists_symIndex hc'
  unfold inner
  rw [Finset.sum_eq_single (⟨a, ha⟩ : Fin n), Finset.sum_eq_single (⟨b, by omega⟩ : Fin n)]
  · rcases Nat.lt_or_ge b a with h | h
    · have h0 : ¬ a = b := by omega
      have := dFac_lt (n := n) r (i := ⟨a, ha⟩) (j := ⟨b, by omega⟩) h
      simp only at this
      rw [this]
      simp [logDiagVjp, takeVjp, h0, hb, Fin.mk_le_mk, eq_comm]
    · obtain rfl : b = a := by omega
      have := dFac_diag (n := n) r ⟨b, ha⟩
      simp only at this
      rw [this]
      simp only [logDiagVjp, takeVjp, Matrix.of_apply, if_true, le_refl, factor_diag]
      by_cases h2 : symIndex b b = c
      · subst h2; simp [(Real.exp_pos _).ne']
      · simp [h2, Ne.symm h2]
  · intro j _ hj
    rw [dFac_zero r hb fun h => hj (Fin.ext h.2), mul_zero]
  · simp
  · intro i _ hi
    exact Finset.sum_eq_zero fun j _ => by rw [dFac_zero r hb fun h => hi (Fin.ext h.1), mul_zero]
  · simp

/-- The entries of autograd's Jacobian. -/
noncomputable def ruleM (n : Nat) (L : Matrix (Fin n) (Fin n) ℝ) (c t : Nat) : ℝ :=
  if h : t / n < n ∧ t % n < n then row L c ⟨t / n, h.1⟩ ⟨t % n, h.2⟩ else 0

theorem rule_toMat (n : Nat) (L : Matrix (Fin n) (Fin n) ℝ) : CholeskyRule.jacobian L = toMat (tri n, n * n, ruleM n L) := by
  refine ofFn2_congr fun c _ t ht => ?_
  have hn : 0 < n := by by_contra h; simp at h; simp [h] at ht
  have h : t / n < n ∧ t % n < n := ⟨Nat.div_lt_of_lt_mul ht, Nat.mod_lt t hn⟩
  simp [ruleM, h]

/-- **A matrix leaf: the product of the Jacobians is the identity.** -/
theorem psd_inverse {r : List ℝ} {c c' : Nat} (hc' : c' < tri n) :
    ∑ t ∈ Finset.range (n * n), ruleM n (factor n r) c t * dMat n r t c' = if c = c' then 1 else 0 := by
  have h := sum_square n fun i j => (if h : i < n ∧ j < n then row (factor n r) c ⟨i, h.1⟩ ⟨j, h.2⟩ else 0) *
    ∑ k ∈ Finset.range n, (freeFactor r i k * dFactor r j k c' + freeFactor r j k * dFactor r i k c')
  simp only [ruleM, dMat]
  rw [h, ← inner_logDiagVjp r hc', ← inner_choleskyVjp _ (factor_upper r) (fun i => by rw [factor_diag]; exact Real.exp_pos _) (dFac_upper r c')]
  unfold inner
  refine Finset.sum_congr rfl fun i _ => Finset.sum_congr rfl fun j _ => ?_
  simp only [i.2, j.2, and_self, dite_true, Fin.eta]
  congr 1
  simp only [Matrix.add_apply, Matrix.mul_apply, Matrix.transpose_apply, factor, dFac, Matrix.of_apply]
  rw [Finset.sum_range, ← Finset.sum_add_distrib]
  exact Finset.sum_congr rfl fun k _ => by ring

theorem factor_mul (l : ℝ) (r : List ℝ) :
    factor n r * (factor n r).transpose = (Matrix.of fun i j : Fin n => freeMat n l r i j) - l • (1 : Matrix (Fin n) (Fin n) ℝ) := by
  ext i j
  simp only [Matrix.mul_apply, Matrix.transpose_apply, factor, Matrix.of_apply, Matrix.sub_apply, Matrix.smul_apply, Matrix.one_apply, freeMat,
    Finset.sum_range, smul_eq_mul, Fin.ext_iff]
  split <;> simp

theorem matData_freeMat (l : ℝ) (r : List ℝ) : matData (Matrix.of fun i j : Fin n => freeMat n l r i j) =
    (ofFn2 n n fun i j => Flt.fin (freeMat n l r i j)).data := by
  rw [matData_of]

theorem length_matData {m : Nat} (A : Matrix (Fin m) (Fin n) ℝ) : (matData A).length = m * n := by
  have := congrArg (fun a : NDArray Flt => a.data.length) (matData_eq A)
  simp only at this
  rw [this, length_ofFn2]

/-- A matrix with a Cholesky factor is freed to the entries of the factor. -/
theorem freeing_at {lb : PyNum} {dv fd} {l : ℝ} {A L : Matrix (Fin n) (Fin n) ℝ} (h0 : 0 ≤ l) (hl : lb.toFlt = .fin l)
    (hz : ∀ i j, i < j → L i j = 0) (hp : ∀ i, 0 < L i i) (hs : L * L.transpose = A - l • 1) :
    ∃ r : List ℝ, checkedFreeingMap (.psd n lb dv fd) (NDArray.vec (matData A)) = .ok (NDArray.vec (r.map .fin)) ∧ L = factor n r := by
  have hf : (Pattern.psd n lb dv fd).FiniteLb := by simp [FiniteLb, hl, Flt.IsFin]
  have hw : (Pattern.psd n lb dv fd).WF := by
    simp only [Pattern.WF, hl]
    exact decide_eq_false (by push Not; simpa using h0)
  have hA : A = L * L.transpose + l • 1 := by rw [hs]; simp
  have hC : IsChol n (fun i j => natMat A i j - if i = j then l else 0) (natMat L) := by
    refine ⟨fun i j hi hj h => ?_, fun i hi => ?_, fun i j hi hj => ?_⟩
    · simp only [natMat, hi, hj, and_self, dite_true]; exact hz _ _ h
    · simp only [natMat, hi, and_self, dite_true]; exact hp _
    · have hj' : j < n := by omega
      have := congrFun (congrFun hs ⟨i, hi⟩) ⟨j, hj'⟩
      simp only [Matrix.mul_apply, Matrix.transpose_apply, Matrix.sub_apply, Matrix.smul_apply, Matrix.one_apply, Fin.mk.injEq, smul_eq_mul,
        mul_ite, mul_one, mul_zero] at this
      simp only [natMat, hi, hj', and_self, dite_true]
      rw [← this, Finset.sum_range]
      exact Finset.sum_congr rfl fun k _ => by simp
  have hI : Interior (.psd n lb dv fd) (.arr ⟨[n, n], matData A⟩) := by
    rw [interior_psd]
    refine ⟨natMat A, natMat L, matData_eq A, fun i j hi hj => ?_, by rwa [hl, Flt.toReal_fin]⟩
    have : A.transpose = A := by rw [hA]; simp [Matrix.transpose_add, Matrix.transpose_mul]
    simp only [natMat, hi, hj, and_self, dite_true]
    exact congrFun (congrFun this ⟨j, hj⟩) ⟨i, hi⟩
  obtain ⟨r, h1, h2, h3⟩ := psd_free_val hf hw hI
  have hacc := acc_of_interior _ hw hf _ none hI
  have hlen : (matData A).length = n ^ 2 := by rw [length_matData, sq]
  refine ⟨r, ?_, ?_⟩
  · simp only [checkedFreeingMap, fold_false, flatten_true, foldNF, bind, Except.bind]
    rw [psd_foldNF_ok.mpr ⟨by simp [NDArray.vec, atleast1d, ndim], hlen, rfl, acc_psd_arr.mp hacc⟩]
    exact h2 none
  · have h4 := h2 none
    simp only [flattenFree, Val.asArr, bind, Except.bind, PSD.flattenFree_ok, hl, matData_eq, packPosdef_eq hC, Except.ok.injEq, NDArray.vec_inj] at h4
    have h4 : freeVec n (natMat L) = r := List.map_injective_iff.mpr (fun a b h => by simpa using h) h4.2
    ext i j
    rw [← h4, factor, Matrix.of_apply, freeFactor_freeVec hC i.2 j.2]
    simp [natMat]

/-! ### The assumptions can be met together -/

/-- `J` is what the rules give for `F`, a freeing transform of matrices, at `a`. -/
def IsFreeingAt (F : NDArray Flt → Except Err (NDArray Flt)) (a J : NDArray Flt) : Prop :=
  ∃ (n : Nat) (lb : PyNum) (dv : Bool) (fd : Option Bool) (l : ℝ) (A L : Matrix (Fin n) (Fin n) ℝ), 0 ≤ l ∧ lb.toFlt = .fin l ∧
    (∀ i j, i < j → L i j = 0) ∧ (∀ i, 0 < L i i) ∧ L * L.transpose = A - l • 1 ∧
    F = checkedFreeingMap (.psd n lb dv fd) ∧ a = NDArray.vec (matData A) ∧ J = CholeskyRule.jacobian L

theorem isFreeingAt_unique {F a J J'} (h : IsFreeingAt F a J) (h' : IsFreeingAt F a J') : J = J' := by
  obtain ⟨n, lb, dv, fd, l, A, L, h0, hl, hz, hp, hs, rfl, rfl, rfl⟩ := h
  obtain ⟨n', lb', dv', fd', l', A', L', h0', hl', hz', hp', hs', hF, ha, rfl⟩ := h'
  have hn : n = n' := by
    have := congrArg List.length (NDArray.vec_inj.mp ha)
    rw [length_matData, length_matData] at this
    exact Nat.mul_self_inj.mp this
  subst hn
  obtain ⟨r, a1, a2⟩ := freeing_at (dv := dv) (fd := fd) h0 hl hz hp hs
  obtain ⟨r', b1, b2⟩ := freeing_at (dv := dv') (fd := fd') h0' hl' hz' hp' hs'
  rw [← hF, ← ha, a1, Except.ok.injEq, NDArray.vec_inj] at b1
  have : r = r' := List.map_injective_iff.mpr (fun a b h => by simpa using h) b1
  rw [a2, b2, this]

/-- A freeing transform refuses a negative definite matrix. -/
theorem freeing_neg {lb : PyNum} {dv fd} {l : ℝ} (h0 : 0 ≤ l) (hl : lb.toFlt = .fin l) (hn : 0 < n) (y : NDArray Flt) :
    checkedFreeingMap (.psd n lb dv fd) (NDArray.vec (matData (-1 : Matrix (Fin n) (Fin n) ℝ))) ≠ .ok y := by
  intro h
  simp only [checkedFreeingMap, fold_false, flatten_true] at h
  obtain ⟨v, h1, h2⟩ := bind_ok h
  simp only [foldNF] at h1
  obtain ⟨a, h3, h4⟩ := bind_ok h1
  cases h4
  obtain ⟨_, _, rfl, _⟩ := psd_foldNF_ok.mp h3
  simp only [flattenFree, Val.asArr, bind, Except.bind, PSD.flattenFree_ok, hl] at h2
  have h5 := h2.2
  have : (⟨[n, n], (NDArray.vec (matData (-1 : Matrix (Fin n) (Fin n) ℝ))).data⟩ : NDArray Flt) = _ := matData_eq (-1 : Matrix (Fin n) (Fin n) ℝ)
  rw [this] at h5
  unfold packPosdef at h5
  have e1 : (ofFn2 n n fun i j => entry n (ofFn2 n n fun i j => Flt.fin (natMat (-1 : Matrix (Fin n) (Fin n) ℝ) i j)).data i j -
      (if i = j then Flt.fin l else 0)) = ofFn2 n n fun i j => Flt.fin (natMat (-1 : Matrix (Fin n) (Fin n) ℝ) i j - if i = j then l else 0) := by
    apply ofFn2_congr
    intro i hi j hj
    rw [entry_ofFn2 n n _ hi hj]
    split <;> simp
  simp only [bind, Except.bind, e1] at h5
  rw [cholesky_none] at h5
  · simp at h5
  · rintro ⟨L, _, hp, hs⟩
    have := hs 0 0 hn le_rfl
    simp only [if_true, natMat, hn, and_self, dite_true, Matrix.neg_apply, Matrix.one_apply_eq] at this
    have h6 : 0 ≤ ∑ k ∈ Finset.range n, L 0 k * L 0 k := Finset.sum_nonneg fun k _ => mul_self_nonneg _
    linarith

theorem isFreeingAt_unfreeing {n' m : Nat} {lb' : PyNum} {dv' fd'} {x : Fin ((Pattern.psd n' lb' dv' fd').flatLen true) → ℝ} {J J' : NDArray Flt}
    (hw : (Pattern.psd n' lb' dv' fd').WF) (hf : lb'.toFlt.IsFin)
    (h : IsFreeingAt (unfreeingMap (.psd n' lb' dv' fd')) (NDArray.vec (List.ofFn fun j => .fin (x j))) J')
    (hJ : HasJacobian (unfreeingMap (.psd n' lb' dv' fd')) m x J) : J' = J := by
  obtain ⟨n, lb, dv, fd, l, A, L, h0, hl, hz, hp, hs, hF, ha, rfl⟩ := h
  have hlen : (Pattern.psd n' lb' dv' fd').flatLen true = n * n := by
    have := congrArg List.length (NDArray.vec_inj.mp ha)
    simpa [length_matData] using this
  have hun : ∀ t : List ℝ, t.length = n * n → ∃ y : List Flt, unfreeingMap (.psd n' lb' dv' fd') (NDArray.vec (t.map .fin)) =
      .ok (NDArray.vec y) ∧ y.length = n' * n' := by
    intro t ht
    obtain ⟨v, c1, c2, c3, -⟩ := free_vec (.psd n' lb' dv' fd') hw hf t (by rw [ht, hlen])
    refine ⟨flat (.psd n' lb' dv' fd') v, ?_, ?_⟩
    · simp only [unfreeingMap, fold_true, flatten_false, c1, bind, Except.bind]
      exact flattenNF_interior _ hw hf (by simp [NoEmpty]) _ c2 none
    · rw [length_flat _ hw v none c3 (acc_of_interior _ hw hf _ none c2)]
      simp [flatLen, sq]
  rcases Nat.eq_zero_or_pos n with rfl | hn
  · have hn' : n' = 0 := by
      by_contra hne
      have : 0 < tri n' := by
        have := symIndex_lt (n := n') (i := 0) (j := 0) (by omega) le_rfl
        omega
      have h2 : (Pattern.psd n' lb' dv' fd').flatLen true = tri n' := by simp [flatLen, tri]
      omega
    obtain ⟨f, B, j1, -, rfl⟩ := hJ
    obtain ⟨y, y1, y2⟩ := hun (List.ofFn x) (by simp [hlen])
    have j2 := j1.self_of_nhds
    have e : (List.ofFn x).map Flt.fin = List.ofFn fun j => Flt.fin (x j) := by simp [List.map_ofFn, Function.comp_def]
    rw [e] at y1
    have hm : m = 0 := by
      have := (y1.symm.trans j2)
      simp only [Except.ok.injEq, NDArray.vec_inj] at this
      have := congrArg List.length this
      rw [y2, hn'] at this
      simpa using this.symm
    subst hm
    simp [CholeskyRule.jacobian, ofFn2, matData, hlen]
  · obtain ⟨y, hy, -⟩ := hun ((List.ofFn fun i : Fin n => List.ofFn fun j : Fin n => (-1 : Matrix (Fin n) (Fin n) ℝ) i j).flatten) (by
      have h1 := length_matData (-1 : Matrix (Fin n) (Fin n) ℝ)
      rw [← h1, matData]
      simp [List.length_flatten, List.map_ofFn, Function.comp_def])
    exfalso
    refine freeing_neg (dv := dv) (fd := fd) h0 hl hn (NDArray.vec y) ?_
    rw [← hF, ← hy]
    congr 2
    simp [matData, List.map_flatten, List.map_ofFn, Function.comp_def]

open Classical in
theorem autogradSpecs_exist : ∃ ad, AutogradSpec ad ∧ AutogradCholesky ad := by
  obtain ⟨ad, had⟩ := autogradSpec_exists
  refine ⟨fun F a => if h : ∃ J, IsFreeingAt F a J then .ok h.choose else ad F a, ?_, ?_⟩
  · intro n lb dv fd m x J hw hf hJ
    simp only
    split
    · next h => rw [isFreeingAt_unfreeing hw hf h.choose_spec hJ]
    · exact had n lb dv fd m x J hw hf hJ
  · intro n lb dv fd l A L h0 hl hz hp hs
    have h : IsFreeingAt (checkedFreeingMap (.psd n lb dv fd)) (NDArray.vec (matData A)) (CholeskyRule.jacobian L) :=
      ⟨n, lb, dv, fd, l, A, L, h0, hl, hz, hp, hs, rfl, rfl, rfl⟩
    have h' : ∃ J, IsFreeingAt (checkedFreeingMap (.psd n lb dv fd)) (NDArray.vec (matData A)) J := ⟨_, h⟩
    simp only [dif_pos h', isFreeingAt_unique h'.choose_spec h]

/-! ### Trees -/

/-- Two blocks, the first a left inverse of the second. -/
def InvBlocks (b b' : Nat × Nat × (Nat → Nat → ℝ)) : Prop :=
  b'.1 = b.2.1 ∧ b'.2.1 = b.1 ∧ ∀ i < b.1, ∀ k < b.1, ∑ j ∈ Finset.range b.2.1, b.2.2 i j * b'.2.2 j k = if i = k then 1 else 0

theorem blk_inverse {bl bl' : List (Nat × Nat × (Nat → Nat → ℝ))} (h : List.Forall₂ InvBlocks bl bl') :
    (bl'.map (·.1)).sum = (bl.map (·.2.1)).sum ∧ (bl'.map (·.2.1)).sum = (bl.map (·.1)).sum ∧
    ∀ i < (bl.map (·.1)).sum, ∀ k < (bl.map (·.1)).sum,
      ∑ j ∈ Finset.range (bl.map (·.2.1)).sum, blk bl i j * blk bl' j k = if i = k then 1 else 0 := by
  induction h with
  | nil => simp
  | @cons b b' bl bl' hb _ ih =>
    obtain ⟨m, n, A⟩ := b
    obtain ⟨n', m', B⟩ := b'
    obtain ⟨h1, h2, h3⟩ := hb
    obtain ⟨i1, i2, i3⟩ := ih
    simp only at h1 h2 h3
    subst h1 h2
    refine ⟨by simp [i1], by simp [i2], fun i hi k hk => ?_⟩
    simp only [List.map_cons, List.sum_cons] at hi hk ⊢
    rw [Finset.sum_range_add]
    have e1 : ∀ x, n' + x - n' = x := by omega
    have e2 : ∀ x, ¬ n' + x < n' := by omega
    by_cases hi' : i < m' <;> by_cases hk' : k < m'
    · rw [← h3 i hi' k hk']
      simp only [blk, hi', hk', e2, if_true, if_false, zero_mul, Finset.sum_const_zero, add_zero]
      exact Finset.sum_congr rfl fun j hj => by simp [Finset.mem_range.mp hj]
    · rw [if_neg (by omega)]
      simp only [blk, hi', hk', e2, if_true, if_false, zero_mul, Finset.sum_const_zero, add_zero]
      exact Finset.sum_eq_zero fun j hj => by simp [Finset.mem_range.mp hj]
    · rw [if_neg (by omega)]
      simp only [blk, hi', hk', e2, if_true, if_false, mul_zero, Finset.sum_const_zero, add_zero]
      exact Finset.sum_eq_zero fun j hj => by simp [Finset.mem_range.mp hj]
    · have := i3 (i - m') (by omega) (k - m') (by omega)
      simp only [blk, hi', hk', e1, e2, if_false]
      rw [this, Finset.sum_eq_zero (fun j hj => by simp [Finset.mem_range.mp hj]), zero_add]
      by_cases hik : i = k
      · subst hik; simp
      · rw [if_neg hik, if_neg (by omega)]

/-- The entries of a matrix on all indices. -/
noncomputable def extM {m n : Nat} (A : Matrix (Fin m) (Fin n) ℝ) (i j : Nat) : ℝ := if h : i < m ∧ j < n then A ⟨i, h.1⟩ ⟨j, h.2⟩ else 0

theorem mat_extM {m n : Nat} (A : Matrix (Fin m) (Fin n) ℝ) : mat m n (extM A) = A := by
  ext i j; simp [mat, extM]

theorem toMat_extM {m n : Nat} (A : Matrix (Fin m) (Fin n) ℝ) : toMat (m, n, extM A) = ⟨[m, n], matData A⟩ := by
  have : toMat (m, n, extM A) = ⟨[m, n], matData (mat m n (extM A))⟩ := matData_of m n (extM A)
  rw [this, mat_extM]

theorem leaf_inverse (ad : AutogradJacobian) {p : Pattern} (hw : p.WF) (hn : NoPSD p) (he : NoEmptyBlocks p) {v : Val Flt} (hI : Interior p v) :
    ∃ M N, freeingJacobian ad p v = .ok (toMat (p.flatLen true, p.flatLen false, M)) ∧
      unfreeingJacobian ad p v = .ok (toMat (p.flatLen false, p.flatLen true, N)) ∧
      InvBlocks (p.flatLen true, p.flatLen false, M) (p.flatLen false, p.flatLen true, N) := by
  obtain ⟨A, B, h1, h2, h3⟩ := inverse_tree ad hw hn he hI
  refine ⟨extM A, extM B, by rw [h1, toMat_extM], by rw [h2, toMat_extM], rfl, rfl, fun i hi k hk => ?_⟩
  have := congrFun (congrFun h3 ⟨i, hi⟩) ⟨k, hk⟩
  rw [Matrix.mul_apply, Matrix.one_apply] at this
  simp only [Fin.mk.injEq] at this
  rw [← this, Finset.sum_range]
  simp only at hi hk
  exact Finset.sum_congr rfl fun j _ => by simp [extM, hi, hk]

/-- A matrix leaf: the value, its free vector and both Jacobians, in terms of the free vector. -/
theorem psd_leaf {ad : AutogradJacobian} (had : AutogradSpec ad) (hch : AutogradCholesky ad) {lb : PyNum} {dv fd} {l : ℝ}
    (hw : (Pattern.psd n lb dv fd).WF) (hf : (Pattern.psd n lb dv fd).FiniteLb) (hl : lb.toFlt = .fin l) {a : NDArray Flt}
    (hI : Interior (.psd n lb dv fd) (.arr a)) : ∃ r : List ℝ, r.length = tri n ∧ a = (ofFn2 n n fun i j => .fin (freeMat n l r i j)) ∧
      freeingJacobian ad (.psd n lb dv fd) (.arr a) = .ok (toMat (tri n, n * n, ruleM n (factor n r))) ∧
      unfreeingJacobian ad (.psd n lb dv fd) (.arr a) = .ok (toMat (n * n, tri n, dMat n r)) := by
  obtain ⟨r, h1, h2, h3⟩ := psd_free_val hf hw hI
  have ha : a = ofFn2 n n fun i j => .fin (freeMat n l r i j) := by
    simp only [foldFree, bind, Except.bind] at h3
    rw [PSD.foldFree_ok.mpr ⟨by simp, by simpa using h1, by rw [atleast1d_of_ne (by simp [NDArray.vec]), hl, unpackPosdef_fin h1]⟩] at h3
    simpa [pure, Except.pure] using h3.symm
  refine ⟨r, h1, ha, ?_, unfreeing_psd had hw hf h1 (h2 none)⟩
  simp only [freeingJacobian, flatten_false, flattenNF_interior _ hw hf (by simp [NoEmpty]) _ hI none, bind, Except.bind]
  rw [← rule_toMat, flat_arr _ _ rfl, ha]
  have := hch n lb dv fd l (Matrix.of fun i j => freeMat n l r i j) (factor n r) (by
    simp only [Pattern.WF, hl] at hw
    simpa [Flt.lt] using hw) hl (factor_upper r) (fun i => by rw [factor_diag]; exact Real.exp_pos _) (factor_mul l r)
  have ht : (Pattern.psd n lb dv fd).freeingTransform = checkedFreeingMap (.psd n lb dv fd) := rfl
  rw [← this, matData_freeMat, ht]

theorem inverse_all {ad : AutogradJacobian} (had : AutogradSpec ad) (hch : AutogradCholesky ad) (p : Pattern) (hw : p.WF) (hf : p.FiniteLb)
    (he : NoEmptyBlocks p) : ∀ v : Val Flt, Interior p v →
    ∃ M N, freeingJacobian ad p v = .ok (toMat (p.flatLen true, p.flatLen false, M)) ∧
      unfreeingJacobian ad p v = .ok (toMat (p.flatLen false, p.flatLen true, N)) ∧
      InvBlocks (p.flatLen true, p.flatLen false, M) (p.flatLen false, p.flatLen true, N) := by
  revert hw hf he
  induction p using Pattern.ind
    (Q := fun es => WFEs es → FiniteLbEs es → NoEmptyBlocksEs es → ∀ vs : List (String × Val Flt), InteriorEs es vs →
      ∃ bl bl' : List (Nat × Nat × (Nat → Nat → ℝ)), freeingJacobianEs ad es vs = .ok (bl.map toMat) ∧
        unfreeingJacobianEs ad es vs = .ok (bl'.map toMat) ∧ List.Forall₂ InvBlocks bl bl' ∧ (es ≠ .nil → bl ≠ []) ∧
        (bl.map (·.1)).sum = flatLenEs es true ∧ (bl.map (·.2.1)).sum = flatLenEs es false) with
  | hnum c s lb ub dv fd => intro hw hf he v hI; exact leaf_inverse ad hw trivial he hI
  | hsim k s dv fd => intro hw hf he v hI; exact leaf_inverse ad hw trivial he hI
  | hpsd n lb dv fd =>
    intro hw hf he v hI
    cases v with
    | dict d => simp [Interior] at hI
    | arr a =>
    obtain ⟨l, hl⟩ := Flt.isFin_iff.mp hf
    obtain ⟨r, _, _, h3, h4⟩ := psd_leaf had hch hw hf hl hI
    have hfl : (Pattern.psd n lb dv fd).flatLen true = tri n := by simp [flatLen, tri]
    have hfl' : (Pattern.psd n lb dv fd).flatLen false = n * n := by simp [flatLen, sq]
    rw [hfl, hfl']
    exact ⟨ruleM n (factor n r), dMat n r, h3, h4, rfl, rfl, fun i _ k hk => psd_inverse hk⟩
  | harr s b fd ih =>
    intro hw hf he v hI
    cases v with
    | dict d => simp [Interior] at hI
    | arr a =>
    simp only [Pattern.WF] at hw
    simp only [FiniteLb] at hf
    simp only [NoEmptyBlocks] at he
    simp only [Interior] at hI
    obtain ⟨hwf, hsh, hb⟩ := hI
    have hB : ∀ i, ∃ M N : Nat → Nat → ℝ, i < s.prod →
        (freeingJacobian ad b (.arr ⟨b.shape, chunk b.shape.prod a.data i⟩) = .ok (toMat (b.flatLen true, b.flatLen false, M)) ∧
        unfreeingJacobian ad b (.arr ⟨b.shape, chunk b.shape.prod a.data i⟩) = .ok (toMat (b.flatLen false, b.flatLen true, N)) ∧
        InvBlocks (b.flatLen true, b.flatLen false, M) (b.flatLen false, b.flatLen true, N)) := by
      intro i
      by_cases hi : i < s.prod
      · obtain ⟨M, N, h⟩ := ih hw.2.2 hf he.2 _ (hb i hi)
        exact ⟨M, N, fun _ => h⟩
      · exact ⟨fun _ _ => 0, fun _ _ => 0, fun h => absurd h hi⟩
    choose M N hq using hB
    have hne : s.prod ≠ 0 := by omega
    have hfa : List.Forall₂ InvBlocks ((List.range s.prod).map fun c => (b.flatLen true, b.flatLen false, M c))
        ((List.range s.prod).map fun c => (b.flatLen false, b.flatLen true, N c)) := by
      rw [List.forall₂_map_left_iff, List.forall₂_map_right_iff, List.forall₂_same]
      exact fun c hc => (hq c (List.mem_range.mp hc)).2.2
    obtain ⟨-, -, h3⟩ := blk_inverse hfa
    rw [(sum_replicate_fst _ _ _ M).1, (sum_replicate_fst _ _ _ M).2] at h3
    refine ⟨blk ((List.range s.prod).map fun c => (b.flatLen true, b.flatLen false, M c)),
      blk ((List.range s.prod).map fun c => (b.flatLen false, b.flatLen true, N c)), ?_, ?_, rfl, rfl, ?_⟩
    · simp only [freeingJacobian, Val.asArr, bind, Except.bind]
      rw [jacobianItems_eq hsh (g := fun i => toMat (b.flatLen true, b.flatLen false, M i)) fun i hi => (hq i hi).1]
      have : ((List.range s.prod).map fun i => toMat (b.flatLen true, b.flatLen false, M i)) =
          ((List.range s.prod).map fun c => (b.flatLen true, b.flatLen false, M c)).map toMat := by
        rw [List.map_map]; rfl
      rw [this, blockDiag_toMat (by simpa using hne), (sum_replicate_fst _ _ _ M).1, (sum_replicate_fst _ _ _ M).2, flatLen, flatLen]
    · simp only [unfreeingJacobian, Val.asArr, bind, Except.bind]
      rw [jacobianItems_eq hsh (g := fun i => toMat (b.flatLen false, b.flatLen true, N i)) fun i hi => (hq i hi).2.1]
      have : ((List.range s.prod).map fun i => toMat (b.flatLen false, b.flatLen true, N i)) =
          ((List.range s.prod).map fun c => (b.flatLen false, b.flatLen true, N c)).map toMat := by
        rw [List.map_map]; rfl
      rw [this, blockDiag_toMat (by simpa using hne), (sum_replicate_fst _ _ _ N).1, (sum_replicate_fst _ _ _ N).2, flatLen, flatLen]
    · simpa only [flatLen] using h3
  | hdict es l fd ih =>
    intro hw hf he v hI
    cases v with
    | arr d => simp [Interior] at hI
    | dict vs =>
    simp only [Pattern.WF] at hw
    simp only [FiniteLb] at hf
    simp only [NoEmptyBlocks] at he
    simp only [Interior] at hI
    obtain ⟨bl, bl', h1, h2, h3, h4, h5, h6⟩ := ih hw.2 hf he.2 vs hI
    obtain ⟨i1, i2, i3⟩ := blk_inverse h3
    have h4' : bl' ≠ [] := by
      intro h; subst h
      rw [List.forall₂_nil_right_iff] at h3
      exact h4 he.1 h3
    rw [h5, h6] at i3
    refine ⟨blk bl, blk bl', ?_, ?_, rfl, rfl, by simpa only [flatLen] using i3⟩
    · simp only [freeingJacobian, Val.asDict, bind, Except.bind, h1]
      rw [blockDiag_toMat (h4 he.1), h5, h6, flatLen, flatLen]
    · simp only [unfreeingJacobian, Val.asDict, bind, Except.bind, h2]
      rw [blockDiag_toMat h4', i1, i2, h5, h6, flatLen, flatLen]
  | hnil hw hf he vs hI => exact ⟨[], [], by simp [freeingJacobianEs], by simp [unfreeingJacobianEs], .nil, by simp, by simp [flatLenEs], by simp [flatLenEs]⟩
  | hcons k p rest ihp ihr hw hf he vs hI =>
    simp only [WFEs] at hw
    simp only [FiniteLbEs] at hf
    simp only [NoEmptyBlocksEs] at he
    simp only [InteriorEs] at hI
    obtain ⟨⟨v, hl, hv⟩, hI⟩ := hI
    obtain ⟨M, N, a1, a2, a3⟩ := ihp hw.1 hf.1 he.1 v hv
    obtain ⟨bl, bl', b1, b2, b3, _, b5, b6⟩ := ihr hw.2.2 hf.2 he.2 vs hI
    refine ⟨(p.flatLen true, p.flatLen false, M) :: bl, (p.flatLen false, p.flatLen true, N) :: bl', ?_, ?_, .cons a3 b3, by simp,
      by simp [b5, flatLenEs], by simp [b6, flatLenEs]⟩
    · simp only [freeingJacobianEs, hl, a1, b1, bind, Except.bind]; rfl
    · simp only [unfreeingJacobianEs, hl, a2, b2, bind, Except.bind]; rfl

/-! ### It is not the derivative of the map -/

theorem row_symm (L : Matrix (Fin n) (Fin n) ℝ) (c : Nat) (i j : Fin n) : CholeskyRule.row L c i j = CholeskyRule.row L c j i := by
  simp only [CholeskyRule.row, choleskyVjp, Matrix.smul_apply, Matrix.add_apply, Matrix.transpose_apply, add_comm]

/-- The rows are not all diagonal matrices. -/
theorem row_offdiag (r : List ℝ) {a b : Fin n} (hb : b < a) : ∃ i j, i < j ∧ CholeskyRule.row (factor n r) (symIndex a b) i j ≠ 0 := by
  by_contra hcon
  push Not at hcon
  have hdiag : ∀ i j, i ≠ j → CholeskyRule.row (factor n r) (symIndex a b) i j = 0 := by
    intro i j hij
    rcases lt_or_gt_of_ne hij with h | h
    · exact hcon i j h
    · rw [row_symm]; exact hcon j i h
  have hkey : ∀ c' < tri n, ∑ i, CholeskyRule.row (factor n r) (symIndex a b) i i * (2 * ∑ k, factor n r i k * dFac n r c' i k) = if symIndex a b = c' then 1 else 0 := by
    intro c' hc'
    rw [← inner_logDiagVjp r hc', ← inner_choleskyVjp _ (factor_upper r) (fun i => by rw [factor_diag]; exact Real.exp_pos _) (dFac_upper r c')]
    unfold inner
    refine Finset.sum_congr rfl fun i _ => ?_
    symm
    rw [Finset.sum_eq_single i]
    · change CholeskyRule.row (factor n r) (symIndex a b) i i * _ = _
      congr 1
      simp only [Matrix.add_apply, Matrix.mul_apply, Matrix.transpose_apply, ← Finset.sum_add_distrib, Finset.mul_sum]
      exact Finset.sum_congr rfl fun k _ => by ring
    · intro j _ hj
      have : CholeskyRule.row (factor n r) (symIndex a b) i j = 0 := hdiag i j (Ne.symm hj)
      simp only [CholeskyRule.row] at this
      rw [this, zero_mul]
    · simp
  have hsum : ∀ (a' b' : Fin n), b' ≤ a' → ∑ i, CholeskyRule.row (factor n r) (symIndex a b) i i * (2 * ∑ k, factor n r i k * dFac n r (symIndex a' b') i k) =
      CholeskyRule.row (factor n r) (symIndex a b) a' a' * (2 * (factor n r a' b' * dFac n r (symIndex a' b') a' b')) := by
    intro a' b' hab
    rw [Finset.sum_eq_single a', Finset.sum_eq_single b']
    · intro k _ hk
      rw [dFac_zero r hab fun h => hk (Fin.ext h.2), mul_zero]
    · simp
    · intro i _ hi
      rw [Finset.sum_eq_zero fun k _ => by rw [dFac_zero r hab fun h => hi (Fin.ext h.1), mul_zero]]
      simp
    · simp
  have h1 := hkey _ (symIndex_lt a.2 (le_refl (a : Nat)))
  rw [hsum a a le_rfl, dFac_diag, if_neg (fun h => hb.ne (Fin.ext (symIndex_inj (le_of_lt hb) le_rfl h).2))] at h1
  have hpos : factor n r a a ≠ 0 := by rw [factor_diag]; exact (Real.exp_pos _).ne'
  have h2 : CholeskyRule.row (factor n r) (symIndex a b) a a = 0 := by
    rcases mul_eq_zero.mp h1 with h | h
    · exact h
    · exact absurd h (by positivity)
  have h3 := hkey _ (symIndex_lt a.2 (le_of_lt hb))
  rw [hsum a b hb.le, h2, if_pos rfl, zero_mul] at h3
  exact zero_ne_one h3

theorem freeingMap_psd {lb : PyNum} {dv fd} {l : ℝ} (hw : (Pattern.psd n lb dv fd).WF) (hl : lb.toFlt = .fin l) {w : Nat → ℝ} {L : Nat → Nat → ℝ}
    (h : IsChol n (fun i j => w (i * n + j) - if i = j then l else 0) L) :
    freeingMap (.psd n lb dv fd) (NDArray.vec (finVec (n * n) w)) = .ok (NDArray.vec ((freeVec n L).map .fin)) := by
  have hacc := acc_psd_arr.mp (acc_unflat (.psd n lb dv fd) hw (finVec (n * n) w) (by simp [flatLen, sq]))
  simp only [Pattern.shape] at hacc
  simp only [freeingMap, fold_false, flatten_true, foldNF, bind, Except.bind]
  rw [psd_foldNF_ok.mpr ⟨by simp [NDArray.vec, atleast1d, ndim], by simp [sq], rfl, hacc⟩]
  simp only [pure, Except.pure, flattenFree, Val.asArr, bind, Except.bind]
  rw [PSD.flattenFree_ok]
  refine ⟨hacc, ?_⟩
  have := matrix_finVec n w
  simp only [NDArray.vec] at this ⊢
  rw [this, hl, packPosdef_eq h]
  rfl

theorem not_derivative {ad : AutogradJacobian} (had : AutogradSpec ad) (hch : AutogradCholesky ad) {lb : PyNum} {dv fd}
    (hw : (Pattern.psd n lb dv fd).WF) (hf : (Pattern.psd n lb dv fd).FiniteLb) (hn : 2 ≤ n) {v : Val Flt} (hI : Interior (.psd n lb dv fd) v) :
    ∃ J, freeingJacobian ad (.psd n lb dv fd) v = .ok J ∧ ¬ IsFreeingJacobian (.psd n lb dv fd) v J := by
  cases v with
  | dict d => simp [Interior] at hI
  | arr a =>
  obtain ⟨l, hl⟩ := Flt.isFin_iff.mp hf
  obtain ⟨r, hr, ha, h3, -⟩ := psd_leaf had hch hw hf hl hI
  refine ⟨_, h3, ?_⟩
  rintro ⟨n', m', x, hn', hm', hfl, f, A, e1, e2, e3⟩
  have hn' : n' = n * n := by
    simp only [flatLength, freeWithDefault, flatLen, pure, Except.pure, bind, Except.bind, Except.ok.injEq] at hn'
    rw [← hn']; simp [sq]
  have hm' : m' = tri n := by
    simp only [flatLength, freeWithDefault, flatLen, pure, Except.pure, bind, Except.bind, Except.ok.injEq] at hm'
    rw [← hm']; simp [tri]
  subst hn' hm'
  obtain ⟨i, j, hij, hne⟩ := row_offdiag (n := n) r (a := ⟨1, by omega⟩) (b := ⟨0, by omega⟩) (by simp)
  set c : Nat := symIndex 1 0 with hc
  have hct : c < tri n := symIndex_lt (by omega) (by omega)
  have ht := flat_lt i.2 j.2
  have hdiv : ((i : Nat) * n + j) / n = i ∧ ((i : Nat) * n + j) % n = j := by
    rw [Nat.mul_comm, Nat.mul_add_div (by omega), Nat.mul_add_mod, Nat.div_eq_of_lt j.2, Nat.mod_eq_of_lt j.2, Nat.add_zero]
    exact ⟨rfl, rfl⟩
  -- the entry of the Jacobian
  have hA : A ⟨c, hct⟩ ⟨i * n + j, ht⟩ ≠ 0 := by
    have h4 := e3.trans (matData_eq A)
    have := ofFn2_inj h4 c hct _ ht
    simp only [ruleM, hdiv, i.2, j.2, and_self, dite_true, Flt.fin.injEq, natMat, hct, ht] at this
    rw [← this]
    exact hne
  -- the map does not read that entry
  have hx : ∀ t < n * n, ext x t = freeMat n l r (t / n) (t % n) := by
    have := hfl none
    rw [flatten_false, flattenNF_interior _ hw hf (by simp [NoEmpty]) _ hI none, flat_arr _ _ rfl, ha, ofFn2_finVec, ofFn_ext, Except.ok.injEq,
      NDArray.vec_inj] at this
    exact fun t ht => (finVec_inj this t ht).symm
  set d : Fin (n * n) → ℝ := Pi.single ⟨i * n + j, ht⟩ 1 with hd
  have hconst : ∀ s : ℝ, freeingMap (.psd n lb dv fd) (NDArray.vec (List.ofFn fun t => .fin ((x + s • d) t))) =
      .ok (NDArray.vec ((freeVec n (freeFactor r)).map .fin)) := by
    intro s
    rw [ofFn_ext (x + s • d)]
    refine freeingMap_psd hw hl ⟨fun i j _ _ h => ?_, fun i _ => ?_, fun i' j' hi hj => ?_⟩
    · simp only [freeFactor]; rw [if_neg (by omega), if_neg (by omega)]
    · simp [freeFactor, Real.exp_pos]
    · have hj' : j' < n := by omega
      have ht' := flat_lt hi hj'
      have hne' : i' * n + j' ≠ i * n + j := by
        intro h
        have h1 : (i' * n + j') / n = i' ∧ (i' * n + j') % n = j' := by
          rw [Nat.mul_comm, Nat.mul_add_div (by omega), Nat.mul_add_mod, Nat.div_eq_of_lt hj', Nat.mod_eq_of_lt hj', Nat.add_zero]
          exact ⟨rfl, rfl⟩
        rw [h, hdiv.1, hdiv.2] at h1
        have : (i : Nat) < j := hij
        omega
      have hxt := hx _ ht'
      have h1 : (i' * n + j') / n = i' ∧ (i' * n + j') % n = j' := by
        rw [Nat.mul_comm, Nat.mul_add_div (by omega), Nat.mul_add_mod, Nat.div_eq_of_lt hj', Nat.mod_eq_of_lt hj', Nat.add_zero]
        exact ⟨rfl, rfl⟩
      rw [h1.1, h1.2] at hxt
      have : ext (x + s • d) (i' * n + j') = ext x (i' * n + j') := by
        simp only [ext, ht', dite_true, Pi.add_apply, Pi.smul_apply, hd]
        rw [Pi.single_eq_of_ne (by simpa [Fin.ext_iff] using hne')]
        simp
      simp only [this, hxt, freeMat]
      simp
  -- so its derivative in that direction is zero
  have hline : HasDerivAt (fun s : ℝ => x + s • d) d 0 := by
    have := ((hasDerivAt_id (0 : ℝ)).smul_const d).const_add x
    simpa using this
  have h2 : HasFDerivAt f (LinearMap.toContinuousLinearMap A.mulVecLin) (x + (0 : ℝ) • d) := by simpa using e2
  have h5 := h2.comp_hasDerivAt (0 : ℝ) hline
  have hev : ∀ᶠ s in 𝓝 (0 : ℝ), (f ∘ fun s : ℝ => x + s • d) s = f x := by
    have h6 : Filter.Tendsto (fun s : ℝ => x + s • d) (𝓝 0) (𝓝 x) := by simpa using hline.continuousAt.tendsto
    filter_upwards [h6.eventually e1] with s hs
    have h7 := e1.self_of_nhds
    have h8 := hconst 0
    simp only [zero_smul, add_zero] at h8
    rw [hconst s] at hs
    rw [h8] at h7
    have := hs.symm.trans h7
    rw [Except.ok.injEq, NDArray.vec_inj] at this
    have := List.ofFn_injective this
    funext q
    simpa using congrFun this q
  have h9 := h5.unique ((hasDerivAt_const (0 : ℝ) (f x)).congr_of_eventuallyEq hev)
  have h10 := congrFun h9 ⟨c, hct⟩
  simp only [LinearMap.coe_toContinuousLinearMap', Matrix.mulVecLin_apply, hd, Matrix.mulVec_single_one, Pi.zero_apply] at h10
  exact hA h10

/-! ### Along values -/

variable {E : Type} [NormedAddCommGroup E] [NormedSpace ℝ E]

/-- Freeing what was folded from the flat vector of a value. -/
theorem flattenFree_unflat {p : Pattern} (hw : p.WF) (hf : p.FiniteLb) (hne : p.NoEmpty) {v : Val Flt} (hI : Interior p v) (vv vv' : Option Bool) :
    p.flattenFree (p.unflat (p.flat v)) vv = p.flattenFree v vv' := by
  obtain ⟨r, c1, c2, c3⟩ := free_val p hw hf v hI hne
  obtain ⟨w, w1, w2, w3, _, w5⟩ := free_vec p hw hf r c1
  have hcw : canon p w = w := by
    obtain ⟨r', d1, d2, d3⟩ := free_val p hw hf w w2 hne
    have h1 := (d2 none).symm.trans (w5 hne none)
    simp only [Except.ok.injEq, NDArray.vec_inj] at h1
    rw [h1, w1] at d3
    simpa using d3.symm
  rw [c3, Except.ok.injEq] at w1
  rw [← flat_canon p hw v hI, w1, unflat_flat p hw w none w3 (acc_of_interior p hw hf w none w2), hcw, w5 hne vv, c2 vv']

theorem along_values {ad : AutogradJacobian} (had : AutogradSpec ad) (hch : AutogradCholesky ad) {p : Pattern} (hw : p.WF) (hf : p.FiniteLb)
    (he : NoEmptyBlocks p) {m n : Nat} (hm : p.flatLen true = m) (hn : p.flatLen false = n) {val : E → Val Flt} {x : E → Fin n → ℝ}
    {y : E → Fin m → ℝ} {e : E} {X : E →L[ℝ] (Fin n → ℝ)} (hX : HasFDerivAt x X e)
    (hv : ∀ᶠ u in 𝓝 e, Interior p (val u) ∧ p.flatten (val u) (some false) = .ok (NDArray.vec (List.ofFn fun j => .fin (x u j))) ∧
      p.flatten (val u) (some true) = .ok (NDArray.vec (List.ofFn fun i => .fin (y u i)))) :
    ∃ A : Matrix (Fin m) (Fin n) ℝ, freeingJacobian ad p (val e) = .ok ⟨[m, n], matData A⟩ ∧
      HasFDerivAt y ((LinearMap.toContinuousLinearMap A.mulVecLin).comp X) e := by
  have hne := noEmpty_of_blocks p he
  have hI := hv.self_of_nhds.1
  obtain ⟨M, N, j1, j2, -, -, j3⟩ := inverse_all had hch p hw hf he (val e) hI
  obtain ⟨r1, M1, a1, a2, -, a4⟩ := freeing_tree_of (E := E) ad (fun _ _ _ _ _ => freeing_psd) p hw hf he (val e) hI
  obtain ⟨r2, M2, b1, b2, b3, b4⟩ := unfreeing_tree (E := E) had p hw hf he (val e) hI
  simp only [hm, hn] at j1 j2 j3 a2 a4 b1 b3 b4
  -- the flat and the free vectors near the point
  have hflat : ∀ᶠ u in 𝓝 e, p.flat (val u) = finVec n (ext (x u)) := by
    filter_upwards [hv] with u hu
    have := hu.2.1
    rw [flatten_false, flattenNF_interior p hw hf hne _ hu.1 none, Except.ok.injEq, NDArray.vec_inj, ofFn_ext] at this
    exact this
  have hfree : ∀ᶠ u in 𝓝 e, ∀ vv, p.flattenFree (val u) vv = .ok (NDArray.vec (finVec m (ext (y u)))) := by
    filter_upwards [hv] with u hu vv
    have := hu.2.2
    rw [flatten_true, ofFn_ext] at this
    obtain ⟨r, c1, c2, c3⟩ := free_val p hw hf _ hu.1 hne
    rw [c2 vv, ← c2 none, this]
  have hL : ∀ j, ∃ L : E →L[ℝ] ℝ, ∀ hj : j < n, L = (ContinuousLinearMap.proj (R := ℝ) (φ := fun _ : Fin n => ℝ) ⟨j, hj⟩).comp X := by
    intro j
    by_cases hj : j < n
    · exact ⟨(ContinuousLinearMap.proj (R := ℝ) (φ := fun _ : Fin n => ℝ) ⟨j, hj⟩).comp X, fun _ => rfl⟩
    · exact ⟨0, fun h => absurd h hj⟩
  choose L hL using hL
  have hxj : ∀ j < n, HasFDerivAt (fun u => ext (x u) j) (L j) e := by
    intro j hj
    rw [hL j hj]
    have := (hasFDerivAt_pi'.mp hX) ⟨j, hj⟩
    simpa [ext, hj] using this
  obtain ⟨f, f1, f2, -⟩ := a4 (fun u => ext (x u)) e L (by
    have h := hflat.self_of_nhds
    rw [a1, finVec_eq_map] at h
    rw [a2]
    exact (List.map_injective_iff.mpr (fun a b h => by simpa using h) h).symm) (fun j hj => hxj j (by omega))
  rw [a2] at f1 f2
  have hfy : ∀ i < m, (fun u => ext (y u) i) =ᶠ[𝓝 e] fun u => f u i := by
    intro i hi
    filter_upwards [hv, hflat, hfree, f1] with u u1 u2 u3 u4
    rw [← u2, flattenFree_unflat hw hf hne u1.1 (some false) none, u3 none, Except.ok.injEq, NDArray.vec_inj] at u4
    exact finVec_inj u4 i hi
  set L' : Nat → E →L[ℝ] ℝ := fun i => ∑ j ∈ Finset.range n, M1 i j • L j with hL'
  have hyi : ∀ i < m, HasFDerivAt (fun u => ext (y u) i) (L' i) e := fun i hi => (f2 i hi).congr_of_eventuallyEq (hfy i hi)
  obtain ⟨g, g1, g2, -⟩ := b4 (fun u => ext (y u)) e L' (by
    have h := hfree.self_of_nhds none
    rw [b2 none, finVec_eq_map, Except.ok.injEq, NDArray.vec_inj] at h
    rw [b1]
    exact (List.map_injective_iff.mpr (fun a b h => by simpa using h) h).symm) (fun j hj => hyi j (by omega))
  rw [b1] at g1 g2
  have hgx : ∀ j < n, (fun u => ext (x u) j) =ᶠ[𝓝 e] fun u => g u j := by
    intro j hj
    filter_upwards [hv, hflat, hfree, g1] with u u1 u2 u3 u4
    obtain ⟨r, c1, c2, c3⟩ := free_val p hw hf _ u1.1 hne
    have u3 := u3 none
    rw [c2 none, Except.ok.injEq, NDArray.vec_inj] at u3
    simp only [unfreeG, ← u3, c3, bind, Except.bind, flat_canon p hw _ u1.1, u2, Except.ok.injEq, NDArray.vec_inj] at u4
    exact finVec_inj u4 j hj
  have hN : ∀ j < n, ∀ k < m, N j k = M2 j k := by
    rw [j2, Except.ok.injEq] at b3
    exact fun j hj k hk => by simpa using ofFn2_inj b3 j hj k hk
  have hLL : ∀ j < n, L j = ∑ k ∈ Finset.range m, N j k • L' k := by
    intro j hj
    have := ((g2 j hj).congr_of_eventuallyEq (hgx j hj)).unique (hxj j hj)
    rw [← this]
    exact Finset.sum_congr rfl fun k hk => by rw [hN j hj k (Finset.mem_range.mp hk)]
  have hkey : ∀ i < m, ∑ j ∈ Finset.range n, M i j • L j = L' i := by
    intro i hi
    have h1 : ∀ j ∈ Finset.range n, M i j • L j = ∑ k ∈ Finset.range m, (M i j * N j k) • L' k := by
      intro j hj
      rw [hLL j (Finset.mem_range.mp hj), Finset.smul_sum]
      simp only [smul_smul]
    rw [Finset.sum_congr rfl h1, Finset.sum_comm]
    simp only [← Finset.sum_smul]
    rw [Finset.sum_congr rfl fun k hk => by rw [j3 i hi k (Finset.mem_range.mp hk)]]
    simp [hi]
  refine ⟨mat m n M, by rw [j1]; exact congrArg _ (matData_of m n M), ?_⟩
  rw [hasFDerivAt_pi']
  intro i
  have := hyi i i.2
  simp only [ext, i.2, dite_true, Fin.eta] at this
  refine this.congr_fderiv ?_
  rw [← hkey i i.2]
  apply ContinuousLinearMap.ext
  intro w
  simp only [ContinuousLinearMap.comp_apply, ContinuousLinearMap.proj_apply, LinearMap.coe_toContinuousLinearMap', Matrix.mulVecLin_apply,
    Matrix.mulVec, dotProduct, mat, Matrix.of_apply, _root_.sum_apply, _root_.smul_apply, smul_eq_mul]
  rw [Finset.sum_range]
  exact Finset.sum_congr rfl fun j _ => by rw [hL j j.2]; simp

end Jac

end Paragami
