import Verif.Proofs.JacobianInv
import Verif.Proofs.Built
import Verif.Props.RoundTrip

/-! # Jacobians of the free and unfree maps (C41–C45) -/

namespace Paragami
open NDArray Pattern Spec

/-- **C41.**  At every value strictly between the bounds both Jacobians of a numeric pattern are the derivatives. -/
theorem C41_numeric_jacobians (ad : AutogradJacobian) {c s lb ub dv fd} (hp : Built (.numeric c s lb ub dv fd))
    {v : Val Flt} (hI : Interior (.numeric c s lb ub dv fd) v) :
    (∃ J, freeingJacobian ad (.numeric c s lb ub dv fd) v = .ok J ∧ IsFreeingJacobian (.numeric c s lb ub dv fd) v J) ∧
    (∃ J, unfreeingJacobian ad (.numeric c s lb ub dv fd) v = .ok J ∧ IsUnfreeingJacobian (.numeric c s lb ub dv fd) v J) := by
  refine ⟨Jac.freeing_correct ad hp.wf trivial trivial hI, ?_⟩
  obtain ⟨ad', had⟩ := Jac.autogradSpec_exists
  rw [Jac.unfreeing_ad ad ad' (.numeric c s lb ub dv fd) trivial]
  exact Jac.unfreeing_correct had hp.wf (by simp [FiniteLb]) trivial hI

/-- **C42.**  At every positive simplex value both Jacobians of a simplex pattern are the derivatives. -/
theorem C42_simplex_jacobians (ad : AutogradJacobian) {k s dv fd} (hp : Built (.simplex k s dv fd)) (hs : 0 < s.prod)
    {v : Val Flt} (hI : Interior (.simplex k s dv fd) v) :
    (∃ J, freeingJacobian ad (.simplex k s dv fd) v = .ok J ∧ IsFreeingJacobian (.simplex k s dv fd) v J) ∧
    (∃ J, unfreeingJacobian ad (.simplex k s dv fd) v = .ok J ∧ IsUnfreeingJacobian (.simplex k s dv fd) v J) := by
  refine ⟨Jac.freeing_correct ad hp.wf trivial hs hI, ?_⟩
  obtain ⟨ad', had⟩ := Jac.autogradSpec_exists
  rw [Jac.unfreeing_ad ad ad' (.simplex k s dv fd) trivial]
  exact Jac.unfreeing_correct had hp.wf (by simp [FiniteLb]) hs hI

/-- **C43.**  In a tree of numeric and simplex patterns both Jacobians are the derivatives of the tree's own maps. -/
theorem C43_tree_jacobians (ad : AutogradJacobian) {p : Pattern} (hp : Built p) (hn : NoPSD p) (he : NoEmptyBlocks p)
    {v : Val Flt} (hI : Interior p v) :
    (∃ J, freeingJacobian ad p v = .ok J ∧ IsFreeingJacobian p v J) ∧
    (∃ J, unfreeingJacobian ad p v = .ok J ∧ IsUnfreeingJacobian p v J) := by
  refine ⟨Jac.freeing_correct ad hp.wf hn he hI, ?_⟩
  obtain ⟨ad', had⟩ := Jac.autogradSpec_exists
  rw [Jac.unfreeing_ad ad ad' _ hn]
  exact Jac.unfreeing_correct had hp.wf (Jac.finiteLb_of_noPSD p hn) he hI

/-- **C43.**  With positive definite matrices in the tree, the unfreeing Jacobian is the derivative if `autograd`'s is. -/
theorem C43_tree_unfreeing_jacobian {ad : AutogradJacobian} (had : AutogradSpec ad) {p : Pattern} (hp : Built p) (hf : p.FiniteLb)
    (he : NoEmptyBlocks p) {v : Val Flt} (hI : Interior p v) :
    ∃ J, unfreeingJacobian ad p v = .ok J ∧ IsUnfreeingJacobian p v J :=
  Jac.unfreeing_correct had hp.wf hf he hI

/-- **C43.**  A dictionary's Jacobians are block diagonal, with one block per member, in order. -/
theorem C43_dict_blocks (ad : AutogradJacobian) (es : Entries) (l fd) (vs : List (String × Val Flt))
    (Js : List (Nat × Nat × NDArray Flt)) (hm : ∀ b ∈ Js, b.2.2.shape = [b.1, b.2.1] ∧ b.2.2.WF) (hne : es ≠ .nil) :
    (List.Forall₂ (fun kp b => ∃ v, vs.lookup kp.1 = some v ∧ freeingJacobian ad kp.2 v = .ok b.2.2) es.toList Js →
      ∃ J, freeingJacobian ad (.dict es l fd) (.dict vs) = .ok J ∧ IsBlockDiag Js J) ∧
    (List.Forall₂ (fun kp b => ∃ v, vs.lookup kp.1 = some v ∧ unfreeingJacobian ad kp.2 v = .ok b.2.2) es.toList Js →
      ∃ J, unfreeingJacobian ad (.dict es l fd) (.dict vs) = .ok J ∧ IsBlockDiag Js J) := by
  have hJ : ∀ {R : String × Pattern → Nat × Nat × NDArray Flt → Prop}, List.Forall₂ R es.toList Js → Js ≠ [] := by
    intro R h hn
    subst hn
    cases es with
    | nil => exact hne rfl
    | cons k p r => simp [Entries.toList] at h
  constructor
  · intro h
    obtain ⟨J, h1, h2⟩ := Jac.blockDiag_spec hm (hJ h)
    refine ⟨J, ?_, h2⟩
    have := Jac.freeingJacobianEs_eq ad es vs (Js.map (·.2.2)) (by rw [List.forall₂_map_right_iff]; exact h)
    simp only [freeingJacobian, Val.asDict, bind, Except.bind, this, h1]
  · intro h
    obtain ⟨J, h1, h2⟩ := Jac.blockDiag_spec hm (hJ h)
    refine ⟨J, ?_, h2⟩
    have := Jac.unfreeingJacobianEs_eq ad es vs (Js.map (·.2.2)) (by rw [List.forall₂_map_right_iff]; exact h)
    simp only [unfreeingJacobian, Val.asDict, bind, Except.bind, this, h1]

/-- **C43.**  A pattern array's Jacobians are block diagonal, with one block per item, in row-major order. -/
theorem C43_array_blocks (ad : AutogradJacobian) (s : List Nat) (b : Pattern) (fd) (a : NDArray Flt) (bs : List Nat)
    (hsh : a.shape = s ++ bs) (m n : Nat) (g : Nat → NDArray Flt) (hm : ∀ i < s.prod, (g i).shape = [m, n] ∧ (g i).WF)
    (hs : 0 < s.prod) :
    ((∀ i < s.prod, freeingJacobian ad b (.arr ⟨bs, block bs.prod a.data i⟩) = .ok (g i)) →
      ∃ J, freeingJacobian ad (.array s b fd) (.arr a) = .ok J ∧ IsBlockDiag ((List.range s.prod).map fun i => (m, n, g i)) J) ∧
    ((∀ i < s.prod, unfreeingJacobian ad b (.arr ⟨bs, block bs.prod a.data i⟩) = .ok (g i)) →
      ∃ J, unfreeingJacobian ad (.array s b fd) (.arr a) = .ok J ∧ IsBlockDiag ((List.range s.prod).map fun i => (m, n, g i)) J) := by
  have hs' : s.prod ≠ 0 := by omega
  obtain ⟨J, h1, h2⟩ := Jac.blockDiag_spec (Js := (List.range s.prod).map fun i => (m, n, g i)) (by
    simp only [List.mem_map, List.mem_range]
    rintro _ ⟨i, hi, rfl⟩
    exact hm i hi) (by simpa using hs')
  have h1' : blockDiag ((List.range s.prod).map g) = .ok J := by rw [← h1, List.map_map]; rfl
  constructor
  · intro h
    refine ⟨J, ?_, h2⟩
    simp only [freeingJacobian, Val.asArr, bind, Except.bind]
    rw [Jac.jacobianItems_eq hsh (g := g) h, h1']
  · intro h
    refine ⟨J, ?_, h2⟩
    simp only [unfreeingJacobian, Val.asArr, bind, Except.bind]
    rw [Jac.jacobianItems_eq hsh (g := g) h, h1']

/-- **C43.**  An empty dictionary has no Jacobian: both methods raise `ValueError`. -/
theorem C43_empty_dict (ad : AutogradJacobian) (l fd) (vs : List (String × Val Flt)) :
    (∃ msg, freeingJacobian ad (.dict .nil l fd) (.dict vs) = .error (.valueError msg)) ∧
    (∃ msg, unfreeingJacobian ad (.dict .nil l fd) (.dict vs) = .error (.valueError msg)) := by
  simp [freeingJacobian, unfreeingJacobian, freeingJacobianEs, unfreeingJacobianEs, Val.asDict, bind, Except.bind, blockDiag]

/-- **C44.**  The product of the freeing and the unfreeing Jacobian is the identity. -/
theorem C44_inverse (ad : AutogradJacobian) {p : Pattern} (hp : Built p) (hn : NoPSD p) (he : NoEmptyBlocks p)
    {v : Val Flt} (hI : Interior p v) :
    ∃ (n m : Nat) (A : Matrix (Fin m) (Fin n) ℝ) (B : Matrix (Fin n) (Fin m) ℝ),
      p.flatLength (some false) = .ok n ∧ p.flatLength (some true) = .ok m ∧
      freeingJacobian ad p v = .ok ⟨[m, n], matData A⟩ ∧ unfreeingJacobian ad p v = .ok ⟨[n, m], matData B⟩ ∧ A * B = 1 := by
  obtain ⟨A, B, h⟩ := Jac.inverse_tree ad hp.wf hn he hI
  exact ⟨_, _, A, B, rfl, rfl, h⟩

/-- **C45.**  For nested dictionaries of numeric patterns the two log-determinants are those of the Jacobians, and are
negatives of each other. -/
theorem C45_log_det (ad : AutogradJacobian) {p : Pattern} (hp : Built p) (hn : NumericDicts p) (he : NoEmptyBlocks p)
    {v : Val Flt} (hI : Interior p v) :
    ∃ (n : Nat) (A B : Matrix (Fin n) (Fin n) ℝ),
      freeingJacobian ad p v = .ok ⟨[n, n], matData A⟩ ∧ unfreeingJacobian ad p v = .ok ⟨[n, n], matData B⟩ ∧
      A.det ≠ 0 ∧ B.det ≠ 0 ∧
      logAbsDetFreeing p v = .ok (.fin (Real.log |A.det|)) ∧ logAbsDetUnfreeing p v = .ok (.fin (Real.log |B.det|)) ∧
      Real.log |B.det| = -Real.log |A.det| := by
  obtain ⟨d, h1, _, _, h4, h5, h6⟩ := Jac.log_det_tree ad p hp.wf hn v hI
  obtain ⟨e1, e2⟩ := h6 he
  have h1' : ∀ x ∈ d.map (fun x => x⁻¹), 0 < x := by
    simp only [List.mem_map]
    rintro _ ⟨y, hy, rfl⟩
    exact inv_pos.mpr (h1 y hy)
  have hdA := Jac.log_det_diag h1
  have hdB := Jac.log_det_diag h1'
  rw [List.length_map] at hdB
  refine ⟨d.length, Jac.mat d.length d.length (Jac.diagE d), Jac.mat d.length d.length (Jac.diagE (d.map (fun x => x⁻¹))),
    ?_, ?_, Jac.det_diag_ne h1, ?_, by rw [hdA, h4], by rw [hdB, h5], by rw [hdA, hdB, Jac.log_sum_inv h1]⟩
  · rw [e1]; exact congrArg _ (matData_of _ _ _)
  · rw [e2]; exact congrArg _ (matData_of _ _ _)
  · have := Jac.det_diag_ne h1'
    rwa [List.length_map] at this

/-- **C45.**  The two log-determinants are numbers that are negatives of each other, also for empty dictionaries. -/
theorem C45_log_det_neg {p : Pattern} (hp : Built p) (hn : NumericDicts p) {v : Val Flt} (hI : Interior p v) :
    ∃ x : ℝ, logAbsDetFreeing p v = .ok (.fin x) ∧ logAbsDetUnfreeing p v = .ok (.fin (-x)) := by
  obtain ⟨d, h1, _, _, h4, h5, _⟩ := Jac.log_det_tree (fun _ _ => .error .unmodelled) p hp.wf hn v hI
  exact ⟨_, h4, by rw [h5, Jac.log_sum_inv h1]⟩

/-- **C45.**  With any other leaf in the tree both raise `NotImplementedError`. -/
theorem C45_other_leaves {p : Pattern} (hp : Built p) (hn : ¬ NumericDicts p) {v : Val Flt} (hI : Interior p v) :
    (∃ msg, logAbsDetFreeing p v = .error (.notImplementedError msg)) ∧
      ∃ msg, logAbsDetUnfreeing p v = .error (.notImplementedError msg) :=
  Jac.log_det_error p hp.wf v hI hn

/-! ### Examples -/

/-- A dictionary with a vector bounded on both sides, an array of simplexes, and a nested dictionary. -/
noncomputable def exJac : Pattern :=
  .dict (.cons "v" (.numeric .vector [2] (.int 0) (.flt (.fin 1)) true none)
    (.cons "a" (.array [2] (.simplex 3 [2] true none) none)
      (.cons "d" (.dict (.cons "s" (.numeric .scalar [1] (.flt .ninf) (.int 3) true none) .nil) true none) .nil))) false none

theorem exJac_wf : exJac.WF := by
  simp [exJac, Pattern.WF, WFEs, Entries.keys, Entries.toList, lock, isDict, PyNum.toFlt, Flt.lt]

theorem exJac_value : ∃ v, Interior exJac v := by
  obtain ⟨v, _, h, _⟩ := free_vec exJac exJac_wf (by simp [exJac, FiniteLb, FiniteLbEs]) (List.replicate 11 0)
    (by simp [exJac, flatLen, flatLenEs])
  exact ⟨v, h⟩

/-- C43 and C44 are not vacuous: the hypotheses hold for a nested tree, whose Jacobians are 11 × 15 and 15 × 11. -/
example : Built exJac ∧ NoPSD exJac ∧ NoEmptyBlocks exJac ∧ (∃ v, Interior exJac v) ∧
    exJac.flatLength (some true) = .ok 11 ∧ exJac.flatLength (some false) = .ok 15 :=
  ⟨WF.built _ exJac_wf, by simp [exJac, NoPSD, NoPSDEs], by simp [exJac, NoEmptyBlocks, NoEmptyBlocksEs], exJac_value,
    by simp [exJac, flatLength_some, flatLen, flatLenEs], by simp [exJac, flatLength_some, flatLen, flatLenEs]⟩

/-- C41 is not vacuous: a vector in `[0, ∞)` and an interior value; there the freeing Jacobian is `diag(1/x)`. -/
example : Built (.numeric .vector [2] (.int 0) (.flt .pinf) true none) ∧
    Interior (.numeric .vector [2] (.int 0) (.flt .pinf) true none) (.arr ⟨[2], [.fin 2, .fin 4]⟩) ∧
    freeingJacobian (fun _ _ => .error .unmodelled) (.numeric .vector [2] (.int 0) (.flt .pinf) true none)
      (.arr ⟨[2], [.fin 2, .fin 4]⟩) = .ok ⟨[2, 2], [.fin (1 / 2), .fin 0, .fin 0, .fin (1 / 4)]⟩ := by
  refine ⟨WF.built _ (by simp [Pattern.WF, PyNum.toFlt, Flt.lt]), ?_, ?_⟩
  · simp [Interior, NDArray.WF, atleast1d, PyNum.toFlt, Flt.lt]
  · simp [freeingJacobian, Val.asArr, bind, Except.bind, pure, Except.pure, Numeric.freeingJacobian, diagMat, ofFn2, PyNum.toFlt,
      unconstrainJac1, Flt.eq, List.range_succ]
    rw [Flt.div_fin 1 2 (by norm_num), Flt.div_fin 1 4 (by norm_num)]
    norm_num

/-- C42 is not vacuous: a simplex with entries 1/4 and 3/4. -/
example : Built (.simplex 2 [1] true none) ∧ Interior (.simplex 2 [1] true none) (.arr ⟨[1, 2], [.fin (1 / 4), .fin (3 / 4)]⟩) := by
  refine ⟨WF.built _ (by simp [Pattern.WF]), by simp [NDArray.WF], rfl, fun i hi => ⟨[1 / 4, 3 / 4], ?_, ?_, by norm_num⟩⟩
  · obtain rfl : i = 0 := by simpa using hi
    simp [block]
  · intro x hx
    simp at hx
    rcases hx with rfl | rfl <;> norm_num

/-- `C43_tree_unfreeing_jacobian` is not vacuous: a correct `autograd.jacobian` exists, and the hypotheses hold for a tree
with a matrix in it. -/
example : (∃ ad, AutogradSpec ad) ∧ Built exPat ∧ exPat.FiniteLb ∧ NoEmptyBlocks exPat ∧ ∃ v, Interior exPat v :=
  ⟨Jac.autogradSpec_exists, exPat_built, exPat_finiteLb, by simp [exPat, exInner, NoEmptyBlocks, NoEmptyBlocksEs], by
    obtain ⟨v, _, _, _, h, _⟩ := exPat_value; exact ⟨v, h⟩⟩

/-- `C43_dict_blocks` is not vacuous: a block diagonal matrix of a 1 × 2 and a 1 × 1 block. -/
example : IsBlockDiag [(1, 2, ⟨[1, 2], [.fin 1, .fin 2]⟩), (1, 1, ⟨[1, 1], [.fin 3]⟩)]
    ⟨[2, 3], [.fin 1, .fin 2, .fin 0, .fin 0, .fin 0, .fin 3]⟩ := by
  obtain ⟨J, h1, h2⟩ := Jac.blockDiag_spec (Js := [(1, 2, ⟨[1, 2], [.fin 1, .fin 2]⟩), (1, 1, ⟨[1, 1], [.fin 3]⟩)])
    (by simp [NDArray.WF]) (by simp)
  have : J = ⟨[2, 3], [.fin 1, .fin 2, .fin 0, .fin 0, .fin 0, .fin 3]⟩ := by
    simp [blockDiag, ofFn2, matDims, blockEntry, List.range_succ, entry] at h1
    exact h1.symm
  rwa [this] at h2

/-- C45 is not vacuous: nested dictionaries of numeric patterns, with an interior value; and a tree with another leaf. -/
example : ∃ p v, Built p ∧ NumericDicts p ∧ NoEmptyBlocks p ∧ Interior p v ∧ p.flatLength (some true) = .ok 3 := by
  set p : Pattern := .dict (.cons "v" (.numeric .vector [2] (.int 0) (.flt (.fin 1)) true none)
    (.cons "d" (.dict (.cons "s" (.numeric .scalar [1] (.flt .ninf) (.int 3) true none) .nil) true none) .nil)) false none with hp
  have hw : p.WF := by simp [hp, Pattern.WF, WFEs, Entries.keys, Entries.toList, lock, PyNum.toFlt, Flt.lt]
  obtain ⟨v, _, h, _⟩ := free_vec p hw (by simp [hp, FiniteLb, FiniteLbEs]) (List.replicate 3 0) (by simp [hp, flatLen, flatLenEs])
  exact ⟨p, v, WF.built _ hw, by simp [hp, NumericDicts, NumericDictsEs], by simp [hp, NoEmptyBlocks, NoEmptyBlocksEs], h,
    by simp [hp, flatLength_some, flatLen, flatLenEs]⟩
example : Built exJac ∧ ¬ NumericDicts exJac ∧ ∃ v, Interior exJac v :=
  ⟨WF.built _ exJac_wf, by simp [exJac, NumericDicts, NumericDictsEs], exJac_value⟩

end Paragami
