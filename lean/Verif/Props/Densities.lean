import Verif.Props.Jacobians
import Verif.Props.PSDFactor
import Mathlib.MeasureTheory.Function.Jacobian
import Verif.Spec.Densities

/-!
# C110: densities and the log-determinants
-/

namespace Paragami
open NDArray Pattern Flt Spec Topology MeasureTheory

theorem realVec_inj {n : Nat} {x y : Fin n → ℝ} (h : realVec x = realVec y) : x = y := by
  simp only [realVec, vec_inj] at h
  have := List.ofFn_injective h
  funext i
  exact Flt.fin.inj (congrFun this i)

theorem realVec_map {n : Nat} (x : Fin n → ℝ) : realVec x = vec ((List.ofFn x).map .fin) := by
  simp [realVec, List.map_ofFn, Function.comp_def]

theorem numericDicts_square (p : Pattern) (h : NumericDicts p) : p.flatLen false = p.flatLen true := by
  induction p using Pattern.ind (Q := fun es => NumericDictsEs es → flatLenEs es false = flatLenEs es true) with
  | hnum => simp [flatLen]
  | hsim | hpsd | harr => simp [NumericDicts] at h
  | hdict es l fd ih => simp only [NumericDicts] at h; simp only [flatLen]; exact ih h
  | hnil => simp [flatLenEs]
  | hcons k p r ihp ihr h => simp only [NumericDictsEs] at h; simp only [flatLenEs, ihp h.1, ihr h.2]

theorem numericDicts_finiteLb (p : Pattern) (h : NumericDicts p) : p.FiniteLb := by
  induction p using Pattern.ind (Q := fun es => NumericDictsEs es → FiniteLbEs es) with
  | hnum => simp [FiniteLb]
  | hsim | hpsd | harr => simp [NumericDicts] at h
  | hdict es l fd ih => simp only [NumericDicts] at h; simp only [FiniteLb]; exact ih h
  | hnil => simp [FiniteLbEs]
  | hcons k p r ihp ihr h => simp only [NumericDictsEs] at h; simp only [FiniteLbEs]; exact ⟨ihp h.1, ihr h.2⟩

theorem numericDicts_noPSD (p : Pattern) (h : NumericDicts p) : NoPSD p := by
  induction p using Pattern.ind (Q := fun es => NumericDictsEs es → NoPSDEs es) with
  | hnum => simp [NoPSD]
  | hsim | hpsd | harr => simp [NumericDicts] at h
  | hdict es l fd ih => simp only [NumericDicts] at h; simp only [NoPSD]; exact ih h
  | hnil => simp [NoPSDEs]
  | hcons k p r ihp ihr h => simp only [NumericDictsEs] at h; simp only [NoPSDEs]; exact ⟨ihp h.1, ihr h.2⟩

theorem det_mulVec {n : Nat} (B : Matrix (Fin n) (Fin n) ℝ) : (LinearMap.toContinuousLinearMap B.mulVecLin).det = B.det := by
  rw [ContinuousLinearMap.det, LinearMap.coe_toContinuousLinearMap, ← Matrix.toLin'_apply', LinearMap.det_toLin']

/-- Everything the free map and the log-determinants do at one free vector. -/
theorem density_point (ad : AutogradJacobian) {p : Pattern} (hp : Built p) (hn : NumericDicts p) (he : NoEmptyBlocks p) (y : Fin (p.flatLen true) → ℝ) :
    ∃ (V : Val Flt) (x : Fin (p.flatLen true) → ℝ) (d : ℝ), p.fold (realVec y) (some true) = .ok V ∧ Interior p V ∧
      p.flatten V (some true) = .ok (realVec y) ∧ p.flatten V (some false) = .ok (realVec x) ∧
      p.fold (realVec x) (some false) (some false) = .ok V ∧ unfreeingMap p (realVec y) = .ok (realVec x) ∧ freeingMap p (realVec x) = .ok (realVec y) ∧
      logAbsDetUnfreeing p V = .ok (.fin d) ∧ logAbsDetFreeing p V = .ok (.fin (-d)) ∧
      ∀ u : (Fin (p.flatLen true) → ℝ) → Fin (p.flatLen true) → ℝ, (∀ y, unfreeingMap p (realVec y) = .ok (realVec (u y))) →
        ∃ f' : (Fin (p.flatLen true) → ℝ) →L[ℝ] (Fin (p.flatLen true) → ℝ), HasFDerivAt u f' y ∧ |f'.det| = Real.exp d := by
  have hf := numericDicts_finiteLb p hn
  have hne := Jac.noEmpty_of_blocks p he
  obtain ⟨V, h1, hI, hwf, -, h2⟩ := free_vec p hp.wf hf (List.ofFn y) (by simp)
  obtain ⟨r, g1, g2⟩ := C11_free_value hp hf hne hI
  have hy : ∀ vv, p.flatten V (some true) vv = .ok (realVec y) := fun vv => by rw [flatten_true, realVec_map]; exact h2 hne vv
  have hfold : p.fold (realVec y) (some true) = .ok V := by rw [fold_true, realVec_map]; exact h1
  have hcan : canon p V = V := by
    have e1 := (g2 none none).1
    rw [hy none] at e1
    injection e1 with e1
    have e2 := (g2 none none).2
    rw [← e1, hfold] at e2
    injection e2 with e2
    exact e2.symm
  obtain ⟨J, hJ, m, n, z, hm, hn', hz, f, B, hB1, hB2, rfl⟩ := (C43_tree_jacobians ad hp (numericDicts_noPSD p hn) he hI).2
  rw [flatLength_some, Except.ok.injEq] at hm hn'
  rw [numericDicts_square p hn] at hm
  subst hm hn'
  have hzy : z = y := by
    have := hz none
    rw [hy none] at this
    injection this with this
    exact (realVec_inj this).symm
  subst hzy
  have hx := hB1.self_of_nhds
  have hfl : p.flatten V (some false) = .ok (realVec (f z)) := by
    have : unfreeingMap p (realVec z) = p.flatten V (some false) := by simp only [unfreeingMap, hfold, bind, Except.bind]
    rw [← this]; exact hx
  have hfl' : p.flatten V (some false) (some false) = .ok (realVec (f z)) := by
    rw [← hfl, flatten_false, flatten_false, Jac.flattenNF_interior p hp.wf hf hne V hI, Jac.flattenNF_interior p hp.wf hf hne V hI]
  have hback : p.fold (realVec (f z)) (some false) (some false) = .ok V := by rw [C04_nonfree_value hp hwf hfl', hcan]
  obtain ⟨n', A, B', -, k2, -, k4, k5, k6, k7⟩ := C45_log_det ad hp hn he hI
  rw [hJ] at k2
  injection k2 with k2
  have hs := congrArg NDArray.shape k2
  simp only [List.cons.injEq, and_true] at hs
  obtain rfl := hs.1
  have hBB := matData_inj (congrArg NDArray.data k2)
  subst hBB
  refine ⟨V, f z, Real.log |B.det|, hfold, hI, hy none, hfl, hback, hx, by simp only [freeingMap, hback, bind, Except.bind, hy], k6, by rw [k5, k7, neg_neg],
    fun u hu => ⟨_, hB2.congr_of_eventuallyEq ?_, ?_⟩⟩
  · filter_upwards [hB1] with w hw
    have := hu w
    rw [show unfreeingMap p (realVec w) = _ from hw] at this
    injection this with this
    exact (realVec_inj this).symm
  · rw [det_mulVec, Real.exp_log (abs_pos.mpr k4)]

/-- **C110.**  For a numeric pattern, or nested dictionaries of them, the free map is a bijection from all real vectors to the flat vectors strictly inside the
constraint set, and `log_abs_det_unfreeing_jacobian` is the correction that makes integrals agree: for every function, the integral over the constraint set
is the integral over all free vectors of the function at the unfreed vector times `exp` of the log-determinant. -/
theorem C110_unfreeing {p : Pattern} (hp : Built p) (hn : NumericDicts p) (he : NoEmptyBlocks p) {n : Nat} (hl : p.flatLength (some true) = .ok n) :
    ∃ (u : (Fin n → ℝ) → Fin n → ℝ) (d : (Fin n → ℝ) → ℝ), (∀ y, unfreeingMap p (realVec y) = .ok (realVec (u y))) ∧
      (∀ y, ∃ v, p.fold (realVec y) (some true) = .ok v ∧ logAbsDetUnfreeing p v = .ok (.fin (d y))) ∧ Set.BijOn u Set.univ (inside p n) ∧
      (∀ f : (Fin n → ℝ) → ℝ, IntegrableOn f (inside p n) ↔ Integrable fun y => f (u y) * Real.exp (d y)) ∧
      (∀ f : (Fin n → ℝ) → ℝ, ∫ x in inside p n, f x = ∫ y, f (u y) * Real.exp (d y)) ∧
      ∀ f : (Fin n → ℝ) → ENNReal, ∫⁻ x in inside p n, f x = ∫⁻ y, f (u y) * ENNReal.ofReal (Real.exp (d y)) := by
  rw [flatLength_some, Except.ok.injEq] at hl
  subst hl
  choose V u d h1 h2 h3 h4 h5 h6 h7 h8 h9 h10 using density_point (fun _ _ => .error .unmodelled) hp hn he
  choose f' h11 h12 using fun y => h10 y u h6
  have hne := Jac.noEmpty_of_blocks p he
  have hf := numericDicts_finiteLb p hn
  have hinj : Function.Injective u := fun a b hab => by
    have e1 := h7 a
    rw [hab, h7 b] at e1
    injection e1 with e1
    exact (realVec_inj e1).symm
  have himg : u '' Set.univ = inside p (p.flatLen true) := by
    ext x
    simp only [Set.image_univ, Set.mem_range]
    constructor
    · rintro ⟨y, rfl⟩
      exact ⟨V y, h5 y, h2 y⟩
    · rintro ⟨v, g1, g2⟩
      obtain ⟨r, k1, k2⟩ := C11_free_value hp hf hne g2
      rw [flatLength_some, Except.ok.injEq] at k1
      have k3 : p.flatten v (some false) (some false) = .ok (realVec x) := C05_nonfree_vector hp hne g1
      have hwf : v.WF := by
        have g1' := g1
        rw [fold_false] at g1'
        obtain ⟨a1, rfl, -⟩ := foldNF_ok_imp p hp.wf _ _ v g1'
        exact unflat_wf p hp.wf _ a1
      have k4 := C04_nonfree_value hp hwf k3
      rw [g1] at k4
      injection k4 with k4
      have k5 := (k2 none none).2
      rw [← k4] at k5
      refine ⟨fun i => r.get (i.cast k1), ?_⟩
      have e0 : realVec (fun i : Fin (p.flatLen true) => r.get (i.cast k1)) = vec (r.map .fin) := by
        rw [realVec_map]
        congr 2
        apply List.ext_getElem
        · simp [k1]
        · intro i _ _; simp
      have e1 := h1 fun i => r.get (i.cast k1)
      rw [e0, k5] at e1
      injection e1 with e1
      have e2 := h4 fun i => r.get (i.cast k1)
      rw [← e1, flatten_false, Jac.flattenNF_interior p hp.wf hf hne v g2, ← Jac.flattenNF_interior p hp.wf hf hne v g2 (some false), ← flatten_false, k3] at e2
      injection e2 with e2
      exact (realVec_inj e2).symm
  have hd : ∀ y ∈ Set.univ, HasFDerivWithinAt u (f' y) Set.univ y := fun y _ => (h11 y).hasFDerivWithinAt
  refine ⟨u, d, h6, fun y => ⟨V y, h1 y, h8 y⟩, ⟨fun y _ => himg ▸ ⟨y, trivial, rfl⟩, hinj.injOn, himg.ge⟩, fun f => ?_, fun f => ?_, fun f => ?_⟩
  · rw [← himg, integrableOn_image_iff_integrableOn_abs_det_fderiv_smul volume MeasurableSet.univ hd hinj.injOn, integrableOn_univ]
    simp only [h12, smul_eq_mul, mul_comm]
  · rw [← himg, integral_image_eq_integral_abs_det_fderiv_smul volume MeasurableSet.univ hd hinj.injOn, Measure.restrict_univ]
    simp only [h12, smul_eq_mul, mul_comm]
  · rw [← himg, lintegral_image_eq_lintegral_abs_det_fderiv_mul volume MeasurableSet.univ hd hinj.injOn, Measure.restrict_univ]
    simp only [h12, mul_comm]

/-- **C110, the other direction.**  Freeing is the inverse bijection, and `log_abs_det_freeing_jacobian` is its correction. -/
theorem C110_freeing {p : Pattern} (hp : Built p) (hn : NumericDicts p) (he : NoEmptyBlocks p) {n : Nat} (hl : p.flatLength (some true) = .ok n) :
    ∃ (t : (Fin n → ℝ) → Fin n → ℝ) (d : (Fin n → ℝ) → ℝ), (∀ x ∈ inside p n, freeingMap p (realVec x) = .ok (realVec (t x)) ∧
        ∃ v, p.fold (realVec x) (some false) (some false) = .ok v ∧ logAbsDetFreeing p v = .ok (.fin (d x))) ∧ Set.BijOn t (inside p n) Set.univ ∧
      (∀ f : (Fin n → ℝ) → ℝ, Integrable f ↔ IntegrableOn (fun x => f (t x) * Real.exp (d x)) (inside p n)) ∧
      (∀ f : (Fin n → ℝ) → ℝ, ∫ y, f y = ∫ x in inside p n, f (t x) * Real.exp (d x)) ∧
      ∀ f : (Fin n → ℝ) → ENNReal, ∫⁻ y, f y = ∫⁻ x in inside p n, f (t x) * ENNReal.ofReal (Real.exp (d x)) := by
  obtain ⟨u, d, h1, h2, h3, h4, h5, h6⟩ := C110_unfreeing hp hn he hl
  rw [flatLength_some, Except.ok.injEq] at hl
  subst hl
  have key : ∀ y, ∃ v, freeingMap p (realVec (u y)) = .ok (realVec y) ∧ p.fold (realVec (u y)) (some false) (some false) = .ok v ∧
      logAbsDetFreeing p v = .ok (.fin (-d y)) := fun y => by
    obtain ⟨V, x, d', a1, -, -, -, a5, a6, a7, a8, a9, -⟩ := density_point (fun _ _ => .error .unmodelled) hp hn he y
    obtain ⟨v, b1, b2⟩ := h2 y
    rw [a1] at b1
    injection b1 with b1
    subst b1
    rw [a8] at b2
    injection b2 with b2
    injection b2 with b2
    have := h1 y
    rw [a6] at this
    injection this with this
    rw [← realVec_inj this, ← b2]
    exact ⟨V, a7, a5, a9⟩
  choose V k1 k2 k3 using key
  set t := Function.invFun u with ht
  have htu : ∀ y, t (u y) = y := Function.leftInverse_invFun fun a b hab => h3.2.1 trivial trivial hab
  have hsur : ∀ x ∈ inside p (p.flatLen true), ∃ y, u y = x := fun x hx => by
    obtain ⟨y, -, hy⟩ := h3.2.2 hx
    exact ⟨y, hy⟩
  have hone : ∀ y, Real.exp (-d y) * Real.exp (d y) = 1 := fun y => by rw [← Real.exp_add, neg_add_cancel, Real.exp_zero]
  refine ⟨t, fun x => -d (t x), ?_, ⟨fun _ _ => trivial, ?_, ?_⟩, fun f => ?_, fun f => ?_, fun f => ?_⟩
  · intro x hx
    obtain ⟨y, rfl⟩ := hsur x hx
    simp only [htu]
    exact ⟨k1 y, V y, k2 y, k3 y⟩
  · intro x hx x' hx' h
    obtain ⟨y, rfl⟩ := hsur x hx
    obtain ⟨y', rfl⟩ := hsur x' hx'
    rw [htu, htu] at h
    rw [h]
  · intro y _
    exact ⟨u y, h3.1 trivial, htu y⟩
  · rw [h4]
    simp only [mul_assoc, htu, hone, mul_one]
  · rw [h5]
    simp only [mul_assoc, htu, hone, mul_one]
  · rw [h6]
    simp only [mul_assoc, htu, ← ENNReal.ofReal_mul (Real.exp_pos _).le, hone, ENNReal.ofReal_one, mul_one]

/-- Two numbers between 0 and 1: the uniform density becomes a density on all pairs of real numbers, of total mass one. -/
example : ∃ (u : (Fin 2 → ℝ) → Fin 2 → ℝ) (d : (Fin 2 → ℝ) → ℝ),
    (∀ y, unfreeingMap (.numeric .vector [2] (.int 0) (.int 1) true none) (realVec y) = .ok (realVec (u y))) ∧
    (∀ y, ∃ v, (Pattern.numeric .vector [2] (.int 0) (.int 1) true none).fold (realVec y) (some true) = .ok v ∧
      logAbsDetUnfreeing (.numeric .vector [2] (.int 0) (.int 1) true none) v = .ok (.fin (d y))) ∧
    inside (.numeric .vector [2] (.int 0) (.int 1) true none) 2 = Set.univ.pi (fun _ => Set.Ioo 0 1) ∧ ∫⁻ y, ENNReal.ofReal (Real.exp (d y)) = 1 := by
  obtain ⟨u, d, h1, h2, -, -, -, h3⟩ := C110_unfreeing (p := .numeric .vector [2] (.int 0) (.int 1) true none)
    (WF.built _ (by simp [Pattern.WF, PyNum.toFlt, lt])) trivial trivial (n := 2) (by simp [flatLength_some, flatLen])
  have hin : inside (.numeric .vector [2] (.int 0) (.int 1) true none) 2 = Set.univ.pi (fun _ => Set.Ioo 0 1) := by
    ext x
    have e : (Pattern.numeric .vector [2] (.int 0) (.int 1) true none).fold (realVec x) (some false) (some false) =
        .ok (.arr ⟨[2], [.fin (x 0), .fin (x 1)]⟩) := by
      simp [realVec, fold_false, foldNF, Numeric.foldNF, Numeric.validate, atleast1d, vec, ndim, NDArray.size, reshape, bind, Except.bind, pure, Except.pure,
        Numeric.validateShape]
    simp [inside, Set.mem_pi, e, Interior, NDArray.WF, atleast1d, PyNum.toFlt, lt]
  refine ⟨u, d, h1, h2, hin, ?_⟩
  have := h3 fun _ => 1
  simp only [one_mul] at this
  rw [← this, hin, lintegral_one, Measure.restrict_apply_univ, Real.volume_pi_Ioo]
  simp

end Paragami
