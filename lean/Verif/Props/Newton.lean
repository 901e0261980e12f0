import Verif.Props.Optimization
import Verif.Props.ChainRule

/-!
# C124: optimizing a preconditioned function
-/

namespace Paragami
namespace Spec

/-- `d` is a Newton step of `f` at `x`: with the gradient `G` and the Hessian `H` there, `H d = -G`. -/
def NewtonStep {n : Nat} (f : (Fin n → ℝ) → ℝ) (x d : Fin n → ℝ) : Prop :=
  ∃ (G : Fin n → ℝ) (H : Matrix (Fin n) (Fin n) ℝ), HasFDerivAt f (dotMap G) x ∧ HasHessianAt f H x ∧ H.mulVec d = -G

end Spec
open NDArray LinAlg Optimization Spec

variable {n : Nat}

theorem dotMap_dot (g x : Fin n → ℝ) : dotMap g x = dotProduct g x := by rw [dotMap_apply]; rfl

theorem dotMap_inj {g g' : Fin n → ℝ} (h : dotMap g = dotMap g') : g = g' := by
  funext i
  have := congrArg (fun L : (Fin n → ℝ) →L[ℝ] ℝ => L (Pi.single i 1)) h
  simpa [dotMap_dot] using this

theorem hessian_unique {f : (Fin n → ℝ) → ℝ} {H K : Matrix (Fin n) (Fin n) ℝ} {x : Fin n → ℝ} (h : HasHessianAt f H x) (h' : HasHessianAt f K x) :
    H = K := by
  obtain ⟨-, B, hB, hv⟩ := h
  obtain ⟨-, C, hC, hw⟩ := h'
  have e : B = C := hB.unique hC
  ext i j
  have := (hv (Pi.single i 1) (Pi.single j 1)).symm.trans (e ▸ hw (Pi.single i 1) (Pi.single j 1))
  simpa using this

/-- The gradient after a linear change of variables. -/
theorem gradient_comp {f : (Fin n → ℝ) → ℝ} {G : Fin n → ℝ} {R : Matrix (Fin n) (Fin n) ℝ} {x y : Fin n → ℝ} (hf : HasFDerivAt f (dotMap G) x)
    (hx : R.mulVec y = x) : HasFDerivAt (fun w => f (R.mulVec w)) (dotMap (R.transpose.mulVec G)) y := by
  subst hx
  have h := hf.comp y (R.mulVecLin.toContinuousLinearMap.hasFDerivAt)
  have e : (dotMap G).comp R.mulVecLin.toContinuousLinearMap = dotMap (R.transpose.mulVec G) := by
    ext v
    change dotMap G (R.mulVec _) = _
    rw [dotMap_dot, dotMap_dot, Matrix.mulVec_transpose, Matrix.dotProduct_mulVec]
  rw [e] at h
  exact h

/-- **C124, minima.**  If the two functions of the preconditioner are inverse, the preconditioned function has the values of the function, and
`unprecondition` maps its minimizers to those of the function. -/
theorem C124_minima {s : Precond} (hs : Inverse s n) {F : NDArray ℝ → Except Err ℝ} {f g : (Fin n → ℝ) → ℝ} (hF : ∀ x, F (vecOf x) = .ok (f x))
    (hg : ∀ w, s.call F (vecOf w) = .ok (g w)) :
    Set.range g = Set.range f ∧
    (∀ w, ∃ x, s.unprecondition (vecOf w) = .ok (vecOf x) ∧ g w = f x ∧ ((∀ w', g w ≤ g w') ↔ ∀ x', f x ≤ f x')) ∧
    ∀ x, ∃ w, s.precondition (vecOf x) = .ok (vecOf w) ∧ g w = f x ∧ ((∀ w', g w ≤ g w') ↔ ∀ x', f x ≤ f x') := by
  have hval : ∀ w x, s.aTimes (vecOf w) = .ok (vecOf x) → g w = f x := by
    intro w x h
    have := hg w
    simp only [Precond.call, Precond.unprecondition, h, bind, Except.bind, hF, Except.ok.injEq] at this
    exact this.symm
  have hr : Set.range g = Set.range f := by
    ext y
    constructor
    · rintro ⟨w, rfl⟩
      obtain ⟨x, hx, -⟩ := (hs w).2
      exact ⟨x, (hval w x hx).symm⟩
    · rintro ⟨x, rfl⟩
      obtain ⟨w, -, hx⟩ := (hs x).1
      exact ⟨w, hval w x hx⟩
  have hmin : ∀ {a : ℝ}, (∀ w', a ≤ g w') ↔ ∀ x', a ≤ f x' := by
    intro a
    have h1 : (∀ w', a ≤ g w') ↔ ∀ y ∈ Set.range g, a ≤ y := by simp
    have h2 : (∀ x', a ≤ f x') ↔ ∀ y ∈ Set.range f, a ≤ y := by simp
    rw [h1, h2, hr]
  refine ⟨hr, fun w => ?_, fun x => ?_⟩
  · obtain ⟨x, hx, -⟩ := (hs w).2
    exact ⟨x, hx, hval w x hx, by rw [hval w x hx]; exact hmin⟩
  · obtain ⟨w, hw, hx⟩ := (hs x).1
    exact ⟨w, hw, hval w x hx, by rw [hval w x hx]; exact hmin⟩

/-- **C124, Newton steps.**  For a preconditioner given by an invertible matrix, the Newton steps of the preconditioned function are those of the
function: `unprecondition` maps the points they lead to onto each other. -/
theorem C124_newton {s : Precond} {A : Matrix (Fin n) (Fin n) ℝ} (hA : ∀ v : Fin n → ℝ, s.unprecondition (vecOf v) = .ok (vecOf (A.mulVec v)))
    (hd : A.det ≠ 0) {F : NDArray ℝ → Except Err ℝ} {f g : (Fin n → ℝ) → ℝ} (hF : ∀ x, F (vecOf x) = .ok (f x))
    (hg : ∀ w, s.call F (vecOf w) = .ok (g w)) {w x : Fin n → ℝ} (hx : s.unprecondition (vecOf w) = .ok (vecOf x))
    {G : Fin n → ℝ} {H : Matrix (Fin n) (Fin n) ℝ} (hG : HasFDerivAt f (dotMap G) x) (hH : HasHessianAt f H x) :
    HasFDerivAt g (dotMap (A.transpose.mulVec G)) w ∧ HasHessianAt g (A.transpose * H * A) w ∧
    ∀ d, NewtonStep g w d ↔ ∃ d', s.unprecondition (vecOf (w + d)) = .ok (vecOf (x + d')) ∧ NewtonStep f x d' := by
  have hge : g = fun w => f (A.mulVec w) := by
    funext w
    have := hg w
    simp only [Precond.call, hA, bind, Except.bind, hF, Except.ok.injEq] at this
    exact this.symm
  have hxw : A.mulVec w = x := vecOf_inj (Except.ok.inj ((hA w).symm.trans hx))
  have h1 : HasFDerivAt g (dotMap (A.transpose.mulVec G)) w := by rw [hge]; exact gradient_comp hG hxw
  have h2 : HasHessianAt g (A.transpose * H * A) w := by rw [hge]; exact hasHessianAt_comp hH hxw
  have hinj : Function.Injective A.transpose.mulVec :=
    Matrix.mulVec_injective_of_isUnit ((Matrix.isUnit_iff_isUnit_det _).mpr (by rw [Matrix.det_transpose]; exact isUnit_iff_ne_zero.mpr hd))
  have key : ∀ d, (A.transpose * H * A).mulVec d = -A.transpose.mulVec G ↔ H.mulVec (A.mulVec d) = -G := by
    intro d
    rw [← Matrix.mulVec_neg, ← Matrix.mulVec_mulVec, ← Matrix.mulVec_mulVec]
    exact hinj.eq_iff
  refine ⟨h1, h2, fun d => ?_⟩
  have hstep : s.unprecondition (vecOf (w + d)) = .ok (vecOf (x + A.mulVec d)) := by rw [hA, Matrix.mulVec_add, hxw]
  constructor
  · rintro ⟨G', H', g1, g2, g3⟩
    rw [dotMap_inj (g1.unique h1), hessian_unique g2 h2] at g3
    exact ⟨A.mulVec d, hstep, G, H, hG, hH, (key d).mp g3⟩
  · rintro ⟨d', e, G', H', g1, g2, g3⟩
    rw [dotMap_inj (g1.unique hG), hessian_unique g2 hH] at g3
    rw [hstep] at e
    have : A.mulVec d = d' := add_left_cancel (vecOf_inj (Except.ok.inj e))
    exact ⟨_, _, h1, h2, (key d).mpr (this ▸ g3)⟩

/-- The preconditioner made from a positive definite Hessian. -/
theorem hessian_precond {eigh : Eigh} (he : EighSpec eigh) (auto : NDArray ℝ → Except Err MatArg) {H : Matrix (Fin n) (Fin n) ℝ}
    (hH : H.transpose = H) (hp : ∀ v : Fin n → ℝ, v ≠ 0 → 0 < dotProduct v (H.mulVec v)) (s : Precond) :
    ∃ (s' : Precond) (A : Matrix (Fin n) (Fin n) ℝ), s.step eigh auto (.withHessian none (some ⟨ofMatrix H, false⟩) none none) = .ok s' ∧
      (∀ v : Fin n → ℝ, s'.unprecondition (vecOf v) = .ok (vecOf (A.mulVec v))) ∧ Inverse s' n ∧ A.transpose = A ∧ A.det ≠ 0 ∧ H * (A * A) = 1 ∧
      A * H * A = 1 := by
  obtain ⟨V, e, hV, hHV, he0⟩ := posDef_eig hH hp
  have hM : (1 / 2 : ℝ) • (H + H.transpose) = V * Matrix.diagonal e * V.transpose := by
    rw [hH, ← hHV]; ext i j; simp; ring
  obtain ⟨f, g, A, B, h, hf, hg, hAB, hBA, -, hBt, -, hAA, -⟩ := C53_square_roots he H V e none none hV hM (by simpa [Spec.clamp] using he0)
  have hAA' : A * A = H := by
    rw [hAA fun i => rfl, hH]
    ext i j; simp; ring
  refine ⟨⟨g, f⟩, B, ?_, hg, inverse_of_matrices hg hf hBA, hBt, ?_, ?_, ?_⟩
  · simp only [Option.map_none] at h
    simp only [Precond.step, Precond.withHessian, h, Option.isSome_none, Bool.false_eq_true, false_and, if_false, bind, Except.bind, pure, Except.pure]
  · intro h0
    have := congrArg Matrix.det hBA
    rw [Matrix.det_mul, h0, zero_mul, Matrix.det_one] at this
    exact zero_ne_one this
  · rw [← hAA', Matrix.mul_assoc, ← Matrix.mul_assoc A B B, hAB, Matrix.one_mul, hAB]
  · rw [← hAA', ← Matrix.mul_assoc, hBA, Matrix.one_mul, hAB]

/-- **C124, a gradient step is a Newton step.**  With the preconditioner of the Hessian at a point, going from its preconditioned image by minus the
gradient of the preconditioned function is a Newton step of the function. -/
theorem C124_one_step {eigh : Eigh} (he : EighSpec eigh) (auto : NDArray ℝ → Except Err MatArg) {H : Matrix (Fin n) (Fin n) ℝ}
    (hH : H.transpose = H) (hp : ∀ v : Fin n → ℝ, v ≠ 0 → 0 < dotProduct v (H.mulVec v)) (s : Precond) {F : NDArray ℝ → Except Err ℝ}
    {f : (Fin n → ℝ) → ℝ} (hF : ∀ x, F (vecOf x) = .ok (f x)) {x G : Fin n → ℝ} (hf : HasHessianAt f H x) (hG : HasFDerivAt f (dotMap G) x) :
    ∃ (s' : Precond) (xc Gc d : Fin n → ℝ) (g : (Fin n → ℝ) → ℝ),
      s.step eigh auto (.withHessian none (some ⟨ofMatrix H, false⟩) none none) = .ok s' ∧ s'.precondition (vecOf x) = .ok (vecOf xc) ∧
      (∀ w, s'.call F (vecOf w) = .ok (g w)) ∧ HasFDerivAt g (dotMap Gc) xc ∧ s'.unprecondition (vecOf (xc - Gc)) = .ok (vecOf (x + d)) ∧
      NewtonStep f x d := by
  obtain ⟨s', A, h1, h2, h3, h4, h5, h6, -⟩ := hessian_precond he auto hH hp s
  obtain ⟨xc, hxc, hx⟩ := (h3 x).1
  have hxw : A.mulVec xc = x := vecOf_inj (Except.ok.inj ((h2 xc).symm.trans hx))
  have hcall : ∀ w, s'.call F (vecOf w) = .ok (f (A.mulVec w)) := fun w => by simp only [Precond.call, h2, bind, Except.bind, hF]
  refine ⟨s', xc, A.transpose.mulVec G, -((A * A).mulVec G), fun w => f (A.mulVec w), h1, hxc, hcall, gradient_comp hG hxw, ?_, G, H, hG, hf, ?_⟩
  · rw [h2, Matrix.mulVec_sub, hxw, h4, Matrix.mulVec_mulVec, sub_eq_add_neg]
  · rw [Matrix.mulVec_neg, Matrix.mulVec_mulVec, h6, Matrix.one_mulVec]

theorem symmetric_dot {H : Matrix (Fin n) (Fin n) ℝ} (hH : H.transpose = H) (v w : Fin n → ℝ) : dotProduct v (H.mulVec w) = dotProduct w (H.mulVec v) := by
  rw [Matrix.dotProduct_mulVec, ← Matrix.mulVec_transpose, hH, dotProduct_comm]

theorem quadratic_gradient {H : Matrix (Fin n) (Fin n) ℝ} (hH : H.transpose = H) (c : ℝ) (b z : Fin n → ℝ) :
    HasFDerivAt (fun x : Fin n → ℝ => c + dotProduct b x + dotProduct x (H.mulVec x) / 2) (dotMap (b + H.mulVec z)) z := by
  have hsym := symmetric_dot hH
  rw [hasFDerivAt_iff_isLittleO_nhds_zero]
  have hq : (fun h : Fin n → ℝ => c + dotProduct b (z + h) + dotProduct (z + h) (H.mulVec (z + h)) / 2 -
      (c + dotProduct b z + dotProduct z (H.mulVec z) / 2) - dotMap (b + H.mulVec z) h) = fun h => dotProduct h (H.mulVec h) / 2 := by
    funext h
    rw [dotMap_dot, Matrix.mulVec_add, dotProduct_add, add_dotProduct, dotProduct_add, dotProduct_add, add_dotProduct, hsym z h,
      dotProduct_comm (H.mulVec z) h]
    ring
  rw [hq]
  have hc : (fun h : Fin n → ℝ => H.mulVec h) =o[nhds 0] fun _ => (1 : ℝ) := by
    rw [Asymptotics.isLittleO_one_iff]
    have := H.mulVecLin.toContinuousLinearMap.continuous.tendsto 0
    rw [map_zero] at this
    exact this
  have hb : (fun h : Fin n → ℝ => dotProduct h (H.mulVec h)) =o[nhds 0] fun h => h := by
    have e : (fun h : Fin n → ℝ => dotProduct h (H.mulVec h)) = ∑ i, fun h : Fin n → ℝ => h i * H.mulVec h i := by
      funext h
      rw [Finset.sum_apply]
      rfl
    rw [e]
    refine Asymptotics.IsLittleO.sum fun i _ => ?_
    have h1 : (fun h : Fin n → ℝ => h i) =O[nhds 0] fun h => h := Asymptotics.isBigO_of_le _ fun h => norm_le_pi_norm h i
    have h2 : (fun h : Fin n → ℝ => H.mulVec h i) =o[nhds 0] fun _ => (1 : ℝ) :=
      (Asymptotics.isBigO_of_le _ fun h => norm_le_pi_norm (H.mulVec h) i).trans_isLittleO hc
    have h3 := h1.norm_right.mul_isLittleO h2
    simp only [mul_one] at h3
    exact h3.of_norm_right
  have := hb.const_mul_left (1 / 2 : ℝ)
  refine this.congr_left fun h => by ring

theorem dotMap_add (g h : Fin n → ℝ) : dotMap (g + h) = dotMap g + dotMap h := by
  ext1 v
  change dotMap (g + h) v = dotMap g v + dotMap h v
  rw [dotMap_dot, dotMap_dot, dotMap_dot, add_dotProduct]

theorem dotMap_smul (a : ℝ) (h : Fin n → ℝ) : dotMap (a • h) = a • dotMap h := by
  ext1 v
  change dotMap (a • h) v = a • dotMap h v
  rw [dotMap_dot, dotMap_dot, smul_dotProduct]

theorem quadratic_hessian {H : Matrix (Fin n) (Fin n) ℝ} (hH : H.transpose = H) (c : ℝ) (b z : Fin n → ℝ) :
    HasHessianAt (fun x : Fin n → ℝ => c + dotProduct b x + dotProduct x (H.mulVec x) / 2) H z := by
  let B : (Fin n → ℝ) →ₗ[ℝ] ((Fin n → ℝ) →L[ℝ] ℝ) :=
    { toFun := fun v => dotMap (H.mulVec v)
      map_add' := fun v w => by rw [Matrix.mulVec_add, dotMap_add]
      map_smul' := fun a v => by rw [Matrix.mulVec_smul, dotMap_smul]; rfl }
  refine ⟨Filter.Eventually.of_forall fun y => (quadratic_gradient hH c b y).differentiableAt, LinearMap.toContinuousLinearMap B, ?_, fun v w => ?_⟩
  · have e : fderiv ℝ (fun x : Fin n → ℝ => c + dotProduct b x + dotProduct x (H.mulVec x) / 2) = fun y => dotMap b + LinearMap.toContinuousLinearMap B y := by
      funext y
      rw [(quadratic_gradient hH c b y).fderiv, dotMap_add]
      rfl
    rw [e]
    exact (LinearMap.toContinuousLinearMap B).hasFDerivAt.const_add _
  · change dotMap (H.mulVec v) w = _
    rw [dotMap_dot, dotProduct_comm, symmetric_dot hH]

/-- **C124, quadratic functions.**  For a quadratic function with a positive definite Hessian, preconditioned with this Hessian, going from any point by
minus the gradient of the preconditioned function leads to the minimizer in one step. -/
theorem C124_quadratic {eigh : Eigh} (he : EighSpec eigh) (auto : NDArray ℝ → Except Err MatArg) {H : Matrix (Fin n) (Fin n) ℝ}
    (hH : H.transpose = H) (hp : ∀ v : Fin n → ℝ, v ≠ 0 → 0 < dotProduct v (H.mulVec v)) (s : Precond) (c : ℝ) (b : Fin n → ℝ)
    {F : NDArray ℝ → Except Err ℝ} (hF : ∀ x : Fin n → ℝ, F (vecOf x) = .ok (c + dotProduct b x + dotProduct x (H.mulVec x) / 2)) :
    ∃ (s' : Precond) (g : (Fin n → ℝ) → ℝ) (x : Fin n → ℝ),
      s.step eigh auto (.withHessian none (some ⟨ofMatrix H, false⟩) none none) = .ok s' ∧ (∀ w, s'.call F (vecOf w) = .ok (g w)) ∧
      (∀ y, y ≠ x → c + dotProduct b x + dotProduct x (H.mulVec x) / 2 < c + dotProduct b y + dotProduct y (H.mulVec y) / 2) ∧
      ∀ w, ∃ Gc, HasFDerivAt g (dotMap Gc) w ∧ s'.unprecondition (vecOf (w - Gc)) = .ok (vecOf x) := by
  obtain ⟨s', A, h1, h2, h3, h4, h5, h6, h7⟩ := hessian_precond he auto hH hp s
  have hsym := symmetric_dot hH
  have hmin : H.mulVec (-((A * A).mulVec b)) = -b := by rw [Matrix.mulVec_neg, Matrix.mulVec_mulVec, h6, Matrix.one_mulVec]
  obtain ⟨x, hx⟩ : ∃ x, x = -((A * A).mulVec b) := ⟨_, rfl⟩
  rw [← hx] at hmin
  have hG := quadratic_gradient hH c b
  refine ⟨s', fun w => c + dotProduct b (A.mulVec w) + dotProduct (A.mulVec w) (H.mulVec (A.mulVec w)) / 2, x, h1, fun w => ?_, fun y hy => ?_,
    fun w => ⟨_, gradient_comp (hG (A.mulVec w)) rfl, ?_⟩⟩
  · simp only [Precond.call, h2, bind, Except.bind, hF]
  · have hd : y - x ≠ 0 := sub_ne_zero.mpr hy
    have hpos := hp _ hd
    have e : y = x + (y - x) := by abel
    generalize y - x = d at *
    subst e
    rw [Matrix.mulVec_add, dotProduct_add, add_dotProduct, dotProduct_add, dotProduct_add, hsym x d, hmin]
    simp only [dotProduct_neg]
    rw [dotProduct_comm d b]
    linarith
  · have e : A.mulVec (A.mulVec (H.mulVec (A.mulVec w))) = A.mulVec w := by
      rw [Matrix.mulVec_mulVec, Matrix.mulVec_mulVec, Matrix.mulVec_mulVec, Matrix.mul_assoc A A H, Matrix.mul_assoc A (A * H) A, h7, Matrix.mul_one]
    rw [h2, Matrix.mulVec_sub, h4, Matrix.mulVec_add, Matrix.mulVec_add, e, Matrix.mulVec_mulVec, hx]
    congr 2
    abel

/-- **C124, other points.**  If the Hessian at another point lies between `a` and `b` times the one used for the preconditioner, then the eigenvalues of
the Hessian of the preconditioned function at its image lie between `a` and `b`. -/
theorem C124_nearby {eigh : Eigh} (he : EighSpec eigh) (auto : NDArray ℝ → Except Err MatArg) {H K : Matrix (Fin n) (Fin n) ℝ}
    (hH : H.transpose = H) (hp : ∀ v : Fin n → ℝ, v ≠ 0 → 0 < dotProduct v (H.mulVec v)) (s : Precond) {F : NDArray ℝ → Except Err ℝ}
    {f : (Fin n → ℝ) → ℝ} (hF : ∀ x, F (vecOf x) = .ok (f x)) {x : Fin n → ℝ} (hf : HasHessianAt f K x) {a b : ℝ}
    (ha : ∀ v : Fin n → ℝ, a * dotProduct v (H.mulVec v) ≤ dotProduct v (K.mulVec v))
    (hb : ∀ v : Fin n → ℝ, dotProduct v (K.mulVec v) ≤ b * dotProduct v (H.mulVec v)) :
    ∃ (s' : Precond) (xc : Fin n → ℝ) (g : (Fin n → ℝ) → ℝ) (C : Matrix (Fin n) (Fin n) ℝ),
      s.step eigh auto (.withHessian none (some ⟨ofMatrix H, false⟩) none none) = .ok s' ∧ s'.precondition (vecOf x) = .ok (vecOf xc) ∧
      (∀ w, s'.call F (vecOf w) = .ok (g w)) ∧ HasHessianAt g C xc ∧
      (∀ v : Fin n → ℝ, a * dotProduct v v ≤ dotProduct v (C.mulVec v) ∧ dotProduct v (C.mulVec v) ≤ b * dotProduct v v) ∧
      ∀ (e : ℝ) (v : Fin n → ℝ), v ≠ 0 → C.mulVec v = e • v → a ≤ e ∧ e ≤ b := by
  obtain ⟨s', A, h1, h2, h3, h4, h5, h6, h7⟩ := hessian_precond he auto hH hp s
  obtain ⟨xc, hxc, hx⟩ := (h3 x).1
  have hxw : A.mulVec xc = x := vecOf_inj (Except.ok.inj ((h2 xc).symm.trans hx))
  have hq : ∀ (M : Matrix (Fin n) (Fin n) ℝ) (v : Fin n → ℝ), dotProduct v ((A.transpose * M * A).mulVec v) = dotProduct (A.mulVec v) (M.mulVec (A.mulVec v)) := by
    intro M v
    rw [← Matrix.mulVec_mulVec, ← Matrix.mulVec_mulVec, Matrix.dotProduct_mulVec v, Matrix.vecMul_transpose]
  have hone : ∀ v : Fin n → ℝ, dotProduct (A.mulVec v) (H.mulVec (A.mulVec v)) = dotProduct v v := by
    intro v
    rw [← hq, h4, h7, Matrix.one_mulVec]
  have hbd : ∀ v : Fin n → ℝ, a * dotProduct v v ≤ dotProduct v ((A.transpose * K * A).mulVec v) ∧
      dotProduct v ((A.transpose * K * A).mulVec v) ≤ b * dotProduct v v := by
    intro v
    rw [hq, ← hone v]
    exact ⟨ha _, hb _⟩
  refine ⟨s', xc, fun w => f (A.mulVec w), A.transpose * K * A, h1, hxc, fun w => by simp only [Precond.call, h2, bind, Except.bind, hF],
    hasHessianAt_comp hf hxw, hbd, fun e v hv hev => ?_⟩
  have hpos : 0 < dotProduct v v := by
    rcases (Finset.sum_nonneg fun i _ => mul_self_nonneg (v i) : 0 ≤ dotProduct v v).lt_or_eq with h | h
    · exact h
    · exact absurd (dotProduct_self_eq_zero.mp h.symm) hv
  have := hbd v
  rw [hev, dotProduct_smul, smul_eq_mul] at this
  exact ⟨le_of_mul_le_mul_right this.1 hpos, le_of_mul_le_mul_right this.2 hpos⟩

/-! ### Non-vacuity -/

theorem newton_example : (!![2, 1; 1, 3] : Matrix (Fin 2) (Fin 2) ℝ).transpose = !![2, 1; 1, 3] ∧
    ∀ v : Fin 2 → ℝ, v ≠ 0 → 0 < dotProduct v ((!![2, 1; 1, 3] : Matrix (Fin 2) (Fin 2) ℝ).mulVec v) := by
  refine ⟨by ext i j; fin_cases i <;> fin_cases j <;> rfl, fun v hv => ?_⟩
  have e : dotProduct v ((!![2, 1; 1, 3] : Matrix (Fin 2) (Fin 2) ℝ).mulVec v) = (v 0 + v 1) ^ 2 + v 0 ^ 2 + 2 * v 1 ^ 2 := by
    simp [dotProduct, Matrix.mulVec, Fin.sum_univ_two]; ring
  rw [e]
  by_contra h
  have h0 : v 0 = 0 := by nlinarith [sq_nonneg (v 0 + v 1), sq_nonneg (v 0), sq_nonneg (v 1)]
  have h1 : v 1 = 0 := by nlinarith [sq_nonneg (v 0 + v 1), sq_nonneg (v 0), sq_nonneg (v 1)]
  exact hv (by ext i; fin_cases i <;> simpa)

/-- Non-vacuity of `C124_one_step` and `C124_quadratic`: a correlated quadratic function of two numbers, whose Hessian has the off-diagonal entry 1. -/
example : ∃ eigh : Eigh, EighSpec eigh ∧
    HasHessianAt (fun x : Fin 2 → ℝ => 1 + dotProduct ![1, 2] x + dotProduct x ((!![2, 1; 1, 3] : Matrix (Fin 2) (Fin 2) ℝ).mulVec x) / 2) !![2, 1; 1, 3] ![5, 7] ∧
    ∃ G, HasFDerivAt (fun x : Fin 2 → ℝ => 1 + dotProduct ![1, 2] x + dotProduct x ((!![2, 1; 1, 3] : Matrix (Fin 2) (Fin 2) ℝ).mulVec x) / 2) (dotMap G) ![5, 7] := by
  obtain ⟨eigh, he⟩ := exists_eigh
  exact ⟨eigh, he, quadratic_hessian newton_example.1 _ _ _, _, quadratic_gradient newton_example.1 _ _ _⟩

/-- Non-vacuity of `C124_minima` and `C124_newton`: the preconditioner made from this Hessian. -/
example (auto : NDArray ℝ → Except Err MatArg) : ∃ (eigh : Eigh) (s : Precond) (A : Matrix (Fin 2) (Fin 2) ℝ),
    Precond.init.step eigh auto (.withHessian none (some ⟨ofMatrix !![2, 1; 1, 3], false⟩) none none) = .ok s ∧ Inverse s 2 ∧ A.det ≠ 0 ∧ A ≠ 1 ∧
    ∀ v : Fin 2 → ℝ, s.unprecondition (vecOf v) = .ok (vecOf (A.mulVec v)) := by
  obtain ⟨eigh, he⟩ := exists_eigh
  obtain ⟨s, A, h1, h2, h3, h4, h5, h6, h7⟩ := hessian_precond he auto newton_example.1 newton_example.2 Precond.init
  refine ⟨eigh, s, A, h1, h3, h5, fun h => ?_, h2⟩
  rw [h, one_mul, mul_one] at h7
  have := congrFun (congrFun h7 0) 1
  simp at this

/-- Non-vacuity of `C124_nearby`: the Hessian at the other point is not a multiple of the one used. -/
example (v : Fin 2 → ℝ) : 1 * dotProduct v ((!![2, 1; 1, 3] : Matrix (Fin 2) (Fin 2) ℝ).mulVec v) ≤ dotProduct v ((!![3, 1; 1, 4] : Matrix (Fin 2) (Fin 2) ℝ).mulVec v) ∧
    dotProduct v ((!![3, 1; 1, 4] : Matrix (Fin 2) (Fin 2) ℝ).mulVec v) ≤ 2 * dotProduct v ((!![2, 1; 1, 3] : Matrix (Fin 2) (Fin 2) ℝ).mulVec v) := by
  constructor <;> simp [dotProduct, Matrix.mulVec, Fin.sum_univ_two] <;> nlinarith [sq_nonneg (v 0 + v 1), sq_nonneg (v 0), sq_nonneg (v 1)]

end Paragami
