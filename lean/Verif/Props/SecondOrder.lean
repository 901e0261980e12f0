import Verif.Props.Analytic
import Verif.Props.Optimization
import Verif.Props.PSDFactor
import Verif.Proofs.Convex
import Mathlib.Analysis.Convex.Function

/-!
# C121: second derivatives, stationary points and convexity of objectives of free vectors
-/

namespace Paragami
open NDArray Pattern Flt Spec FunctionPatterns Topology ContDiff

/-- The flat vectors strictly inside, as lists. -/
theorem mem_inside {p : Pattern} (hw : p.WF) (x : Fin (p.flatLen false) → ℝ) :
    x ∈ inside p (p.flatLen false) ↔ Interior p (p.unflat ((List.ofFn x).map .fin)) := by
  have hl : ((List.ofFn x).map Flt.fin).length = p.flatLen false := by simp
  have h := foldNF_eq p hw _ (some false) hl (Jac.acc_unflat p hw _ hl)
  simp only [inside, Set.mem_ofPred_eq, fold_false, realVec_map]
  rw [h]
  simp

/-- **C121, convexity.**  The flat vectors of the values strictly inside the constraint set form a convex set. -/
theorem C121_convex {p : Pattern} (hp : Built p) {n : Nat} (hn : p.flatLength (some false) = .ok n) : Convex ℝ (inside p n) := by
  rw [flatLength_some, Except.ok.injEq] at hn
  subst hn
  intro x hx y hy a b ha hb hab
  rw [mem_inside hp.wf] at hx hy ⊢
  have := interior_mix ha hb hab p hp.wf _ _ (by simp) (by simp) hx hy
  convert this using 3
  apply List.ext_getElem
  · simp [mix]
  · intro i _ _; simp [mix]

/-- What the free-to-flat map reaches. -/
theorem range_unfree {p : Pattern} (hp : Built p) (hf : p.FiniteLb) (hne : p.NoEmpty)
    {u : (Fin (p.flatLen true) → ℝ) → Fin (p.flatLen false) → ℝ} (hu : ∀ y, unfreeingMap p (realVec y) = .ok (realVec (u y))) :
    (∀ y, ∃ w, p.fold (realVec y) (some true) = .ok w ∧ ∀ vv, p.fold (realVec (u y)) (some false) vv = .ok w) ∧
    Set.range u = inside p (p.flatLen false) := by
  have key : ∀ y, ∃ w, p.fold (realVec y) (some true) = .ok w ∧ Interior p w ∧ ∀ vv, p.fold (realVec (u y)) (some false) vv = .ok w := by
    intro y
    obtain ⟨w, a1, a2, a3, -, a5⟩ := free_vec p hp.wf hf (List.ofFn y) (by simp)
    have a1' : p.fold (realVec y) (some true) = .ok w := by rw [fold_true, realVec_map]; exact a1
    have h1 := hu y
    simp only [unfreeingMap, a1', bind, Except.bind] at h1
    obtain ⟨r, -, h⟩ := C11_free_value hp hf hne a2
    obtain ⟨b1, b2⟩ := h none none
    rw [flatten_true, a5 hne none] at b1
    injection b1 with b1
    rw [← b1, fold_true, a1] at b2
    injection b2 with b2
    refine ⟨w, a1', a2, fun vv => ?_⟩
    have h1' : p.flatten w (some false) vv = .ok (realVec (u y)) := by
      rw [← h1, flatten_false, flatten_false, Jac.flattenNF_interior p hp.wf hf hne w a2, Jac.flattenNF_interior p hp.wf hf hne w a2]
    have a6 := C04_nonfree_value hp a3 h1'
    rw [← b2] at a6
    exact a6
  refine ⟨fun y => ?_, ?_⟩
  · obtain ⟨w, h1, -, h2⟩ := key y; exact ⟨w, h1, h2⟩
  · ext x
    constructor
    · rintro ⟨y, rfl⟩
      obtain ⟨w, -, h1, h2⟩ := key y
      exact ⟨w, h2 _, h1⟩
    · rintro ⟨w, h1, h2⟩
      obtain ⟨r, c1, c2, c3⟩ := free_val p hp.wf hf w h2 hne
      refine ⟨fun i => r.get (i.cast c1.symm), ?_⟩
      have e0 : realVec (fun i : Fin (p.flatLen true) => r.get (i.cast c1.symm)) = vec (r.map .fin) := by
        rw [realVec_map]
        congr 2
        apply List.ext_getElem
        · simp [c1]
        · intro i _ _; simp
      have hx := hu fun i => r.get (i.cast c1.symm)
      rw [e0] at hx
      simp only [unfreeingMap, fold_true, c3, bind, Except.bind, flatten_false] at hx
      obtain ⟨w', w1, w2, -⟩ := free_vec p hp.wf hf r c1
      rw [c3] at w1
      injection w1 with w1
      rw [Jac.flattenNF_interior p hp.wf hf hne _ (w1 ▸ w2), Jac.flat_canon p hp.wf w h2] at hx
      have h3 := C05_nonfree_vector hp hne h1
      rw [flatten_false, Jac.flattenNF_interior p hp.wf hf hne w h2] at h3
      rw [h3] at hx
      injection hx with hx
      exact (realVec_inj hx).symm

/-- Every continuous bilinear form on vectors is given by a matrix. -/
theorem bilin_matrix {m : Nat} (D : (Fin m → ℝ) →L[ℝ] ((Fin m → ℝ) →L[ℝ] ℝ)) :
    ∃ M : Matrix (Fin m) (Fin m) ℝ, ∀ v w, D v w = dotProduct v (M.mulVec w) := by
  refine ⟨Matrix.of fun a b => D (Pi.single a 1) (Pi.single b 1), fun v w => ?_⟩
  have hv : v = ∑ a, v a • (Pi.single a 1 : Fin m → ℝ) := by
    ext i; simp [Finset.sum_apply, Pi.single_apply]
  have hw : w = ∑ a, w a • (Pi.single a 1 : Fin m → ℝ) := by
    ext i; simp [Finset.sum_apply, Pi.single_apply]
  conv_lhs => rw [hv, hw]
  simp only [map_sum, map_smul, _root_.sum_apply, _root_.smul_apply, smul_eq_mul, dotProduct, Matrix.mulVec, Matrix.of_apply, Finset.mul_sum]
  rw [Finset.sum_comm]
  refine Finset.sum_congr rfl fun a _ => ?_
  refine Finset.sum_congr rfl fun b _ => by ring

/-- The second derivative of a composition. -/
theorem hasHessianAt_comp_map {n m : Nat} {φ : (Fin n → ℝ) → ℝ} {u : (Fin m → ℝ) → Fin n → ℝ} {y₀ : Fin m → ℝ} {g : Fin n → ℝ}
    {H : Matrix (Fin n) (Fin n) ℝ} {B : Matrix (Fin n) (Fin m) ℝ} {T : Fin n → Matrix (Fin m) (Fin m) ℝ} (hua : AnalyticAt ℝ u y₀)
    (hB : HasFDerivAt u (LinearMap.toContinuousLinearMap B.mulVecLin) y₀) (hT : ∀ j, HasHessianAt (fun y => u y j) (T j) y₀)
    (hH : HasHessianAt φ H (u y₀)) (hg : HasFDerivAt φ (dotMap g) (u y₀)) :
    HasHessianAt (fun y => φ (u y)) (B.transpose * H * B + ∑ j, g j • T j) y₀ := by
  obtain ⟨hd, D, hD, hDv⟩ := hH
  have hud : ∀ᶠ y in 𝓝 y₀, DifferentiableAt ℝ u y := hua.eventually_analyticAt.mono fun y h => h.differentiableAt
  have hφu : ∀ᶠ y in 𝓝 y₀, DifferentiableAt ℝ φ (u y) := hua.continuousAt.eventually hd
  refine ⟨?_, ?_⟩
  · filter_upwards [hud, hφu] with y h1 h2
    exact h2.comp y h1
  · have h1 : (fderiv ℝ fun y => φ (u y)) =ᶠ[𝓝 y₀] fun y => (fderiv ℝ φ (u y)).comp (fderiv ℝ u y) := by
      filter_upwards [hud, hφu] with y h1 h2
      exact (h2.hasFDerivAt.comp y h1.hasFDerivAt).fderiv
    have hU : DifferentiableAt ℝ (fderiv ℝ u) y₀ := hua.fderiv.differentiableAt
    have h2 := (hD.comp y₀ hB).clm_comp hU.hasFDerivAt
    refine ⟨_, h2.congr_of_eventuallyEq h1, fun v w => ?_⟩
    have hTj : ∀ j, fderiv ℝ (fderiv ℝ u) y₀ v w j = dotProduct v ((T j).mulVec w) := by
      intro j
      obtain ⟨-, E, hE, hEv⟩ := hT j
      rw [← hEv]
      have e1 : (fderiv ℝ fun y => u y j) =ᶠ[𝓝 y₀] fun y => (ContinuousLinearMap.proj (R := ℝ) (φ := fun _ : Fin n => ℝ) j).comp (fderiv ℝ u y) := by
        filter_upwards [hud] with y h
        exact ((ContinuousLinearMap.proj (R := ℝ) (φ := fun _ : Fin n => ℝ) j).hasFDerivAt.comp y h.hasFDerivAt).fderiv
      have e2 := ((ContinuousLinearMap.compL ℝ (Fin m → ℝ) (Fin n → ℝ) ℝ (ContinuousLinearMap.proj (R := ℝ) (φ := fun _ : Fin n => ℝ) j)).hasFDerivAt.comp y₀ hU.hasFDerivAt)
      have e3 := hE.unique (e2.congr_of_eventuallyEq e1)
      rw [e3]; rfl
    have a1 : ((ContinuousLinearMap.compL ℝ (Fin m → ℝ) (Fin n → ℝ) ℝ (fderiv ℝ φ (u y₀))).comp (fderiv ℝ (fderiv ℝ u) y₀)) v w =
        ∑ j, g j * dotProduct v ((T j).mulVec w) := by
      change fderiv ℝ φ (u y₀) (fderiv ℝ (fderiv ℝ u) y₀ v w) = _
      rw [hg.fderiv, dotMap_apply]
      exact Finset.sum_congr rfl fun j _ => by rw [hTj]
    have a2 : (((ContinuousLinearMap.compL ℝ (Fin m → ℝ) (Fin n → ℝ) ℝ).flip (fderiv ℝ u y₀)).comp (D.comp (LinearMap.toContinuousLinearMap B.mulVecLin))) v w =
        dotProduct v ((B.transpose * H * B).mulVec w) := by
      change D (B.mulVec v) (fderiv ℝ u y₀ w) = _
      rw [hB.fderiv, hDv]
      change dotProduct (B.mulVec v) (H.mulVec (B.mulVec w)) = _
      rw [← Matrix.mulVec_mulVec, ← Matrix.mulVec_mulVec, Matrix.dotProduct_mulVec v, Matrix.vecMul_transpose]
    have a3 : dotProduct v ((∑ j, g j • T j).mulVec w) = ∑ j, g j * dotProduct v ((T j).mulVec w) := by
      rw [Matrix.sum_mulVec, dotProduct_sum]
      exact Finset.sum_congr rfl fun j _ => by rw [Matrix.smul_mulVec, dotProduct_smul, smul_eq_mul]
    rw [Matrix.add_mulVec, dotProduct_add, a3, ← a1, ← a2, add_comm]
    rfl

/-- Near a point of the free-to-flat map, vectors orthogonal to the columns of the Jacobian are orthogonal to everything that the map reaches. -/
theorem normal_constant {n m : Nat} {u : (Fin m → ℝ) → Fin n → ℝ} {t : (Fin n → ℝ) → Fin m → ℝ} {y₀ : Fin m → ℝ} {B : Matrix (Fin n) (Fin m) ℝ}
    (hB : HasFDerivAt u (LinearMap.toContinuousLinearMap B.mulVecLin) y₀) (hta : DifferentiableAt ℝ t (u y₀)) (htu : ∀ y, t (u y) = y)
    (hc : Convex ℝ (Set.range u)) {g : Fin n → ℝ} (hg : B.transpose.mulVec g = 0) (y : Fin m → ℝ) : dotMap g (u y - u y₀) = 0 := by
  let d := u y - u y₀
  let path : ℝ → Fin n → ℝ := fun s => u y₀ + s • d
  have hp : HasDerivAt path d 0 := by
    have := ((hasDerivAt_id (0 : ℝ)).smul_const d).const_add (u y₀)
    simpa [path] using this
  have p0 : path 0 = u y₀ := by simp [path]
  have h1 : HasDerivAt (fun s => u (t (path s))) (B.mulVec (fderiv ℝ t (u y₀) d)) 0 := by
    have h2 : HasFDerivAt t (fderiv ℝ t (u y₀)) (path 0) := by rw [p0]; exact hta.hasFDerivAt
    have h3 : HasDerivAt (fun s => t (path s)) (fderiv ℝ t (u y₀) d) 0 := h2.comp_hasDerivAt 0 hp
    have h4 : HasFDerivAt u (LinearMap.toContinuousLinearMap B.mulVecLin) (t (path 0)) := by rw [p0, htu]; exact hB
    exact h4.comp_hasDerivAt 0 h3
  have h2 : ∀ s ∈ Set.Icc (0 : ℝ) 1, u (t (path s)) = path s := by
    intro s hs
    obtain ⟨w, hw⟩ : path s ∈ Set.range u := by
      have := hc ⟨y₀, rfl⟩ ⟨y, rfl⟩ (sub_nonneg.mpr hs.2) hs.1 (by ring)
      convert this using 1
      ext i
      simp [path, d]; ring
    rw [← hw, htu]
  have h3 : HasDerivWithinAt path (B.mulVec (fderiv ℝ t (u y₀) d)) (Set.Icc 0 1) 0 :=
    h1.hasDerivWithinAt.congr (fun s hs => (h2 s hs).symm) (h2 0 (by simp)).symm
  have h4 : B.mulVec (fderiv ℝ t (u y₀) d) = d :=
    (uniqueDiffOn_Icc zero_lt_one 0 (by simp)).eq_deriv _ h3 hp.hasDerivWithinAt
  change dotMap g d = 0
  rw [← h4, dotMap_apply]
  change dotProduct g (B.mulVec _) = 0
  rw [Matrix.dotProduct_mulVec, ← Matrix.mulVec_transpose, hg, zero_dotProduct]

/-- A differentiable convex function lies above its tangent plane. -/
theorem convexOn_tangent {n : Nat} {S : Set (Fin n → ℝ)} {φ : (Fin n → ℝ) → ℝ} (hφ : ConvexOn ℝ S φ) {x₀ x : Fin n → ℝ} (h₀ : x₀ ∈ S) (hx : x ∈ S)
    {L : (Fin n → ℝ) →L[ℝ] ℝ} (hL : HasFDerivAt φ L x₀) : φ x₀ + L (x - x₀) ≤ φ x := by
  let d := x - x₀
  have hp : HasDerivAt (fun s : ℝ => x₀ + s • d) d 0 := by
    have := ((hasDerivAt_id (0 : ℝ)).smul_const d).const_add x₀
    simpa using this
  have h1 : HasDerivAt (fun s : ℝ => φ (x₀ + s • d)) (L d) 0 := by
    have : HasFDerivAt φ L (x₀ + (0 : ℝ) • d) := by simpa using hL
    exact this.comp_hasDerivAt 0 hp
  have h2 := h1.tendsto_slope_zero_right
  have h3 : ∀ᶠ s : ℝ in 𝓝[>] 0, s⁻¹ • (φ (x₀ + (0 + s) • d) - φ (x₀ + (0 : ℝ) • d)) ≤ φ x - φ x₀ := by
    have : Set.Ioo (0 : ℝ) 1 ∈ 𝓝[>] (0 : ℝ) := Ioo_mem_nhdsGT zero_lt_one
    filter_upwards [this] with s hs
    have h := hφ.2 h₀ hx (sub_nonneg.mpr hs.2.le) hs.1.le (by ring)
    have e : (1 - s) • x₀ + s • x = x₀ + (0 + s) • d := by ext i; simp [d]; ring
    rw [e] at h
    simp only [smul_eq_mul, zero_smul, add_zero] at h ⊢
    rw [inv_mul_le_iff₀ hs.1]
    nlinarith
  have := le_of_tendsto h2 h3
  change φ x₀ + L d ≤ φ x
  linarith

/-- The free-to-flat map of a pattern at one interior value, with everything known about it. -/
theorem free_setup {ad : AutogradJacobian} (had : AutogradSpec ad) {p : Pattern} (hp : Built p) (hf : p.FiniteLb) (he : NoEmptyBlocks p)
    {v : Val Flt} (hI : Interior p v) :
    ∃ (u : (Fin (p.flatLen true) → ℝ) → Fin (p.flatLen false) → ℝ) (t : (Fin (p.flatLen false) → ℝ) → Fin (p.flatLen true) → ℝ) (y₀ : Fin (p.flatLen true) → ℝ)
      (B : Matrix (Fin (p.flatLen false)) (Fin (p.flatLen true)) ℝ), (∀ y, unfreeingMap p (realVec y) = .ok (realVec (u y))) ∧
      (∀ vv, p.flatten v (some false) vv = .ok (realVec (u y₀))) ∧ (∀ vv, p.flatten v (some true) vv = .ok (realVec y₀)) ∧
      unfreeingJacobian ad p v = .ok ⟨[p.flatLen false, p.flatLen true], matData B⟩ ∧ AnalyticAt ℝ u y₀ ∧
      HasFDerivAt u (LinearMap.toContinuousLinearMap B.mulVecLin) y₀ ∧ (∀ y, t (u y) = y) ∧ DifferentiableAt ℝ t (u y₀) ∧
      (∀ z, B.mulVec z = 0 → z = 0) := by
  obtain ⟨J, hJ, n, m, y₀, hn, hm, hy₀, u', B, hu', hB, rfl⟩ := C43_tree_unfreeing_jacobian had hp hf he hI
  rw [flatLength_some, Except.ok.injEq] at hn hm
  subst hn hm
  obtain ⟨u, t, hu, hua, hinj, ht, -, hv⟩ := C111_analytic hp hf he (flatLength_some p false) (flatLength_some p true)
  obtain ⟨y₁, hy⟩ := hv v hI
  obtain rfl : y₀ = y₁ := by
    have := (hy₀ none).symm.trans (hy none).1
    injection this with this
    exact realVec_inj this
  have huu : u =ᶠ[𝓝 y₀] u' := by
    filter_upwards [hu'] with y h
    have := (hu y).symm.trans h
    injection this with this
    exact realVec_inj this
  have hB' : HasFDerivAt u (LinearMap.toContinuousLinearMap B.mulVecLin) y₀ := hB.congr_of_eventuallyEq huu
  refine ⟨u, t, y₀, B, hu, fun vv => (hy vv).2, fun vv => (hy vv).1, hJ, hua y₀, hB', fun y => (ht y).1, (ht y₀).2.1.differentiableAt, fun z hz => ?_⟩
  have h1 := hinj y₀
  rw [hB'.fderiv] at h1
  apply h1
  rw [map_zero]
  exact hz

/-- Calling the wrapper of free vectors is calling the wrapper of flat vectors at the flat vector. -/
theorem free_call {p : Pattern} (hp : Built p) (hf : p.FiniteLb) (hne : p.NoEmpty) {u : (Fin (p.flatLen true) → ℝ) → Fin (p.flatLen false) → ℝ}
    (hu : ∀ y, unfreeingMap p (realVec y) = .ok (realVec (u y))) (f : Fn ℝ) {k : Nat} {args : List (Arg ℝ)} (hk : k < args.length) (kw : Kwargs ℝ) :
    ∃ g₀ g₁ : Fn ℝ, flattenFunctionInput f ⟨[], [p]⟩ ⟨[], [some false]⟩ (some ⟨[], [(k : ℤ)]⟩) = .ok g₀ ∧
      flattenFunctionInput f ⟨[], [p]⟩ ⟨[], [some true]⟩ (some ⟨[], [(k : ℤ)]⟩) = .ok g₁ ∧
      ∀ y, (∃ w, p.fold (realVec (u y)) (some false) = .ok w) ∧ g₁.call (args.set k (realArg y)) kw = g₀.call (args.set k (realArg (u y))) kw := by
  obtain ⟨g₀, e₀, c₀⟩ := C84_single f p (some false) hk
  obtain ⟨g₁, e₁, c₁⟩ := C84_single f p (some true) hk
  refine ⟨g₀, g₁, e₀, e₁, fun y => ?_⟩
  obtain ⟨w, h1, h2⟩ := (range_unfree hp hf hne hu).1 y
  have ex : ∀ {n : Nat} (x : Fin n → ℝ), (realArg x : Arg ℝ) = .val (.arr (realVec x)) := fun x => rfl
  refine ⟨⟨w, h2 none⟩, ?_⟩
  rw [ex, ex, c₀, c₁, h1, h2]

/-- **C121, second derivatives.**  Wrap a real-valued function of a folded value twice, with `free=False` and with `free=True`.  If near the flat vector
of `v` the first is (on vectors that fold) a function with gradient `g` and Hessian `H` there, then near the free vector of `v` the second is a
function with gradient `Bᵀ g` and Hessian `Bᵀ H B + Σ_j g_j T_j`, where `B` is what `unfreeing_jacobian` returns and `T_j` the Hessian of entry
`j` of the flat vector as a function of the free vector.  At every stationary point of the second function the sum vanishes, even if `g` does not, so
that its Hessian is `Bᵀ H B` there.  That matrix is positive definite if `H` is. -/
theorem C121_hessian {ad : AutogradJacobian} (had : AutogradSpec ad) {p : Pattern} (hp : Built p) (hf : p.FiniteLb) (he : NoEmptyBlocks p)
    {v : Val Flt} (hI : Interior p v) (f : Fn ℝ) {k : Nat} {args : List (Arg ℝ)} (hk : k < args.length) (kw : Kwargs ℝ) :
    ∃ (n m : Nat) (x₀ : Fin n → ℝ) (y₀ : Fin m → ℝ) (B : Matrix (Fin n) (Fin m) ℝ) (u : (Fin m → ℝ) → Fin n → ℝ)
        (T : Fin n → Matrix (Fin m) (Fin m) ℝ) (g₀ g₁ : Fn ℝ),
      (∀ vv, p.flatten v (some false) vv = .ok (realVec x₀)) ∧ (∀ vv, p.flatten v (some true) vv = .ok (realVec y₀)) ∧
      unfreeingJacobian ad p v = .ok ⟨[n, m], matData B⟩ ∧
      (∀ y, unfreeingMap p (realVec y) = .ok (realVec (u y))) ∧ (∀ j, HasHessianAt (fun y => u y j) (T j) y₀) ∧
      flattenFunctionInput f ⟨[], [p]⟩ ⟨[], [some false]⟩ (some ⟨[], [(k : ℤ)]⟩) = .ok g₀ ∧
      flattenFunctionInput f ⟨[], [p]⟩ ⟨[], [some true]⟩ (some ⟨[], [(k : ℤ)]⟩) = .ok g₁ ∧
      ∀ (φ : (Fin n → ℝ) → ℝ) (g : Fin n → ℝ) (H : Matrix (Fin n) (Fin n) ℝ),
        (∀ᶠ x in 𝓝 x₀, (∃ w, p.fold (realVec x) (some false) = .ok w) → g₀.call (args.set k (realArg x)) kw = .ok (.single (.other (φ x)))) →
        HasFDerivAt φ (dotMap g) x₀ → HasHessianAt φ H x₀ →
        ∃ ψ : (Fin m → ℝ) → ℝ, (∀ᶠ y in 𝓝 y₀, g₁.call (args.set k (realArg y)) kw = .ok (.single (.other (ψ y)))) ∧
          HasFDerivAt ψ (dotMap (B.transpose.mulVec g)) y₀ ∧ HasHessianAt ψ (B.transpose * H * B + ∑ j, g j • T j) y₀ ∧
          (B.transpose.mulVec g = 0 → HasHessianAt ψ (B.transpose * H * B) y₀ ∧ ∑ j, g j • T j = 0) ∧
          (H.PosDef → (B.transpose * H * B).PosDef) := by
  have hne := Jac.noEmpty_of_blocks p he
  obtain ⟨u, t, y₀, B, hu, hx₀, hy₀, hJ, hua, hB, htu, hta, hBinj⟩ := free_setup had hp hf he hI
  obtain ⟨g₀, g₁, e₀, e₁, hc⟩ := free_call hp hf hne hu f hk kw
  have hT : ∀ j, ∃ M, HasHessianAt (fun y => u y j) M y₀ := by
    intro j
    have ha : AnalyticAt ℝ (fun y => u y j) y₀ := (ContinuousLinearMap.proj (R := ℝ) (φ := fun _ : Fin (p.flatLen false) => ℝ) j).analyticAt _ |>.comp hua
    obtain ⟨M, hM⟩ := bilin_matrix (fderiv ℝ (fderiv ℝ fun y => u y j) y₀)
    exact ⟨M, ha.eventually_analyticAt.mono fun y h => h.differentiableAt, _, ha.fderiv.differentiableAt.hasFDerivAt, hM⟩
  choose T hT using hT
  refine ⟨_, _, u y₀, y₀, B, u, T, g₀, g₁, hx₀, hy₀, hJ, hu, hT, e₀, e₁, fun φ g H hφ hg hH => ⟨fun y => φ (u y), ?_, ?_, ?_, fun hs => ?_, fun hH => ?_⟩⟩
  · filter_upwards [hua.continuousAt.eventually hφ] with y h
    rw [(hc y).2, h (hc y).1]
  · have h := hg.comp y₀ hB
    have e : dotMap (B.transpose.mulVec g) = (dotMap g).comp (LinearMap.toContinuousLinearMap B.mulVecLin) := by
      ext1 z
      simp only [ContinuousLinearMap.comp_apply, dotMap_apply, LinearMap.coe_toContinuousLinearMap', Matrix.mulVecLin_apply]
      have := Matrix.dotProduct_mulVec g B z
      rw [← Matrix.mulVec_transpose] at this
      exact this.symm
    rw [e]; exact h
  · exact hasHessianAt_comp_map hua hB hT hH hg
  · have hcv : Convex ℝ (Set.range u) := by
      rw [(range_unfree hp hf hne hu).2]; exact C121_convex hp (flatLength_some p false)
    -- the linear function `g` is constant on everything reached
    have hlin : HasHessianAt (fun x => dotMap g x) (0 : Matrix (Fin (p.flatLen false)) (Fin (p.flatLen false)) ℝ) (u y₀) := by
      refine ⟨Filter.Eventually.of_forall fun x => (dotMap g).differentiableAt, 0, ?_, fun v w => by simp⟩
      have : (fderiv ℝ fun x => dotMap g x) = fun _ => dotMap g := by funext x; exact (dotMap g).fderiv
      rw [this]; exact hasFDerivAt_const _ _
    have h1 := hasHessianAt_comp_map hua hB hT hlin (dotMap g).hasFDerivAt
    have h2 : (fun y => dotMap g (u y)) = fun _ => dotMap g (u y₀) := by
      funext y
      have := normal_constant hB hta htu hcv hs y
      rw [map_sub] at this
      linarith
    rw [h2] at h1
    obtain ⟨-, E, hE, hEv⟩ := h1
    have h3 : (fderiv ℝ fun _ : Fin (p.flatLen true) → ℝ => dotMap g (u y₀)) = fun _ => 0 := by funext y; simp
    rw [h3] at hE
    have h4 := hE.unique (hasFDerivAt_const _ _)
    have h0 : ∑ j, g j • T j = 0 := by
      ext a b
      have := hEv (Pi.single a 1) (Pi.single b 1)
      rw [h4] at this
      simpa using this.symm
    refine ⟨?_, h0⟩
    have := hasHessianAt_comp_map hua hB hT hH hg
    rwa [h0, add_zero] at this
  · have hinj : Function.Injective B.mulVec := by
      intro a b hab
      have := hBinj (a - b) (by rw [Matrix.mulVec_sub, sub_eq_zero]; exact hab)
      exact sub_eq_zero.mp this
    have := hH.conjTranspose_mul_mul_same hinj
    rwa [Matrix.conjTranspose_eq_transpose_of_trivial] at this

/-- **C121, stationary points.**  If the function of flat vectors is convex on the vectors strictly inside the constraint set, then the function of free
vectors, convex or not, has no stationary points other than its global minima: `v` minimizes the function over everything strictly inside the
constraint set if and only if the gradient of the free-wrapped function vanishes at the free vector of `v`. -/
theorem C121_stationary {ad : AutogradJacobian} (had : AutogradSpec ad) {p : Pattern} (hp : Built p) (hf : p.FiniteLb) (he : NoEmptyBlocks p)
    {v : Val Flt} (hI : Interior p v) (f : Fn ℝ) {k : Nat} {args : List (Arg ℝ)} (hk : k < args.length) (kw : Kwargs ℝ) :
    ∃ (n m : Nat) (x₀ : Fin n → ℝ) (y₀ : Fin m → ℝ) (B : Matrix (Fin n) (Fin m) ℝ) (g₀ g₁ : Fn ℝ),
      (∀ vv, p.flatten v (some false) vv = .ok (realVec x₀)) ∧ (∀ vv, p.flatten v (some true) vv = .ok (realVec y₀)) ∧
      unfreeingJacobian ad p v = .ok ⟨[n, m], matData B⟩ ∧
      flattenFunctionInput f ⟨[], [p]⟩ ⟨[], [some false]⟩ (some ⟨[], [(k : ℤ)]⟩) = .ok g₀ ∧
      flattenFunctionInput f ⟨[], [p]⟩ ⟨[], [some true]⟩ (some ⟨[], [(k : ℤ)]⟩) = .ok g₁ ∧
      ∀ (φ : (Fin n → ℝ) → ℝ) (g : Fin n → ℝ), (∀ x ∈ inside p n, g₀.call (args.set k (realArg x)) kw = .ok (.single (.other (φ x)))) →
        ConvexOn ℝ (inside p n) φ → HasFDerivAt φ (dotMap g) x₀ →
        (∀ y : Fin m → ℝ, ∃ x ∈ inside p n, g₁.call (args.set k (realArg y)) kw = .ok (.single (.other (φ x)))) ∧
        g₁.call (args.set k (realArg y₀)) kw = .ok (.single (.other (φ x₀))) ∧
        (B.transpose.mulVec g = 0 ↔ ∀ (y : Fin m → ℝ) (z : ℝ), g₁.call (args.set k (realArg y)) kw = .ok (.single (.other z)) → φ x₀ ≤ z) ∧
        (B.transpose.mulVec g = 0 ↔ ∀ x ∈ inside p n, φ x₀ ≤ φ x) := by
  have hne := Jac.noEmpty_of_blocks p he
  obtain ⟨u, t, y₀, B, hu, hx₀, hy₀, hJ, hua, hB, htu, hta, -⟩ := free_setup had hp hf he hI
  obtain ⟨g₀, g₁, e₀, e₁, hc⟩ := free_call hp hf hne hu f hk kw
  have hr := (range_unfree hp hf hne hu).2
  have hin : ∀ y, u y ∈ inside p (p.flatLen false) := fun y => hr ▸ ⟨y, rfl⟩
  have hcv : Convex ℝ (Set.range u) := by rw [hr]; exact C121_convex hp (flatLength_some p false)
  refine ⟨_, _, u y₀, y₀, B, g₀, g₁, hx₀, hy₀, hJ, e₀, e₁, fun φ g hφ hcon hg => ?_⟩
  have hcall : ∀ y, g₁.call (args.set k (realArg y)) kw = .ok (.single (.other (φ (u y)))) := fun y => by rw [(hc y).2, hφ _ (hin y)]
  have main : B.transpose.mulVec g = 0 ↔ ∀ y, φ (u y₀) ≤ φ (u y) := by
    constructor
    · intro h0 y
      have h1 := convexOn_tangent hcon (hin y₀) (hin y) hg
      rw [normal_constant hB hta htu hcv h0 y] at h1
      linarith
    · intro hmin
      have h := hg.comp y₀ hB
      have hl : IsLocalMin (φ ∘ u) y₀ := Filter.Eventually.of_forall hmin
      have h0 := hl.hasFDerivAt_eq_zero h
      ext j
      have := congrArg (fun L : (Fin (p.flatLen true) → ℝ) →L[ℝ] ℝ => L (Pi.single j 1)) h0
      simp only [ContinuousLinearMap.comp_apply, dotMap_apply, LinearMap.coe_toContinuousLinearMap', Matrix.mulVecLin_apply, zero_apply] at this
      rw [Matrix.mulVec_transpose, Matrix.vecMul, Pi.zero_apply, ← this]
      simp [dotProduct]
  refine ⟨fun y => ⟨u y, hin y, hcall y⟩, hcall y₀, main.trans ⟨fun h y z hz => ?_, fun h y => h y _ (hcall y)⟩, main.trans ⟨fun h x hx => ?_, fun h y => h _ (hin y)⟩⟩
  · rw [hcall y] at hz
    injection hz with hz; injection hz with hz; injection hz with hz
    exact hz ▸ h y
  · rw [← hr] at hx
    obtain ⟨y, rfl⟩ := hx
    exact h y

/-- Non-vacuity of C121, and why the sum over `T` matters: on probability vectors of length two the sum of the squares has gradient `(1, 1)` at `(1/2, 1/2)`.
It is not zero, but the gradient with respect to the free vector is, the Hessian there is `Bᵀ (2 I) B`, and the point is the minimum. -/
example : ∃ (ad : AutogradJacobian) (B : Matrix (Fin 2) (Fin 1) ℝ) (f : Fn ℝ) (y₀ : Fin 1 → ℝ) (g₁ : Fn ℝ) (ψ : (Fin 1 → ℝ) → ℝ), AutogradSpec ad ∧
    unfreeingJacobian ad (.simplex 2 [] true none) (.arr ⟨[2], [.fin (1 / 2), .fin (1 / 2)]⟩) = .ok ⟨[2, 1], matData B⟩ ∧
    flattenFunctionInput f ⟨[], [.simplex 2 [] true none]⟩ ⟨[], [some true]⟩ (some ⟨[], [0]⟩) = .ok g₁ ∧
    (∀ᶠ y in 𝓝 y₀, g₁.call [realArg y] [] = .ok (.single (.other (ψ y)))) ∧
    B.transpose.mulVec ![1, 1] = 0 ∧ HasFDerivAt (𝕜 := ℝ) ψ 0 y₀ ∧ HasHessianAt ψ (B.transpose * ((2 : ℝ) • (1 : Matrix (Fin 2) (Fin 2) ℝ)) * B) y₀ ∧ (B.transpose * ((2 : ℝ) • (1 : Matrix (Fin 2) (Fin 2) ℝ)) * B).PosDef := by
  let p : Pattern := .simplex 2 [] true none
  have hw : p.WF := by simp [p, Pattern.WF]
  have hp : Built p := WF.built _ hw
  have hf : p.FiniteLb := trivial
  have he : NoEmptyBlocks p := by simp [p, NoEmptyBlocks]
  have hne := Jac.noEmpty_of_blocks p he
  obtain ⟨ad, had⟩ := Jac.autogradSpec_exists
  have hI : Interior p (.arr ⟨[2], [.fin (1 / 2), .fin (1 / 2)]⟩) := by
    refine ⟨by simp [NDArray.WF], rfl, fun i hi => ⟨[1 / 2, 1 / 2], ?_, ?_, ?_⟩⟩
    · obtain rfl : i = 0 := by simpa using hi
      simp [block]
    · simp
    · norm_num
  let f : Fn ℝ := ⟨fun args _ => match args with
      | [.val w] => p.flatten w (some false) >>= fun a => .ok (.single (.other (a.data.map fun x => x.toReal ^ 2).sum))
      | _ => .error .typeError, true⟩
  let φ : (Fin 2 → ℝ) → ℝ := fun x => ∑ j, x j ^ 2
  have hφ : ∀ g₀, flattenFunctionInput f ⟨[], [p]⟩ ⟨[], [some false]⟩ (some ⟨[], [((0 : Nat) : ℤ)]⟩) = .ok g₀ → ∀ x : Fin 2 → ℝ,
      (∃ w, p.fold (realVec x) (some false) = .ok w) → g₀.call ([Arg.other 0].set 0 (realArg x)) [] = .ok (.single (.other (φ x))) := by
    intro g₀ hg x ⟨w, hw⟩
    obtain ⟨g, h1, h2⟩ := C84_single f p (some false) (k := 0) (args := [Arg.other 0]) (by simp)
    have hg' := hg.symm.trans h1
    injection hg' with hg'
    have := C05_nonfree_vector hp hne hw
    rw [hg']
    change g.call ([Arg.other 0].set 0 (.val (.arr (realVec x)))) [] = _
    rw [h2, hw]
    simp only [bind, Except.bind, List.set_cons_zero, f, this, vec, List.map_ofFn, List.sum_ofFn, Function.comp_apply, Flt.toReal, φ]
  have hin : ∀ x ∈ inside p 2, x 0 + x 1 = 1 ∧ ∃ w, p.fold (realVec x) (some false) = .ok w := by
    intro x hx
    have hx' := (mem_inside hw x).mp hx
    have e : (List.ofFn x).map Flt.fin = [Flt.fin (x 0), .fin (x 1)] := by simp [List.ofFn_succ]
    constructor
    · change Interior p (p.unflat ((List.ofFn x).map .fin)) at hx'
      rw [e, unflat_of_not_dict (p := p) rfl] at hx'
      obtain ⟨-, -, h⟩ := hx'
      obtain ⟨r, h1, -, h3⟩ := h 0 (by simp)
      have : r = [x 0, x 1] := by
        apply fin_map_inj
        rw [← h1]; simp [block]
      rw [this] at h3
      simpa using h3
    · refine ⟨p.unflat ((List.ofFn x).map .fin), ?_⟩
      rw [fold_false, realVec_map]
      exact foldNF_eq p hw _ none (by simp [p, flatLen]) (acc_of_interior p hw hf _ none hx')
  have hder : HasFDerivAt φ (dotMap ![1, 1]) ![1 / 2, 1 / 2] := by
    have : ∀ j : Fin 2, HasFDerivAt (fun x : Fin 2 → ℝ => x j ^ 2) ((2 * (![1 / 2, 1 / 2] : Fin 2 → ℝ) j) • ContinuousLinearMap.proj (R := ℝ) (φ := fun _ => ℝ) j) ![1 / 2, 1 / 2] := by
      intro j
      have := (hasFDerivAt_apply (𝕜 := ℝ) j (![1 / 2, 1 / 2] : Fin 2 → ℝ)).pow 2
      simpa using this
    have h := HasFDerivAt.fun_sum (u := Finset.univ) fun j _ => this j
    have e : dotMap ![1, 1] = ∑ j : Fin 2, (2 * (![1 / 2, 1 / 2] : Fin 2 → ℝ) j) • ContinuousLinearMap.proj (R := ℝ) (φ := fun _ => ℝ) j := by
      ext z
      simp [dotMap, Fin.sum_univ_two]
    rw [e]
    exact h
  have hhess : HasHessianAt φ ((2 : ℝ) • (1 : Matrix (Fin 2) (Fin 2) ℝ)) ![1 / 2, 1 / 2] := by
    have hd : ∀ x : Fin 2 → ℝ, HasFDerivAt φ (∑ j, (2 * x j) • ContinuousLinearMap.proj (R := ℝ) (φ := fun _ => ℝ) j) x := by
      intro x
      refine HasFDerivAt.fun_sum fun j _ => ?_
      have := (hasFDerivAt_apply (𝕜 := ℝ) j x).pow 2
      simpa using this
    refine ⟨Filter.Eventually.of_forall fun x => (hd x).differentiableAt,
      ∑ j : Fin 2, (2 : ℝ) • (ContinuousLinearMap.proj (R := ℝ) (φ := fun _ : Fin 2 => ℝ) j).smulRight (ContinuousLinearMap.proj (R := ℝ) (φ := fun _ : Fin 2 => ℝ) j), ?_, fun v w => ?_⟩
    · have e : fderiv ℝ φ = fun x => (∑ j : Fin 2, (2 : ℝ) • (ContinuousLinearMap.proj (R := ℝ) (φ := fun _ : Fin 2 => ℝ) j).smulRight (ContinuousLinearMap.proj (R := ℝ) (φ := fun _ : Fin 2 => ℝ) j)) x := by
        funext x
        rw [(hd x).fderiv]
        ext z
        simp [Fin.sum_univ_two, mul_assoc]
      rw [e]
      exact ContinuousLinearMap.hasFDerivAt _
    · simp [Fin.sum_univ_two, Matrix.smul_mulVec, dotProduct]
      ring
  have hconv : ConvexOn ℝ (inside p 2) φ := by
    refine ⟨C121_convex hp (by simp [flatLength_some, p, flatLen]), fun x _ y _ a b ha hb hab => ?_⟩
    obtain rfl : b = 1 - a := by linarith
    simp only [φ, Fin.sum_univ_two, Pi.add_apply, Pi.smul_apply, smul_eq_mul]
    nlinarith [mul_nonneg (mul_nonneg ha hb) (sq_nonneg (x 0 - y 0)), mul_nonneg (mul_nonneg ha hb) (sq_nonneg (x 1 - y 1))]
  obtain ⟨n, m, x₀, y₀, B, u, T, g₀, g₁, a1, a2, a3, -, -, a6, a7, a8⟩ := C121_hessian had hp hf he hI f (k := 0) (args := [Arg.other 0]) (by simp) []
  obtain ⟨n', m', x₀', y₀', B', g₀', g₁', b1, b2, b3, b4, b5, b6⟩ := C121_stationary had hp hf he hI f (k := 0) (args := [Arg.other 0]) (by simp) []
  have hx : p.flatten (.arr ⟨[2], [.fin (1 / 2), .fin (1 / 2)]⟩) (some false) none = .ok (realVec (n := 2) ![1 / 2, 1 / 2]) := by
    rw [flatten_false, Jac.flattenNF_interior p hw hf hne _ hI, flat_arr _ _ rfl]
    simp [realVec, List.ofFn_succ]
  have hm : ∀ {m : Nat} {y : Fin m → ℝ}, p.flatten (.arr ⟨[2], [.fin (1 / 2), .fin (1 / 2)]⟩) (some true) none = .ok (realVec y) → m = 1 := by
    intro m y h
    obtain ⟨r, c1, c2, -⟩ := free_val p hw hf _ hI hne
    rw [flatten_true, c2] at h
    injection h with h
    have := congrArg (fun a : NDArray Flt => a.data.length) h
    simp only [vec, realVec, List.length_map, List.length_ofFn, c1] at this
    rw [← this]; simp [p, flatLen]
  have hn : ∀ {n : Nat} {x : Fin n → ℝ}, p.flatten (.arr ⟨[2], [.fin (1 / 2), .fin (1 / 2)]⟩) (some false) none = .ok (realVec x) → n = 2 := by
    intro n x h
    rw [hx] at h
    injection h with h
    have := congrArg (fun a : NDArray Flt => a.data.length) h
    simpa [realVec, vec] using this.symm
  obtain rfl := hm (a2 none)
  obtain rfl := hm (b2 none)
  obtain rfl := hn (a1 none)
  obtain rfl := hn (b1 none)
  obtain rfl : x₀ = ![1 / 2, 1 / 2] := by
    have := (a1 none).symm.trans hx; injection this with this; exact realVec_inj this
  obtain rfl : x₀' = ![1 / 2, 1 / 2] := by
    have := (b1 none).symm.trans hx; injection this with this; exact realVec_inj this
  obtain rfl : B' = B := by
    have := b3.symm.trans a3
    injection this with this
    exact matData_inj (congrArg NDArray.data this)
  obtain ⟨-, -, -, b7⟩ := b6 φ ![1, 1] (fun x hx => hφ g₀' b4 x (hin x hx).2) hconv hder
  have h0 : B'.transpose.mulVec ![1, 1] = 0 := b7.mpr fun x hx => by
    have := (hin x hx).1
    simp only [φ, Fin.sum_univ_two]
    simp
    nlinarith [sq_nonneg (x 0 - x 1)]
  obtain ⟨ψ, c1, c2, -, c4, c5⟩ := a8 φ ![1, 1] _ (Filter.Eventually.of_forall fun x hx => hφ g₀ a6 x hx) hder hhess
  refine ⟨ad, B', f, y₀, g₁, ψ, had, a3, a7, c1, h0, ?_, (c4 h0).1, c5 ?_⟩
  · rw [h0] at c2
    have e : dotMap (0 : Fin 1 → ℝ) = 0 := by ext z; simp [dotMap]
    rwa [e] at c2
  · exact Matrix.PosDef.smul Matrix.PosDef.one two_pos

end Paragami
