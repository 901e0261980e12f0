import Verif.Props.ChainRule
import Verif.Props.Densities
import Mathlib.Analysis.Calculus.ContDiff.Basic

/-!
# C111: the free parameterization is analytic
-/

namespace Paragami
open NDArray Pattern Flt Spec FunctionPatterns Topology ContDiff

/-- What the derivative calculus says about a map between real vectors: it is a real function near the point, and analytic there. -/
theorem Jac.DiffAt.analytic {g : List Flt → Except Err (NDArray Flt)} {n m : Nat} {M : Nat → Nat → ℝ} {F : NDArray Flt → Except Err (NDArray Flt)}
    {x : Fin n → ℝ} (h : Jac.DiffAt (Fin n → ℝ) g (List.ofFn x) m M)
    (hF : ∀ (t : List ℝ) y, t.length = n → y.length = m → g (t.map .fin) = .ok (vec y) → F (vec (t.map .fin)) = .ok (vec y)) :
    ∃ f : (Fin n → ℝ) → Fin m → ℝ, (∀ᶠ u in 𝓝 x, F (realVec u) = .ok (realVec (f u))) ∧ AnalyticAt ℝ f x := by
  have hL : ∀ j, ∃ L : (Fin n → ℝ) →L[ℝ] ℝ, ∀ hj : j < n, L = ContinuousLinearMap.proj (R := ℝ) (φ := fun _ : Fin n => ℝ) ⟨j, hj⟩ := by
    intro j
    by_cases hj : j < n
    · exact ⟨ContinuousLinearMap.proj (R := ℝ) (φ := fun _ : Fin n => ℝ) ⟨j, hj⟩, fun _ => rfl⟩
    · exact ⟨0, fun h => absurd h hj⟩
  choose L hL using hL
  have hlen : (List.ofFn x).length = n := by simp
  have hpt : (List.range (List.ofFn x).length).map (Jac.ext x) = List.ofFn x := by
    apply List.ext_getElem
    · simp
    · intro j h1 h2
      have : j < n := by simpa using h2
      simp [Jac.ext, this]
  obtain ⟨f, h1, -, h3⟩ := h Jac.ext x L hpt
    (fun j hj => by rw [hlen] at hj; rw [hL j hj]; exact Jac.hasFDerivAt_ext hj)
  rw [hlen] at h1 h3
  refine ⟨fun u i => f u i, ?_, ?_⟩
  · filter_upwards [h1] with u hu
    rw [Jac.finVec_eq_map] at hu
    have := hF _ _ (by simp) (by simp) hu
    rw [← Jac.finVec_eq_map, ← Jac.ofFn_ext] at this
    rw [realVec, this, realVec, Jac.ofFn_ext (fun i : Fin m => f u i)]
    congr 2
    exact Jac.finVec_congr fun j hj => by simp [Jac.ext, hj]
  · have : ContDiffAt ℝ ω (fun u : Fin n → ℝ => fun i : Fin m => f u i) x := by
      rw [contDiffAt_pi]
      intro i
      refine h3 (fun j hj => ?_) i i.2
      have e : (fun u : Fin n → ℝ => Jac.ext u j) = fun u => u ⟨j, hj⟩ := by funext u; simp [Jac.ext, hj]
      rw [e]
      exact contDiffAt_apply ℝ ℝ (⟨j, hj⟩ : Fin n) x
    exact this.analyticAt

/-- **C111.**  Whatever the pattern, matrices included, the map from free to flat vectors is analytic everywhere and injective, and its derivative is injective
at every point; the map from flat to free vectors is defined near every flat vector it reaches, is analytic there, and undoes it.  The flat vectors
reached are those of the values strictly inside the constraint set. -/
theorem C111_analytic {p : Pattern} (hp : Built p) (hf : p.FiniteLb) (he : NoEmptyBlocks p) {n m : Nat} (hn : p.flatLength (some false) = .ok n)
    (hm : p.flatLength (some true) = .ok m) :
    ∃ (u : (Fin m → ℝ) → Fin n → ℝ) (t : (Fin n → ℝ) → Fin m → ℝ),
      (∀ y, unfreeingMap p (realVec y) = .ok (realVec (u y))) ∧ (∀ y, AnalyticAt ℝ u y) ∧ (∀ y, Function.Injective (fderiv ℝ u y)) ∧
      (∀ y, t (u y) = y ∧ AnalyticAt ℝ t (u y) ∧ ∀ᶠ x in 𝓝 (u y), freeingMap p (realVec x) = .ok (realVec (t x))) ∧
      (∀ y, ∃ v, Interior p v ∧ ∀ vv, p.flatten v (some false) vv = .ok (realVec (u y))) ∧
      ∀ v, Interior p v → ∃ y, ∀ vv, p.flatten v (some true) vv = .ok (realVec y) ∧ p.flatten v (some false) vv = .ok (realVec (u y)) := by
  rw [flatLength_some, Except.ok.injEq] at hn hm
  subst hn hm
  have hw := hp.wf
  have hne := Jac.noEmpty_of_blocks p he
  obtain ⟨ad, had⟩ := Jac.autogradSpec_exists
  -- one free vector
  have point : ∀ y : Fin (p.flatLen true) → ℝ, ∃ (V : Val Flt) (f : (Fin (p.flatLen true) → ℝ) → Fin (p.flatLen false) → ℝ)
      (g : (Fin (p.flatLen false) → ℝ) → Fin (p.flatLen true) → ℝ), Interior p V ∧
      (∀ᶠ w in 𝓝 y, unfreeingMap p (realVec w) = .ok (realVec (f w))) ∧ AnalyticAt ℝ f y ∧
      (∀ vv, p.flatten V (some false) vv = .ok (realVec (f y))) ∧ freeingMap p (realVec (f y)) = .ok (realVec y) ∧
      (∀ᶠ x in 𝓝 (f y), freeingMap p (realVec x) = .ok (realVec (g x))) ∧ AnalyticAt ℝ g (f y) := by
    intro y
    obtain ⟨V, h1, hI, hwf, -, h2⟩ := free_vec p hw hf (List.ofFn y) (by simp)
    obtain ⟨r, M, a1, a2, -, a4⟩ := Jac.unfreeing_tree (E := Fin (p.flatLen true) → ℝ) had p hw hf he V hI
    obtain ⟨r', M', b1, b2, -, b4⟩ := Jac.freeing_tree_of (E := Fin (p.flatLen false) → ℝ) (fun _ _ => .error .unmodelled)
      (fun _ _ _ _ _ => Jac.freeing_psd) p hw hf he V hI
    obtain rfl : r = List.ofFn y := by
      have := (a2 none).symm.trans (h2 hne none)
      simp only [Except.ok.injEq, vec_inj] at this
      exact List.map_injective_iff.mpr (fun a b h => by simpa using h) this
    obtain ⟨f, f1, f2⟩ := a4.analytic (F := unfreeingMap p) fun t z ht _ hg => Jac.unfreeingMap_of_unfreeG hw hf hne ht hg
    have hfl : ∀ vv, p.flatten V (some false) vv = .ok (realVec (f y)) := by
      intro vv
      have hx := f1.self_of_nhds
      simp only [unfreeingMap, fold_true, realVec_map y, h1, bind, Except.bind] at hx
      rw [← hx, flatten_false, flatten_false, Jac.flattenNF_interior p hw hf hne V hI, Jac.flattenNF_interior p hw hf hne V hI]
    obtain rfl : r' = List.ofFn (f y) := by
      have := hfl none
      rw [flatten_false, Jac.flattenNF_interior p hw hf hne V hI, b1, realVec_map] at this
      simp only [Except.ok.injEq, vec_inj] at this
      exact List.map_injective_iff.mpr (fun a b h => by simpa using h) this
    obtain ⟨g, g1, g2⟩ := b4.analytic (F := freeingMap p) fun t z ht _ hg => by rw [Jac.freeingMap_of hw (by simpa using ht), hg]
    refine ⟨V, f, g, hI, f1, f2, hfl, ?_, g1, g2⟩
    obtain ⟨rr, k1, k2⟩ := C11_free_value hp hf hne hI
    have hfold : p.fold (realVec y) (some true) = .ok V := by rw [fold_true, realVec_map]; exact h1
    have hy : ∀ vv, p.flatten V (some true) vv = .ok (realVec y) := fun vv => by rw [flatten_true, realVec_map]; exact h2 hne vv
    have hcan : canon p V = V := by
      have e1 := (k2 none none).1
      rw [hy none] at e1
      injection e1 with e1
      have e2 := (k2 none none).2
      rw [← e1, hfold] at e2
      injection e2 with e2
      exact e2.symm
    have hback : p.fold (realVec (f y)) (some false) (some false) = .ok V := by rw [C04_nonfree_value hp hwf (hfl _), hcan]
    simp only [freeingMap, hback, bind, Except.bind, hy]
  choose V f g h1 h2 h3 h4 h5 h6 h7 using point
  classical
  let t : (Fin (p.flatLen false) → ℝ) → Fin (p.flatLen true) → ℝ := fun x =>
    if h : ∃ y, freeingMap p (realVec x) = .ok (realVec y) then h.choose else 0
  have ht : ∀ x y, freeingMap p (realVec x) = .ok (realVec y) → t x = y := fun x y h => by
    have hex : ∃ y, freeingMap p (realVec x) = .ok (realVec y) := ⟨y, h⟩
    simp only [t, dif_pos hex]
    have := h.symm.trans hex.choose_spec
    injection this with this
    exact (realVec_inj this).symm
  have hu : ∀ y, unfreeingMap p (realVec y) = .ok (realVec (f y y)) := fun y => (h2 y).self_of_nhds
  have huf : ∀ y, (fun y => f y y) =ᶠ[𝓝 y] f y := fun y => by
    filter_upwards [h2 y] with w hw
    rw [hu w] at hw
    injection hw with hw
    exact realVec_inj hw
  have hua : ∀ y, AnalyticAt ℝ (fun y => f y y) y := fun y => (h3 y).congr (huf y).symm
  have htg : ∀ y, t =ᶠ[𝓝 (f y y)] g y := fun y => by
    filter_upwards [h6 y] with x hx
    exact ht _ _ hx
  have hta : ∀ y, AnalyticAt ℝ t (f y y) := fun y => (h7 y).congr (htg y).symm
  have htu : ∀ y, t (f y y) = y := fun y => ht _ _ (h5 y)
  refine ⟨fun y => f y y, t, hu, hua, fun y => ?_, fun y => ⟨htu y, hta y, ?_⟩, fun y => ⟨V y, h1 y, h4 y⟩, fun v hI => ?_⟩
  · have d1 := HasFDerivAt.comp (f := fun y => f y y) y (hta y).differentiableAt.hasFDerivAt (hua y).differentiableAt.hasFDerivAt
    have d2 : HasFDerivAt (t ∘ fun y => f y y) (ContinuousLinearMap.id ℝ (Fin (p.flatLen true) → ℝ)) y :=
      (hasFDerivAt_id y).congr_of_eventuallyEq (Filter.Eventually.of_forall htu)
    have e := d1.unique d2
    intro a b hab
    have ea := congrArg (fun L : (Fin (p.flatLen true) → ℝ) →L[ℝ] (Fin (p.flatLen true) → ℝ) => L a) e
    have eb := congrArg (fun L : (Fin (p.flatLen true) → ℝ) →L[ℝ] (Fin (p.flatLen true) → ℝ) => L b) e
    simp only [ContinuousLinearMap.comp_apply, ContinuousLinearMap.id_apply] at ea eb
    rw [← ea, ← eb, hab]
  · filter_upwards [h6 y] with x hx
    rw [ht _ _ hx, hx]
  · obtain ⟨r, c1, c2, c3⟩ := free_val p hw hf v hI hne
    refine ⟨fun i => r.get (i.cast c1.symm), fun vv => ?_⟩
    have e0 : realVec (fun i : Fin (p.flatLen true) => r.get (i.cast c1.symm)) = vec (r.map .fin) := by
      rw [realVec_map]
      congr 2
      apply List.ext_getElem
      · simp [c1]
      · intro i _ _; simp
    have hx := hu fun i => r.get (i.cast c1.symm)
    rw [e0, flatten_true, c2 vv]
    refine ⟨rfl, ?_⟩
    rw [← hx, e0, flatten_false, Jac.flattenNF_interior p hw hf hne v hI]
    simp only [unfreeingMap, fold_true, c3, bind, Except.bind, flatten_false]
    obtain ⟨w, w1, w2, -⟩ := free_vec p hw hf r c1
    rw [c3] at w1
    injection w1 with w1
    rw [Jac.flattenNF_interior p hw hf hne _ (w1 ▸ w2), Jac.flat_canon p hw v hI]

/-- **C111, objectives.**  Wrap a real-valued function of a folded value twice, with `free=False` and with `free=True`.  If near the flat vector of `v` the
first is (on vectors that fold) a function with `N` continuous derivatives, then near the free flat vector of `v` so is the second; `N` may be any
number, infinity, or `ω` (analytic).  So freeing never loses derivatives, and every derivative that `autograd` is asked for exists. -/
theorem C111_objective {p : Pattern} (hp : Built p) (hf : p.FiniteLb) (he : NoEmptyBlocks p) {v : Val Flt} (hI : Interior p v) (f : Fn ℝ) {k : Nat}
    {args : List (Arg ℝ)} (hk : k < args.length) (kw : Kwargs ℝ) :
    ∃ (n m : Nat) (x₀ : Fin n → ℝ) (y₀ : Fin m → ℝ) (g₀ g₁ : Fn ℝ),
      (∀ vv, p.flatten v (some false) vv = .ok (realVec x₀)) ∧ (∀ vv, p.flatten v (some true) vv = .ok (realVec y₀)) ∧
      flattenFunctionInput f ⟨[], [p]⟩ ⟨[], [some false]⟩ (some ⟨[], [(k : ℤ)]⟩) = .ok g₀ ∧
      flattenFunctionInput f ⟨[], [p]⟩ ⟨[], [some true]⟩ (some ⟨[], [(k : ℤ)]⟩) = .ok g₁ ∧
      ∀ (φ : (Fin n → ℝ) → ℝ) (N : WithTop ℕ∞),
        (∀ᶠ x in 𝓝 x₀, (∃ w, p.fold (realVec x) (some false) = .ok w) → g₀.call (args.set k (realArg x)) kw = .ok (.single (.other (φ x)))) →
        ContDiffAt ℝ N φ x₀ →
        ∃ ψ : (Fin m → ℝ) → ℝ, (∀ᶠ y in 𝓝 y₀, g₁.call (args.set k (realArg y)) kw = .ok (.single (.other (ψ y)))) ∧ ContDiffAt ℝ N ψ y₀ := by
  have hne := Jac.noEmpty_of_blocks p he
  obtain ⟨u, t, hu, hua, -, -, -, hv⟩ := C111_analytic hp hf he (flatLength_some p false) (flatLength_some p true)
  obtain ⟨g₀, e₀, c₀⟩ := C84_single f p (some false) hk
  obtain ⟨g₁, e₁, c₁⟩ := C84_single f p (some true) hk
  obtain ⟨y₀, hy⟩ := hv v hI
  refine ⟨_, _, u y₀, y₀, g₀, g₁, fun vv => (hy vv).2, fun vv => (hy vv).1, e₀, e₁, fun φ N hφ hN => ⟨φ ∘ u, ?_, hN.comp y₀ (hua y₀).contDiffAt⟩⟩
  filter_upwards [(hua y₀).continuousAt.eventually hφ] with y h2
  obtain ⟨w, a1, a2, a3, -, a5⟩ := free_vec p hp.wf hf (List.ofFn y) (by simp)
  have a1' : p.fold (realVec y) (some true) = .ok w := by rw [fold_true, realVec_map]; exact a1
  have h1 := hu y
  simp only [unfreeingMap, a1', bind, Except.bind] at h1
  obtain ⟨r, -, h⟩ := C11_free_value hp hf hne a2
  obtain ⟨b1, b2⟩ := h none none
  rw [flatten_true, a5 hne none] at b1
  injection b1 with b1
  rw [← b1, fold_true, a1] at b2
  injection b2 with b2
  have a6 := C04_nonfree_value hp a3 h1
  rw [← b2] at a6
  have h2 := h2 ⟨w, a6⟩
  have ex : ∀ {n : Nat} (x : Fin n → ℝ), (realArg x : Arg ℝ) = .val (.arr (realVec x)) := fun x => rfl
  rw [ex, c₀, a6] at h2
  rw [ex, c₁, a1']
  exact h2

/-- Two by two matrices: an analytic map from three free numbers to four entries, which sends zero to the identity matrix. -/
example : ∃ u : (Fin 3 → ℝ) → Fin 4 → ℝ, (∀ y, AnalyticAt ℝ u y) ∧ (∀ y, Function.Injective (fderiv ℝ u y)) ∧ Function.Injective u ∧
    (∀ y, unfreeingMap (.psd 2 (.int 0) true none) (realVec y) = .ok (realVec (u y))) ∧ u 0 = ![1, 0, 0, 1] := by
  obtain ⟨u, t, h1, h2, h3, h4, -⟩ := C111_analytic (p := .psd 2 (.int 0) true none) (WF.built _ (by simp [Pattern.WF, PyNum.toFlt]))
    (by simp [FiniteLb, PyNum.toFlt, IsFin]) trivial (n := 4) (m := 3) (by simp [flatLength_some, flatLen]) (by simp [flatLength_some, flatLen])
  refine ⟨u, h2, h3, fun a b hab => by rw [← (h4 a).1, ← (h4 b).1, hab], h1, ?_⟩
  have h0 := Jac.unfreeingMap_of_unfreeG (p := .psd 2 (.int 0) true none) (t := [0, 0, 0]) (y := [.fin 1, .fin 0, .fin 0, .fin 1])
    (by simp [Pattern.WF, PyNum.toFlt]) (by simp [FiniteLb, PyNum.toFlt, IsFin]) (by simp [NoEmpty]) (by simp [flatLen]) (by
      simp only [Jac.unfreeG, foldFree]
      rw [PSD.foldFree_ok.mpr ⟨by simp, rfl, by rw [atleast1d_of_ne (by simp [vec]), show (PyNum.int 0).toFlt = .fin 0 by simp [PyNum.toFlt], unpackPosdef_fin (n := 2) (by rfl)]⟩]
      simp only [bind, Except.bind, pure, Except.pure]
      rw [flat_arr _ _ rfl, Jac.ofFn2_finVec]
      simp [Jac.finVec, List.range_succ, freeMat, freeFactor, Finset.sum_range_succ, symIndex])
  have e : realVec (0 : Fin 3 → ℝ) = vec ([0, 0, 0].map .fin) := by simp [realVec, List.ofFn_succ]
  have := h1 0
  rw [e, h0] at this
  injection this with this
  refine realVec_inj (this.symm.trans ?_)
  simp [realVec, List.ofFn_succ]

end Paragami
