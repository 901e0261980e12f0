import Verif.Props.Jacobians
import Verif.Props.FunctionPatterns

/-! # C84: gradients of a wrapped objective -/

namespace Paragami
open NDArray Pattern Spec FunctionPatterns Topology

namespace Spec

/-- A real vector as an argument of a wrapped function. -/
noncomputable def realArg {n : Nat} (x : Fin n → ℝ) : Arg ℝ := .val (.arr (vec (List.ofFn fun j => .fin (x j))))

/-- The linear map with gradient `g`. -/
noncomputable def dotMap {n : Nat} (g : Fin n → ℝ) : (Fin n → ℝ) →L[ℝ] ℝ := ∑ j, g j • ContinuousLinearMap.proj (R := ℝ) (φ := fun _ => ℝ) j

end Spec

theorem dotMap_apply {n : Nat} (g x : Fin n → ℝ) : dotMap g x = ∑ j, g j * x j := by
  simp [dotMap]

/-- **C84, the wrapper.**  `FlattenFunctionInput(f, pattern, free, argnums=k)` called with a vector at position `k` folds it and calls `f`
with the folded value there. -/
theorem C84_single {X : Type} (f : Fn X) (p : Pattern) (fr : Option Bool) {k : Nat} {args : List (Arg X)} (hk : k < args.length) :
    ∃ g, flattenFunctionInput f ⟨[], [p]⟩ ⟨[], [fr]⟩ (some ⟨[], [(k : ℤ)]⟩) = .ok g ∧
      ∀ x kw, g.call (args.set k (.val (.arr x))) kw = p.fold x fr none >>= fun w => f.call (args.set k (.val w)) kw := by
  obtain ⟨s, h1, h2, h3, h4⟩ := (C46_construct (P := ⟨[], [p]⟩) (F := ⟨[], [fr]⟩) false (A := some ⟨[], [(k : ℤ)]⟩) (by simp [NDArray.WF])
    (by simp [NDArray.WF]) (by rintro a h; cases h; simp [NDArray.WF])).1
    ⟨by simp [ndim], .inl rfl, by rintro a h; cases h; simp [ndim]⟩
  have hT : ∀ k' p' fr', Targets s k' p' fr' ↔ k' = k ∧ p' = p ∧ fr' = fr := by
    intro k' p' fr'
    rw [h4]
    constructor
    · rintro ⟨i, a, b, c⟩
      cases i with
      | zero => simp at a b c; exact ⟨c.symm, a.symm, b.symm⟩
      | succ i => simp at a
    · rintro ⟨rfl, rfl, rfl⟩; exact ⟨0, by simp⟩
  have hnum : ∀ k' ∈ s.nums, k' = k := fun k' hk' => by
    obtain ⟨p', fr', h⟩ := exists_target (constructed_ok h2) hk'
    exact ((hT _ _ _).mp h).1
  have h0 : ∀ k' ∈ s.nums, 0 ≤ k' := fun k' hk' => by rw [hnum k' hk']; omega
  have htr : ∀ p fr, (inputTr s p fr : Arg X → _) = foldArg p fr := fun p fr => by rw [inputTr, h3]; rfl
  refine ⟨wrapInput s f, by rw [flattenFunctionInput, h1]; rfl, fun x kw => ?_⟩
  change callInput s f _ kw = _
  cases hx : p.fold x fr none with
  | ok w =>
    obtain ⟨new, hn, hc⟩ := C46_call (X := X) h2 h0 (args := args.set k (.val (.arr x))) (fun k' p' fr' h => by
      obtain ⟨rfl, rfl, rfl⟩ := (hT _ _ _).mp h
      exact ⟨_, .val w, by simp [hk]; rfl, by rw [htr]; simp [foldArg, hx, bind, Except.bind, pure, Except.pure]⟩)
    rw [hc]
    have : new = args.set k (.val w) := by
      obtain ⟨e1, e2, e3⟩ := hn
      apply List.ext_getElem?
      intro j
      by_cases hj : j = k
      · subst hj
        obtain ⟨a, v, -, a1, a2, a3⟩ := e2 j p fr ((hT _ _ _).mpr ⟨rfl, rfl, rfl⟩)
        simp only [Int.toNat_natCast, List.getElem?_set_self hk, Option.some.injEq] at a1 a3
        subst a1
        rw [htr] at a2
        simp only [foldArg, hx, bind, Except.bind, pure, Except.pure, Except.ok.injEq] at a2
        rw [a3, List.getElem?_set_self hk, a2]
      · rw [e3 j (fun h => hj (by exact_mod_cast hnum _ h)), List.getElem?_set_ne (Ne.symm hj), List.getElem?_set_ne (Ne.symm hj)]
    rw [this]; rfl
  | error e =>
    have hperm := sorted_perm (constructed_ok h2)
    have hs : s.sorted = [((k : ℤ), p, fr)] := by
      have hm : ∀ it, it ∈ s.sorted ↔ it = ((k : ℤ), p, fr) := fun it => by
        rw [hperm.mem_iff, mem_items (constructed_ok h2), hT, Prod.ext_iff, Prod.ext_iff]
      have hnd : s.sorted.Nodup := by
        have := sorted_sorted (constructed_ok h2)
        exact this.imp fun h e => by rw [e] at h; exact lt_irrefl _ h
      match hl : s.sorted, hm, hnd with
      | [], hm, _ => exact absurd ((hm _).mpr rfl) (by simp)
      | [a], hm, _ => rw [(hm a).mp (by simp)]
      | a :: b :: l, hm, hnd =>
        have := ((hm a).mp (by simp)).trans ((hm b).mp (by simp)).symm
        simp [this] at hnd
    refine callInput_error (e := e) ?_ f kw
    rw [newArgs, hs, inputTr_eq, inputLoop]
    have : pyGet (args.set k (.val (.arr x))) (k : ℤ) = .ok (.val (.arr x)) := by
      have h0 : ¬ (k : ℤ) < 0 := by omega
      simp only [pyGet, h0, if_false, Int.toNat_natCast, List.getElem?_set_self hk]
    simp only [this, htr, foldArg, hx, bind, Except.bind]

/-- **C84, the chain rule.**  Wrap a real-valued function `f` of a folded value twice, with `free=False` and with `free=True`.  If near the flat
value of `v` the first is (on vectors that fold) a function `φ` with gradient `g` there, then near the free flat value of `v` the second is
a function with gradient `Bᵀ g`, where `B` is what `unfreeing_jacobian` returns. -/
theorem C84_chain_rule {ad : AutogradJacobian} (had : AutogradSpec ad) {p : Pattern} (hp : Built p) (hf : p.FiniteLb) (he : NoEmptyBlocks p)
    {v : Val Flt} (hI : Interior p v) (f : Fn ℝ) {k : Nat} {args : List (Arg ℝ)} (hk : k < args.length) (kw : Kwargs ℝ) :
    ∃ (n m : Nat) (x₀ : Fin n → ℝ) (y₀ : Fin m → ℝ) (B : Matrix (Fin n) (Fin m) ℝ) (g₀ g₁ : Fn ℝ),
      (∀ vv, p.flatten v (some false) vv = .ok (vec (List.ofFn fun j => .fin (x₀ j)))) ∧
      (∀ vv, p.flatten v (some true) vv = .ok (vec (List.ofFn fun j => .fin (y₀ j)))) ∧
      unfreeingJacobian ad p v = .ok ⟨[n, m], matData B⟩ ∧
      flattenFunctionInput f ⟨[], [p]⟩ ⟨[], [some false]⟩ (some ⟨[], [(k : ℤ)]⟩) = .ok g₀ ∧
      flattenFunctionInput f ⟨[], [p]⟩ ⟨[], [some true]⟩ (some ⟨[], [(k : ℤ)]⟩) = .ok g₁ ∧
      ∀ (φ : (Fin n → ℝ) → ℝ) (g : Fin n → ℝ),
        (∀ᶠ x in 𝓝 x₀, (∃ w, p.fold (vec (List.ofFn fun j => .fin (x j))) (some false) = .ok w) →
          g₀.call (args.set k (realArg x)) kw = .ok (.single (.other (φ x)))) →
        HasFDerivAt φ (dotMap g) x₀ →
        ∃ ψ : (Fin m → ℝ) → ℝ, (∀ᶠ y in 𝓝 y₀, g₁.call (args.set k (realArg y)) kw = .ok (.single (.other (ψ y)))) ∧
          HasFDerivAt ψ (dotMap (B.transpose.mulVec g)) y₀ := by
  have hne := Jac.noEmpty_of_blocks p he
  obtain ⟨J, hJ, n, m, y₀, hn, hm, hy₀, u, B, hu, hB, rfl⟩ := C43_tree_unfreeing_jacobian had hp hf he hI
  obtain ⟨g₀, e₀, c₀⟩ := C84_single f p (some false) hk
  obtain ⟨g₁, e₁, c₁⟩ := C84_single f p (some true) hk
  -- what folding a free vector gives
  have key : ∀ y : Fin m → ℝ, ∃ w, p.fold (vec (List.ofFn fun j => .fin (y j))) (some true) = .ok w ∧ Interior p w ∧ w.WF ∧ canon p w = w := by
    intro y
    have hm' := hm
    rw [flatLength_some] at hm'; injection hm' with hm'
    have er : (List.ofFn fun j => Flt.fin (y j)) = (List.ofFn y).map .fin := by rw [List.map_ofFn]; rfl
    obtain ⟨w, h1, h2, h3, -, h5⟩ := free_vec p hp.wf hf (List.ofFn y) (by rw [List.length_ofFn, hm'])
    obtain ⟨r, -, h⟩ := C11_free_value hp hf hne h2
    obtain ⟨a1, a2⟩ := h none none
    rw [flatten_true, h5 hne none] at a1
    injection a1 with a1
    rw [← a1, fold_true, h1] at a2
    injection a2 with a2
    exact ⟨w, by rw [er, fold_true]; exact h1, h2, h3, a2.symm⟩
  have hx₀ : ∀ vv, p.flatten v (some false) vv = .ok (vec (List.ofFn fun j => .fin (u y₀ j))) := by
    intro vv
    have h0 := hu.self_of_nhds
    obtain ⟨w, h1, h2, -, h4⟩ := key y₀
    obtain ⟨r, -, h⟩ := C11_free_value hp hf hne hI
    obtain ⟨a1, a2⟩ := h none none
    rw [hy₀] at a1; injection a1 with a1
    rw [← a1, h1] at a2; injection a2 with a2
    simp only [unfreeingMap, h1, bind, Except.bind] at h0
    rw [← h0, flatten_false, flatten_false, Jac.flattenNF_interior p hp.wf hf hne v hI vv, Jac.flattenNF_interior p hp.wf hf hne w h2 none, a2,
      Jac.flat_canon p hp.wf v hI]
  refine ⟨n, m, u y₀, y₀, B, g₀, g₁, hx₀, hy₀, hJ, e₀, e₁, fun φ g hφ hg => ⟨φ ∘ u, ?_, ?_⟩⟩
  · filter_upwards [hu, hB.continuousAt.eventually hφ] with y h1 h2
    obtain ⟨w, a1, a2, a3, a4⟩ := key y
    simp only [unfreeingMap, a1, bind, Except.bind] at h1
    have a5 := C04_nonfree_value hp a3 h1
    rw [a4] at a5
    have h2 := h2 ⟨w, a5⟩
    rw [realArg, c₀, a5] at h2
    rw [realArg, c₁, a1]
    exact h2
  · have h := hg.comp y₀ hB
    have e : dotMap (B.transpose.mulVec g) = (dotMap g).comp (LinearMap.toContinuousLinearMap B.mulVecLin) := by
      ext1 z
      simp only [ContinuousLinearMap.comp_apply, dotMap_apply, LinearMap.coe_toContinuousLinearMap', Matrix.mulVecLin_apply]
      have := Matrix.dotProduct_mulVec g B z
      rw [← Matrix.mulVec_transpose] at this
      exact this.symm
    rw [e]; exact h

/-- Non-vacuity: for the nested example pattern there are a value and a function (the sum of the squares of all numbers in its folded
argument) that satisfies the hypotheses with a non-zero gradient (provided the value is not zero). -/
example : (∃ ad, AutogradSpec ad) ∧ Built exPat ∧ exPat.FiniteLb ∧ NoEmptyBlocks exPat ∧ (∃ v, Interior exPat v) ∧
    ∃ (f : Fn ℝ) (args : List (Arg ℝ)), 1 < args.length ∧ ∀ (n : Nat) (x₀ : Fin n → ℝ) (kw : Kwargs ℝ) (g₀ : Fn ℝ),
      flattenFunctionInput f ⟨[], [exPat]⟩ ⟨[], [some false]⟩ (some ⟨[], [((1 : Nat) : ℤ)]⟩) = .ok g₀ →
      (∀ᶠ x in 𝓝 x₀, (∃ w, exPat.fold (vec (List.ofFn fun j => .fin (x j))) (some false) = .ok w) →
          g₀.call (args.set 1 (realArg x)) kw = .ok (.single (.other (∑ j, x j ^ 2)))) ∧
      HasFDerivAt (fun x : Fin n → ℝ => ∑ j, x j ^ 2) (dotMap fun j => 2 * x₀ j) x₀ := by
  obtain ⟨v, -, -, -, hv, -⟩ := exPat_value
  refine ⟨Jac.autogradSpec_exists, exPat_built, exPat_finiteLb, by simp [exPat, exInner, NoEmptyBlocks, NoEmptyBlocksEs], ⟨v, hv⟩,
    ⟨fun args _ => match args with
      | [_, .val w] => exPat.flatten w (some false) >>= fun a => .ok (.single (.other (a.data.map fun x => x.toReal ^ 2).sum))
      | _ => .error .typeError, true⟩, [.other 0, .other 1], by simp, fun n x₀ kw g₀ hg => ⟨?_, ?_⟩⟩
  · refine Filter.Eventually.of_forall fun x ⟨w, hw⟩ => ?_
    obtain ⟨g, h1, h2⟩ := C84_single (X := ℝ) ⟨fun args _ => match args with
      | [_, .val w] => exPat.flatten w (some false) >>= fun a => .ok (.single (.other (a.data.map fun x => x.toReal ^ 2).sum))
      | _ => .error .typeError, true⟩ exPat (some false) (k := 1) (args := [.other 0, .other 1]) (by simp)
    have hg' := hg.symm.trans h1
    injection hg' with hg'
    rw [hg', realArg, h2, hw]
    have := C05_nonfree_vector exPat_built exPat_noEmpty hw
    simp only [bind, Except.bind, List.set_cons_succ, List.set_cons_zero, this, vec, List.map_ofFn, List.sum_ofFn, Function.comp_apply,
      Flt.toReal]
  · have : ∀ j : Fin n, HasFDerivAt (fun x : Fin n → ℝ => x j ^ 2) ((2 * x₀ j) • ContinuousLinearMap.proj (R := ℝ) (φ := fun _ => ℝ) j) x₀ := by
      intro j
      have := (hasFDerivAt_apply (𝕜 := ℝ) j x₀).pow 2
      simpa using this
    exact HasFDerivAt.fun_sum fun j _ => this j

end Paragami
