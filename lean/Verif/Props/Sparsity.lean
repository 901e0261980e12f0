import Verif.Props.Minimizers
import Verif.Props.Indices
import Verif.Props.SecondOrder

/-!
# C122: which entries of gradients and Hessians with respect to free vectors can be non-zero
-/

namespace Paragami
open NDArray Pattern Flt Spec FunctionPatterns Topology ContDiff

namespace Spec

/-- The real number `φ w` depends only on the entries of the feasible value `w` that are marked in the mask. -/
def OnlyMarked (p : Pattern) (b : Val Bool) (φ : Val Flt → ℝ) : Prop :=
  ∀ w w', Feasible p w → Feasible p w' → marked p b w = marked p b w' → φ w = φ w'

end Spec

/-- A function that does not depend on coordinate `i` has derivative zero in that direction. -/
theorem fderiv_single_zero {m : Nat} {ψ : (Fin m → ℝ) → ℝ} {i : Fin m} (h : ∀ y (s : ℝ), ψ (y + s • Pi.single i 1) = ψ y) (y : Fin m → ℝ) :
    fderiv ℝ ψ y (Pi.single i 1) = 0 := by
  by_cases hd : DifferentiableAt ℝ ψ y
  · have hp : HasDerivAt (fun s : ℝ => y + s • (Pi.single i 1 : Fin m → ℝ)) (Pi.single i 1) 0 := by
      have := ((hasDerivAt_id (0 : ℝ)).smul_const (Pi.single i 1 : Fin m → ℝ)).const_add y
      simpa using this
    have h1 : HasFDerivAt ψ (fderiv ℝ ψ y) (y + (0 : ℝ) • (Pi.single i 1 : Fin m → ℝ)) := by simpa using hd.hasFDerivAt
    have h2 := h1.comp_hasDerivAt 0 hp
    have h3 : (ψ ∘ fun s : ℝ => y + s • (Pi.single i 1 : Fin m → ℝ)) = fun _ => ψ y := by funext s; exact h y s
    rw [h3] at h2
    exact h2.unique (hasDerivAt_const _ _)
  · rw [fderiv_zero_of_not_differentiableAt hd]; rfl

/-- A function that does not depend on coordinate `i` has a Hessian with row and column `i` zero. -/
theorem hessian_single_zero {m : Nat} {ψ : (Fin m → ℝ) → ℝ} {i : Fin m} (h : ∀ y (s : ℝ), ψ (y + s • Pi.single i 1) = ψ y) {y : Fin m → ℝ}
    {M : Matrix (Fin m) (Fin m) ℝ} (hM : HasHessianAt ψ M y) (j : Fin m) : M i j = 0 ∧ M j i = 0 := by
  obtain ⟨-, D, hD, hDv⟩ := hM
  have entry : ∀ a b, D (Pi.single a 1) (Pi.single b 1) = M a b := fun a b => by rw [hDv]; simp
  constructor
  · rw [← entry]
    have hp : HasDerivAt (fun s : ℝ => y + s • (Pi.single i 1 : Fin m → ℝ)) (Pi.single i 1) 0 := by
      have := ((hasDerivAt_id (0 : ℝ)).smul_const (Pi.single i 1 : Fin m → ℝ)).const_add y
      simpa using this
    have h1 : HasFDerivAt (fderiv ℝ ψ) D (y + (0 : ℝ) • (Pi.single i 1 : Fin m → ℝ)) := by simpa using hD
    have h2 := h1.comp_hasDerivAt 0 hp
    have h3 : (fderiv ℝ ψ ∘ fun s : ℝ => y + s • (Pi.single i 1 : Fin m → ℝ)) = fun _ => fderiv ℝ ψ y := by
      funext s
      have e : (fun z => ψ (z + s • (Pi.single i 1 : Fin m → ℝ))) = ψ := by funext z; exact h z s
      have := fderiv_comp_add_right (𝕜 := ℝ) (f := ψ) (x := y) (s • (Pi.single i 1 : Fin m → ℝ))
      rw [e] at this
      exact this.symm
    rw [h3] at h2
    have := h2.unique (hasDerivAt_const _ _)
    rw [this]; rfl
  · rw [← entry]
    have h1 : HasFDerivAt (fun z => fderiv ℝ ψ z (Pi.single i 1)) (D.flip (Pi.single i 1)) y := by
      have e : D.flip (Pi.single i 1) = (ContinuousLinearMap.apply ℝ ℝ (Pi.single i 1 : Fin m → ℝ)).comp D := by ext z; simp
      rw [e]
      exact (ContinuousLinearMap.apply ℝ ℝ (Pi.single i 1 : Fin m → ℝ)).hasFDerivAt.comp y hD
    have h2 : (fun z => fderiv ℝ ψ z (Pi.single i 1)) = fun _ => 0 := by funext z; exact fderiv_single_zero h z
    rw [h2] at h1
    have := h1.unique (hasFDerivAt_const _ _)
    have := congrArg (fun L : (Fin m → ℝ) →L[ℝ] ℝ => L (Pi.single j 1)) this
    simpa using this

theorem hasHessianAt_zero {m : Nat} (y : Fin m → ℝ) : HasHessianAt (fun _ : Fin m → ℝ => 0) 0 y := by
  refine ⟨Filter.Eventually.of_forall fun x => differentiableAt_const _, 0, ?_, fun v w => by simp⟩
  have : (fderiv ℝ fun _ : Fin m → ℝ => (0 : ℝ)) = fun _ => 0 := by funext x; simp
  rw [this]; exact hasFDerivAt_const _ _

theorem hasHessianAt_add {m : Nat} {f g : (Fin m → ℝ) → ℝ} {M N : Matrix (Fin m) (Fin m) ℝ} {y : Fin m → ℝ} (hf : HasHessianAt f M y)
    (hg : HasHessianAt g N y) : HasHessianAt (fun z => f z + g z) (M + N) y := by
  obtain ⟨f1, D, f2, f3⟩ := hf
  obtain ⟨g1, E, g2, g3⟩ := hg
  refine ⟨by filter_upwards [f1, g1] with z a b using a.add b, D + E, (f2.add g2).congr_of_eventuallyEq ?_, fun v w => ?_⟩
  · filter_upwards [f1, g1] with z a b
    exact fderiv_fun_add a b
  · rw [Matrix.add_mulVec, dotProduct_add, ← f3, ← g3]; rfl

theorem hasHessianAt_sum {m : Nat} {ι : Type} (s : Finset ι) {ψ : ι → (Fin m → ℝ) → ℝ} {M : ι → Matrix (Fin m) (Fin m) ℝ} {y : Fin m → ℝ}
    (h : ∀ c ∈ s, HasHessianAt (ψ c) (M c) y) : HasHessianAt (fun z => ∑ c ∈ s, ψ c z) (∑ c ∈ s, M c) y := by
  classical
  induction s using Finset.induction_on with
  | empty => simpa using hasHessianAt_zero y
  | insert a s ha ih =>
    simp only [Finset.sum_insert ha]
    exact hasHessianAt_add (h a (by simp)) (ih fun c hc => h c (by simp [hc]))

/-- **C122.**  Let `f` be a function of a folded value that is a sum of terms, each of which depends only on the entries marked in a mask of its own.
Then the function of free vectors, which `FlattenFunctionInput(f, pattern, True, argnums)` gives, is a sum of terms which depend only on the
coordinates listed in `flat_indices(mask, free=True)`.  The gradient of each term is zero elsewhere; the Hessian of the sum can be non-zero only
at pairs of coordinates that are listed together for some mask. -/
theorem C122_sparsity {p : Pattern} (hp : Built p) (hf : p.FiniteLb) (hne : p.NoEmpty) {m : Nat} (hm : p.flatLength (some true) = .ok m)
    {N : Nat} {b : Fin N → Val Bool} (hb : ∀ c, (b c).WF ∧ ShapeOk p (b c)) {φ : Fin N → Val Flt → ℝ} (hφ : ∀ c, OnlyMarked p (b c) (φ c))
    (f : Fn ℝ) {k : Nat} {args : List (Arg ℝ)} (hk : k < args.length) (kw : Kwargs ℝ)
    (hfφ : ∀ w, Feasible p w → f.call (args.set k (.val w)) kw = .ok (.single (.other (∑ c, φ c w)))) :
    ∃ (g : Fn ℝ) (idx : Fin N → List Nat) (ψ : Fin N → (Fin m → ℝ) → ℝ),
      flattenFunctionInput f ⟨[], [p]⟩ ⟨[], [some true]⟩ (some ⟨[], [(k : ℤ)]⟩) = .ok g ∧
      (∀ c, p.flatIndices (b c) (some true) = .ok (idx c)) ∧
      (∀ y, g.call (args.set k (realArg y)) kw = .ok (.single (.other (∑ c, ψ c y)))) ∧
      (∀ c y w, p.fold (realVec y) (some true) = .ok w → ψ c y = φ c w) ∧
      (∀ c y y', (∀ i : Fin m, (i : Nat) ∈ idx c → y i = y' i) → ψ c y = ψ c y') ∧
      (∀ c y (L : (Fin m → ℝ) →L[ℝ] ℝ), HasFDerivAt (ψ c) L y → ∀ i : Fin m, (i : Nat) ∉ idx c → L (Pi.single i 1) = 0) ∧
      ∀ (y : Fin m → ℝ) (M : Fin N → Matrix (Fin m) (Fin m) ℝ), (∀ c, HasHessianAt (ψ c) (M c) y) → HasHessianAt (fun z => ∑ c, ψ c z) (∑ c, M c) y ∧
        ∀ i j : Fin m, (∑ c, M c) i j ≠ 0 → ∃ c, (i : Nat) ∈ idx c ∧ (j : Nat) ∈ idx c := by
  obtain ⟨g, hg, hc⟩ := C84_single f p (some true) hk
  choose idx hidx hfree using fun c => C37_free_indices hp (hb c).1 (hb c).2
  have key : ∀ y : Fin m → ℝ, ∃ w, p.fold (realVec y) (some true) = .ok w ∧ Feasible p w := by
    intro y
    obtain ⟨w, h1, h2, -⟩ := (C89_bijection hp hf hne hm).1 y
    exact ⟨w, by rw [realVec_map]; rwa [floats_vecOf] at h1, h2⟩
  choose W hW hWf using key
  have dep : ∀ c y y', (∀ i : Fin m, (i : Nat) ∈ idx c → y i = y' i) → φ c (W y) = φ c (W y') := by
    intro c y y' h
    refine hφ c _ _ (hWf y) (hWf y') (hfree c _ _ none none _ _ (hW y) (hW y') fun i hi => ?_)
    by_cases him : i < m
    · simp [him, h ⟨i, him⟩ hi]
    · simp [him]
  have shift : ∀ c (i : Fin m), (i : Nat) ∉ idx c → ∀ y (s : ℝ), φ c (W (y + s • Pi.single i 1)) = φ c (W y) := by
    intro c i hi y s
    refine dep c _ _ fun j hj => ?_
    have : j ≠ i := fun e => hi (e ▸ hj)
    simp [this]
  refine ⟨g, idx, fun c y => φ c (W y), hg, hidx, fun y => ?_, fun c y w hw => ?_, dep, fun c y L hL i hi => ?_, fun y M hM => ⟨hasHessianAt_sum _ fun c _ => hM c, fun i j hij => ?_⟩⟩
  · change g.call (args.set k (.val (.arr (realVec y)))) kw = _
    rw [hc, hW y]
    exact hfφ _ (hWf y)
  · rw [hW y] at hw; injection hw with hw; subst hw; rfl
  · rw [← hL.fderiv]
    exact fderiv_single_zero (shift c i hi) y
  · by_contra hno
    push Not at hno
    apply hij
    rw [Matrix.sum_apply]
    refine Finset.sum_eq_zero fun c _ => ?_
    by_cases hi : (i : Nat) ∈ idx c
    · exact (hessian_single_zero (shift c j (hno c hi)) (hM c) i).2
    · exact (hessian_single_zero (shift c i hi) (hM c) j).1

/-- Non-vacuity of C122: a function that is a sum of a term in the positive numbers `a` and a term in the probabilities `s`.  The free coordinates of the
terms are 0, 1 and 2, 3, so that the Hessian has two blocks. -/
example : let p : Pattern := .dict (.cons "a" (.numeric .vector [2] (.int 0) (.flt .pinf) true none) (.cons "s" (.simplex 3 [] true none) .nil)) false none
    let b : Fin 2 → Val Bool := ![.dict [("a", .arr (vec [true, true])), ("s", .arr (vec [false, false, false]))],
      .dict [("a", .arr (vec [false, false])), ("s", .arr (vec [true, false, true]))]]
    Built p ∧ p.FiniteLb ∧ p.NoEmpty ∧ p.flatLength (some true) = .ok 4 ∧ (∀ c, (b c).WF ∧ ShapeOk p (b c)) ∧
    p.flatIndices (b 0) (some true) = .ok [0, 1] ∧ p.flatIndices (b 1) (some true) = .ok [2, 3] ∧
    ∃ (φ : Fin 2 → Val Flt → ℝ) (f : Fn ℝ), (∀ c, OnlyMarked p (b c) (φ c)) ∧
      ∀ w, f.call (([Arg.other 0] : List (Arg ℝ)).set 0 (.val w)) [] = .ok (.single (.other (∑ c, φ c w))) := by
  intro p b
  have hw : p.WF := by simp [p, Pattern.WF, WFEs, Entries.keys, Entries.toList, lock, PyNum.toFlt, Flt.lt]
  have hb : ∀ c, (b c).WF ∧ ShapeOk p (b c) := by
    intro c
    refine ⟨by fin_cases c <;> simp [b, Val.WF, Val.WFEs, NDArray.WF, vec], ?_⟩
    fin_cases c
    all_goals
      change ShapeOk p (.dict _)
      rw [ShapeOk, ShapeOkEs, ShapeOkEs, ShapeOkEs]
      exact ⟨⟨_, rfl, by rw [ShapeOk]; rfl⟩, ⟨_, rfl, by rw [ShapeOk]; rfl⟩, trivial⟩
  refine ⟨WF.built _ hw, by simp [p, FiniteLb, FiniteLbEs], by simp [p, NoEmpty, NoEmptyEs], by simp [p, flatLength_some, flatLen, flatLenEs], hb, ?_, ?_,
    fun c w => ((marked p (b c) w).map fun x => x.toReal ^ 2).sum,
    ⟨fun args _ => match args with | [.val w] => .ok (.single (.other (∑ c, ((marked p (b c) w).map fun x => x.toReal ^ 2).sum))) | _ => .error .typeError, true⟩,
    fun c w w' _ _ h => by simp only [h], fun w => rfl⟩
  · rw [flatIndices_some, flatIdx_eq true p hw (b 0) (hb 0).1 (hb 0).2]
    simp [p, b, flatMask, flatMaskEs, List.lookup, positions, chunk, List.range_succ]
  · rw [flatIndices_some, flatIdx_eq true p hw (b 1) (hb 1).1 (hb 1).2]
    simp [p, b, flatMask, flatMaskEs, List.lookup, positions, chunk, List.range_succ]

end Paragami
