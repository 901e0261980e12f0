import Verif.Props.SecondOrder
import Verif.Proofs.Settle
import Verif.Proofs.Closure
import Mathlib.Analysis.Convex.Extrema

/-!
# C125: optimizing over free vectors when the minimum is on the boundary
-/

namespace Paragami
open NDArray Pattern Flt Spec FunctionPatterns Topology

mutual
theorem closed_of_admissible : ∀ (p : Pattern) (v : Val Flt), Admissible p v → Closed p v
  | .numeric .., .arr a, h => ⟨h.1, h.2.1, fun x hx => .inr (h.2.2 x hx).2⟩
  | .simplex k s _ _, .arr a, h => by
    refine ⟨h.1, h.2.1, fun i hi => ?_⟩
    obtain ⟨r, h1, h2, h3⟩ := h.2.2 i hi
    rw [h1]
    refine ⟨fun x hx => .inr ?_, .inr ⟨r, rfl, by rw [h3]; norm_num⟩⟩
    obtain ⟨z, hz, rfl⟩ := List.mem_map.mp hx
    have h0 : (0 : Flt) = Flt.fin 0 := by simp
    rw [h0]
    simpa using h2 z hz
  | .psd n lb _ _, .arr a, h => by
    obtain ⟨M, rfl, hM⟩ := h
    refine ⟨M, rfl, ?_, fun i => ?_⟩
    · ext i j
      have := congrFun (congrFun hM.1 i) j
      simp only [Matrix.conjTranspose_apply, Matrix.sub_apply, star_trivial, Matrix.smul_apply, Matrix.one_apply, eq_comm (a := j)] at this
      exact sub_left_injective this
    · have := hM.diag_nonneg (i := i)
      simp at this
      exact this
  | .array s base _, .arr a, h => ⟨h.1, h.2.1, fun i hi => closed_of_admissible base _ (h.2.2 i hi)⟩
  | .dict es _ _, .dict vs, h => closedEs_of_admissible es vs h
  | .numeric .., .dict _, h => by simp [Admissible] at h
  | .simplex .., .dict _, h => by simp [Admissible] at h
  | .psd .., .dict _, h => by simp [Admissible] at h
  | .array .., .dict _, h => by simp [Admissible] at h
  | .dict .., .arr _, h => by simp [Admissible] at h
theorem closedEs_of_admissible : ∀ (es : Entries) (vs : List (String × Val Flt)), AdmissibleEs es vs → ClosedEs es vs
  | .nil, _, _ => trivial
  | .cons _ p r, vs, ⟨⟨v, h1, h2⟩, h3⟩ => ⟨⟨v, h1, closed_of_admissible p v h2⟩, closedEs_of_admissible r vs h3⟩
end

theorem mem_admitted {p : Pattern} (hw : p.WF) (x : Fin (p.flatLen false) → ℝ) :
    x ∈ admitted p (p.flatLen false) ↔ Admissible p (p.unflat ((List.ofFn x).map .fin)) := by
  have hl : ((List.ofFn x).map Flt.fin).length = p.flatLen false := by simp
  have h := foldNF_eq p hw _ (some false) hl (Jac.acc_unflat p hw _ hl)
  simp only [admitted, Set.mem_ofPred_eq, fold_false, realVec_map]
  rw [h]
  simp

theorem inside_nonempty {p : Pattern} (hp : Built p) (hf : p.FiniteLb) (he : NoEmptyBlocks p) : (inside p (p.flatLen false)).Nonempty := by
  obtain ⟨u, t, hu, -⟩ := C111_analytic hp hf he (flatLength_some p false) (flatLength_some p true)
  exact (range_unfree hp hf (Jac.noEmpty_of_blocks p he) hu).2 ▸ Set.range_nonempty u

/-- **C125, the closure.**  The flat vectors of the admissible values (on the bounds, simplexes with zeros, singular matrices) are the limits of the
flat vectors of the values strictly inside. -/
theorem C125_closure {p : Pattern} (hp : Built p) (hf : p.FiniteLb) (he : NoEmptyBlocks p) {n : Nat} (hn : p.flatLength (some false) = .ok n) :
    closure (inside p n) = admitted p n := by
  rw [flatLength_some, Except.ok.injEq] at hn
  subst hn
  ext x
  constructor
  · intro hx
    obtain ⟨X, hX, hl⟩ := mem_closure_iff_seq_limit.mp hx
    rw [mem_admitted hp.wf]
    refine admissible_limit p hp.wf (fun k => List.ofFn (X k)) _ (fun k => by simp) (by simp) (fun i => ?_) fun k => (mem_inside hp.wf _).mp (hX k)
    by_cases hi : i < p.flatLen false
    · have := (tendsto_pi_nhds.mp hl) ⟨i, hi⟩
      simpa [List.getD_eq_getElem?_getD, hi] using this
    · simp [List.getD_eq_getElem?_getD, hi]
  · intro hx
    obtain ⟨y, hy⟩ := inside_nonempty hp hf he
    refine mem_closure_iff_seq_limit.mpr ⟨fun k => (1 - 1 / ((k : ℝ) + 1)) • x + (1 / ((k : ℝ) + 1)) • y, fun k => ?_, ?_⟩
    · rw [mem_inside hp.wf]
      rw [mem_admitted hp.wf] at hx
      rw [mem_inside hp.wf] at hy
      have hk : 0 < 1 / ((k : ℝ) + 1) := by positivity
      have hk1 : 1 / ((k : ℝ) + 1) ≤ 1 := by rw [div_le_one (by positivity)]; linarith [Nat.cast_nonneg (α := ℝ) k]
      have := admissible_mix (sub_nonneg.mpr hk1) hk (by ring) p hp.wf _ _ (by simp) (by simp) hx hy
      convert this using 3
      apply List.ext_getElem
      · simp [mix]
      · intro i _ _; simp [mix]
    · have h1 := tendsto_one_div_add_atTop_nhds_zero_nat (𝕜 := ℝ)
      have := ((h1.const_sub 1).smul_const x).add (h1.smul_const y)
      simpa using this

/-- **C125, folding.**  Admissible flat vectors fold without `free`, whether or not the value is validated. -/
theorem C125_folds {p : Pattern} (hp : Built p) (hf : p.FiniteLb) {n : Nat} (hn : p.flatLength (some false) = .ok n) {x : Fin n → ℝ}
    (hx : x ∈ admitted p n) : ∃ v, Admissible p v ∧ ∀ vv, p.fold (realVec x) (some false) vv = .ok v := by
  rw [flatLength_some, Except.ok.injEq] at hn
  subst hn
  rw [mem_admitted hp.wf] at hx
  refine ⟨_, hx, fun vv => ?_⟩
  rw [fold_false, realVec_map]
  exact foldNF_eq p hp.wf _ vv (by simp) (acc_of_closed p hp.wf hf _ vv (closed_of_admissible p _ hx))

/-- **C125, the boundary is at infinity.**  If the flat vectors of a sequence of free vectors approach a vector that is not the flat vector of a value
strictly inside, then the free vectors grow beyond all bounds. -/
theorem C125_boundary {p : Pattern} (hp : Built p) (hf : p.FiniteLb) (he : NoEmptyBlocks p) {n m : Nat} (hn : p.flatLength (some false) = .ok n)
    (hm : p.flatLength (some true) = .ok m) {Y : Nat → Fin m → ℝ} {X : Nat → Fin n → ℝ} (hY : ∀ i, unfreeingMap p (realVec (Y i)) = .ok (realVec (X i)))
    {x : Fin n → ℝ} (hX : Filter.Tendsto X Filter.atTop (𝓝 x)) (hx : x ∉ inside p n) : Filter.Tendsto (fun i => ‖Y i‖) Filter.atTop Filter.atTop := by
  obtain ⟨u, t, hu, hua, -, -, -, -⟩ := C111_analytic hp hf he hn hm
  rw [flatLength_some, Except.ok.injEq] at hn hm
  subst hn hm
  have hr := (range_unfree hp hf (Jac.noEmpty_of_blocks p he) hu).2
  have huc : Continuous u := continuous_iff_continuousAt.mpr fun y => (hua y).continuousAt
  refine (tendsto_norm_cocompact_atTop (E := Fin (p.flatLen true) → ℝ)).comp (Filter.hasBasis_cocompact.tendsto_right_iff.mpr fun K hK => ?_)
  have hcl : IsClosed (u '' K) := (hK.image huc).isClosed
  have hxK : x ∉ u '' K := fun ⟨y, _, e⟩ => hx (hr ▸ ⟨y, e⟩)
  filter_upwards [hX.eventually (hcl.isOpen_compl.mem_nhds hxK)] with i hi hKi
  refine hi ⟨Y i, hKi, ?_⟩
  have := (hu (Y i)).symm.trans (hY i)
  injection this with this
  exact realVec_inj this

/-- **C125, infima.**  Wrap a real-valued function of a folded value with `free=False` and with `free=True`.  If the first is a continuous function on the
flat vectors of the admissible values, then the second has the same lower bounds as the function has on all admissible values; it comes arbitrarily
near to the value at each of them; and if a lower bound is not attained strictly inside, then free vectors at which the function approaches it grow
beyond all bounds. -/
theorem C125_infimum {p : Pattern} (hp : Built p) (hf : p.FiniteLb) (he : NoEmptyBlocks p) {n m : Nat} (hn : p.flatLength (some false) = .ok n)
    (hm : p.flatLength (some true) = .ok m) (f : Fn ℝ) {k : Nat} {args : List (Arg ℝ)} (hk : k < args.length) (kw : Kwargs ℝ) :
    ∃ g₀ g₁ : Fn ℝ, flattenFunctionInput f ⟨[], [p]⟩ ⟨[], [some false]⟩ (some ⟨[], [(k : ℤ)]⟩) = .ok g₀ ∧
      flattenFunctionInput f ⟨[], [p]⟩ ⟨[], [some true]⟩ (some ⟨[], [(k : ℤ)]⟩) = .ok g₁ ∧
      ∀ φ : (Fin n → ℝ) → ℝ, (∀ x ∈ admitted p n, g₀.call (args.set k (realArg x)) kw = .ok (.single (.other (φ x)))) → ContinuousOn φ (admitted p n) →
        ∃ ψ : (Fin m → ℝ) → ℝ, (∀ y, g₁.call (args.set k (realArg y)) kw = .ok (.single (.other (ψ y)))) ∧ Continuous ψ ∧
          (∀ c, (∀ y, c ≤ ψ y) ↔ ∀ x ∈ admitted p n, c ≤ φ x) ∧
          (∀ x ∈ admitted p n, ∃ Y : Nat → Fin m → ℝ, Filter.Tendsto (fun i => ψ (Y i)) Filter.atTop (𝓝 (φ x))) ∧
          ∀ c, (∀ x ∈ inside p n, c < φ x) → ∀ Y : Nat → Fin m → ℝ, Filter.Tendsto (fun i => ψ (Y i)) Filter.atTop (𝓝 c) →
            Filter.Tendsto (fun i => ‖Y i‖) Filter.atTop Filter.atTop := by
  obtain ⟨u, t, hu, hua, -, -, -, -⟩ := C111_analytic hp hf he hn hm
  have hne := Jac.noEmpty_of_blocks p he
  have hcl := C125_closure hp hf he hn
  rw [flatLength_some, Except.ok.injEq] at hn hm
  subst hn hm
  have hr := (range_unfree hp hf hne hu).2
  obtain ⟨g₀, g₁, e₀, e₁, hc⟩ := free_call hp hf hne hu f hk kw
  have huc : Continuous u := continuous_iff_continuousAt.mpr fun y => (hua y).continuousAt
  have hin : ∀ y, u y ∈ inside p (p.flatLen false) := fun y => hr ▸ ⟨y, rfl⟩
  have had : inside p (p.flatLen false) ⊆ admitted p (p.flatLen false) := hcl ▸ subset_closure
  refine ⟨g₀, g₁, e₀, e₁, fun φ hφ hcon => ?_⟩
  have hψ : Continuous fun y => φ (u y) := hcon.comp_continuous huc fun y => had (hin y)
  have happ : ∀ x ∈ admitted p (p.flatLen false), ∃ Y : Nat → Fin (p.flatLen true) → ℝ, Filter.Tendsto (fun i => φ (u (Y i))) Filter.atTop (𝓝 (φ x)) := by
    intro x hx
    obtain ⟨X, hX, hl⟩ := mem_closure_iff_seq_limit.mp (hcl ▸ hx)
    rw [← hr] at hX
    choose Y hY using hX
    refine ⟨Y, ?_⟩
    simp only [hY]
    exact (hcon x hx).tendsto.comp (tendsto_nhdsWithin_iff.mpr ⟨hl, Filter.Eventually.of_forall fun i => had (hY i ▸ hin _)⟩)
  refine ⟨fun y => φ (u y), fun y => by rw [(hc y).2, hφ _ (had (hin y))], hψ, fun c => ⟨fun h x hx => ?_, fun h y => h _ (had (hin y))⟩, happ,
    fun c h Y hY => ?_⟩
  · obtain ⟨Y, hY⟩ := happ x hx
    exact ge_of_tendsto' hY fun i => h _
  · refine (tendsto_norm_cocompact_atTop (E := Fin (p.flatLen true) → ℝ)).comp (Filter.hasBasis_cocompact.tendsto_right_iff.mpr fun K hK => ?_)
    have hK' : IsClosed ((fun y => φ (u y)) '' K) := (hK.image hψ).isClosed
    have hxK : c ∉ (fun y => φ (u y)) '' K := fun ⟨y, _, e⟩ => (h _ (hin y)).ne' e
    filter_upwards [hY.eventually (hK'.isOpen_compl.mem_nhds hxK)] with i hi hKi
    exact hi ⟨Y i, hKi, rfl⟩

/-- **C125, local minima.**  If the function of flat vectors is convex on the vectors strictly inside, then every local minimum of the function of free
vectors is a global one, even if the function has no derivative; and if it is strictly convex, there is at most one. -/
theorem C125_local {p : Pattern} (hp : Built p) (hf : p.FiniteLb) (he : NoEmptyBlocks p) {n m : Nat} (hn : p.flatLength (some false) = .ok n)
    (hm : p.flatLength (some true) = .ok m) (f : Fn ℝ) {k : Nat} {args : List (Arg ℝ)} (hk : k < args.length) (kw : Kwargs ℝ) :
    ∃ g₀ g₁ : Fn ℝ, flattenFunctionInput f ⟨[], [p]⟩ ⟨[], [some false]⟩ (some ⟨[], [(k : ℤ)]⟩) = .ok g₀ ∧
      flattenFunctionInput f ⟨[], [p]⟩ ⟨[], [some true]⟩ (some ⟨[], [(k : ℤ)]⟩) = .ok g₁ ∧
      ∀ φ : (Fin n → ℝ) → ℝ, (∀ x ∈ inside p n, g₀.call (args.set k (realArg x)) kw = .ok (.single (.other (φ x)))) →
        ∃ ψ : (Fin m → ℝ) → ℝ, (∀ y, g₁.call (args.set k (realArg y)) kw = .ok (.single (.other (ψ y)))) ∧
          (ConvexOn ℝ (inside p n) φ → ∀ y, IsLocalMin ψ y → ∀ y', ψ y ≤ ψ y') ∧
          (StrictConvexOn ℝ (inside p n) φ → ∀ y y', IsLocalMin ψ y → IsLocalMin ψ y' → y = y') := by
  obtain ⟨u, t, hu, hua, -, ht, -, -⟩ := C111_analytic hp hf he hn hm
  have hne := Jac.noEmpty_of_blocks p he
  rw [flatLength_some, Except.ok.injEq] at hn hm
  subst hn hm
  have hr := (range_unfree hp hf hne hu).2
  obtain ⟨g₀, g₁, e₀, e₁, hc⟩ := free_call hp hf hne hu f hk kw
  have hin : ∀ y, u y ∈ inside p (p.flatLen false) := fun y => hr ▸ ⟨y, rfl⟩
  refine ⟨g₀, g₁, e₀, e₁, fun φ hφ => ⟨fun y => φ (u y), fun y => by rw [(hc y).2, hφ _ (hin y)], ?_⟩⟩
  have hmin : ConvexOn ℝ (inside p (p.flatLen false)) φ → ∀ y, IsLocalMin (fun y => φ (u y)) y → IsMinOn φ (inside p (p.flatLen false)) (u y) := by
    intro hcon y hy
    refine IsMinOn.of_isLocalMinOn_of_convexOn (hin y) ?_ hcon
    have htc : Filter.Tendsto t (𝓝 (u y)) (𝓝 y) := by
      have := (ht y).2.1.continuousAt.tendsto
      rwa [(ht y).1] at this
    have h1 : ∀ᶠ x in 𝓝 (u y), φ (u y) ≤ φ (u (t x)) := htc.eventually hy
    refine eventually_nhdsWithin_of_eventually_nhds h1 |>.and self_mem_nhdsWithin |>.mono fun x ⟨h2, h3⟩ => ?_
    obtain ⟨z, rfl⟩ : x ∈ Set.range u := hr ▸ h3
    rwa [(ht z).1] at h2
  refine ⟨fun hcon y hy y' => hmin hcon y hy (hin y'), fun hs y y' hy hy' => ?_⟩
  have := hs.eq_of_isMinOn (hmin hs.convexOn y hy) (hmin hs.convexOn y' hy') (hin y) (hin y')
  rw [← (ht y).1, this, (ht y').1]

/-- A function of the flat vector of its argument, for the examples. -/
private noncomputable def ofFlat (p : Pattern) (F : List ℝ → ℝ) : Fn ℝ := ⟨fun args _ => match args with
  | [.val w] => p.flatten w (some false) >>= fun a => .ok (.single (.other (F (a.data.map Flt.toReal))))
  | _ => .error .typeError, true⟩

private theorem ofFlat_call {p : Pattern} (hp : Built p) (hne : p.NoEmpty) {F : List ℝ → ℝ} {g₀ : Fn ℝ}
    (hg : flattenFunctionInput (ofFlat p F) ⟨[], [p]⟩ ⟨[], [some false]⟩ (some ⟨[], [((0 : Nat) : ℤ)]⟩) = .ok g₀) {n : Nat} {x : Fin n → ℝ} {w : Val Flt}
    (hx : p.fold (realVec x) (some false) = .ok w) : g₀.call ([Arg.other 0].set 0 (realArg x)) [] = .ok (.single (.other (F (List.ofFn x)))) := by
  obtain ⟨g, h1, h2⟩ := C84_single (ofFlat p F) p (some false) (k := 0) (args := [Arg.other 0]) (by simp)
  have hg' := hg.symm.trans h1
  injection hg' with hg'
  have := C05_nonfree_vector hp hne hx
  rw [hg']
  change g.call ([Arg.other 0].set 0 (.val (.arr (realVec x)))) [] = _
  rw [h2, hx]
  simp only [bind, Except.bind, List.set_cons_zero, ofFlat, this, vec, List.map_ofFn]
  simp [Function.comp_def, Flt.toReal]

/-- The examples' pattern: probability vectors of length two. -/
private def pair : Pattern := .simplex 2 [] true none

private theorem pair_wf : pair.WF := by simp [pair, Pattern.WF]

private theorem pair_blocks : NoEmptyBlocks pair := by simp [pair, NoEmptyBlocks]

private theorem pair_inside (x : Fin 2 → ℝ) : x ∈ inside pair 2 ↔ 0 < x 0 ∧ 0 < x 1 ∧ x 0 + x 1 = 1 := by
  refine (mem_inside pair_wf x).trans ?_
  have e : (List.ofFn x).map Flt.fin = [Flt.fin (x 0), .fin (x 1)] := by simp [List.ofFn_succ]
  change Interior pair (pair.unflat ((List.ofFn x).map .fin)) ↔ _
  rw [e, unflat_of_not_dict (p := pair) rfl]
  constructor
  · rintro ⟨-, -, h⟩
    obtain ⟨r, h1, h2, h3⟩ := h 0 (by simp)
    have : r = [x 0, x 1] := by
      apply fin_map_inj
      rw [← h1]; simp [block]
    subst this
    simp at h2 h3
    exact ⟨h2.1, h2.2, h3⟩
  · rintro ⟨h1, h2, h3⟩
    refine ⟨by simp [NDArray.WF, pair, Pattern.shape], rfl, fun i hi => ⟨[x 0, x 1], ?_, ?_, ?_⟩⟩
    · obtain rfl : i = 0 := by simpa using hi
      simp [block]
    · simp [h1, h2]
    · simpa using h3

/-- Non-vacuity of C125: on probability vectors of length two the first entry, as a function of the free vector, is bounded below by zero and comes
arbitrarily near to zero, but only as the free vector grows beyond all bounds. -/
example : ∃ (f g₁ : Fn ℝ) (ψ : (Fin 1 → ℝ) → ℝ), flattenFunctionInput f ⟨[], [.simplex 2 [] true none]⟩ ⟨[], [some true]⟩ (some ⟨[], [0]⟩) = .ok g₁ ∧
    (∀ y, g₁.call [realArg y] [] = .ok (.single (.other (ψ y)))) ∧ (∀ y, 0 ≤ ψ y) ∧
    (∃ Y : Nat → Fin 1 → ℝ, Filter.Tendsto (fun i => ψ (Y i)) Filter.atTop (𝓝 0)) ∧
    ∀ Y : Nat → Fin 1 → ℝ, Filter.Tendsto (fun i => ψ (Y i)) Filter.atTop (𝓝 0) → Filter.Tendsto (fun i => ‖Y i‖) Filter.atTop Filter.atTop := by
  have hp : Built pair := WF.built _ pair_wf
  have hf : pair.FiniteLb := trivial
  have hn : pair.flatLength (some false) = .ok 2 := by simp [flatLength_some, pair, flatLen]
  have hm : pair.flatLength (some true) = .ok 1 := by simp [flatLength_some, pair, flatLen]
  obtain ⟨g₀, g₁, e₀, e₁, h⟩ := C125_infimum hp hf pair_blocks hn hm (ofFlat pair fun l => l.getD 0 0) (k := 0) (args := [Arg.other 0]) (by simp) []
  obtain ⟨ψ, h1, -, h3, h4, h5⟩ := h (fun x => x 0) (fun x hx => by
    obtain ⟨v, -, hv⟩ := C125_folds hp hf hn hx
    rw [ofFlat_call hp (Jac.noEmpty_of_blocks _ pair_blocks) e₀ (hv none)]
    simp) (continuous_apply 0).continuousOn
  have hlim : ∀ x ∈ admitted pair 2, 0 ≤ x 0 := by
    rw [← C125_closure hp hf pair_blocks hn]
    exact fun x hx => closure_minimal (fun x hx => ((pair_inside x).mp hx).1.le) (isClosed_le continuous_const (continuous_apply 0)) hx
  refine ⟨_, g₁, ψ, e₁, h1, (h3 0).mpr hlim, ?_, h5 0 fun x hx => ((pair_inside x).mp hx).1⟩
  have hx : ![0, 1] ∈ admitted pair 2 := by
    rw [← C125_closure hp hf pair_blocks hn]
    refine mem_closure_iff_seq_limit.mpr ⟨fun k => ![1 / ((k : ℝ) + 2), 1 - 1 / ((k : ℝ) + 2)], fun k => ?_, ?_⟩
    · have : 1 / ((k : ℝ) + 2) < 1 := by rw [div_lt_one (by positivity)]; linarith [Nat.cast_nonneg (α := ℝ) k]
      have h0 : 0 < 1 / ((k : ℝ) + 2) := by positivity
      refine (pair_inside _).mpr ⟨?_, ?_, ?_⟩ <;> simp only [Matrix.cons_val_zero, Matrix.cons_val_one] <;> linarith
    · have h1 : Filter.Tendsto (fun k : ℕ => 1 / ((k : ℝ) + 2)) Filter.atTop (𝓝 0) := by
        have := (tendsto_one_div_add_atTop_nhds_zero_nat (𝕜 := ℝ)).comp (Filter.tendsto_add_atTop_nat 1)
        refine this.congr fun k => ?_
        simp only [Function.comp_apply, Nat.cast_add, Nat.cast_one]
        ring_nf
      refine tendsto_pi_nhds.mpr fun i => ?_
      fin_cases i
      · simpa using h1
      · simpa using h1.const_sub 1
  simpa using h4 _ hx

/-- Non-vacuity of `C125_local`: the sum of the squares on probability vectors of length two is strictly convex and has a local minimum. -/
example : ∃ (f g₀ g₁ : Fn ℝ) (ψ : (Fin 1 → ℝ) → ℝ) (y₀ : Fin 1 → ℝ),
    flattenFunctionInput f ⟨[], [.simplex 2 [] true none]⟩ ⟨[], [some false]⟩ (some ⟨[], [0]⟩) = .ok g₀ ∧
    flattenFunctionInput f ⟨[], [.simplex 2 [] true none]⟩ ⟨[], [some true]⟩ (some ⟨[], [0]⟩) = .ok g₁ ∧
    (∀ x ∈ inside (.simplex 2 [] true none) 2, g₀.call [realArg x] [] = .ok (.single (.other (x 0 ^ 2 + x 1 ^ 2)))) ∧
    StrictConvexOn ℝ (inside (.simplex 2 [] true none) 2) (fun x => x 0 ^ 2 + x 1 ^ 2) ∧
    (∀ y, g₁.call [realArg y] [] = .ok (.single (.other (ψ y)))) ∧ IsLocalMin ψ y₀ ∧ ∀ y, IsLocalMin ψ y → y = y₀ := by
  have hp : Built pair := WF.built _ pair_wf
  have hf : pair.FiniteLb := trivial
  have hne := Jac.noEmpty_of_blocks _ pair_blocks
  have hn : pair.flatLength (some false) = .ok 2 := by simp [flatLength_some, pair, flatLen]
  have hm : pair.flatLength (some true) = .ok 1 := by simp [flatLength_some, pair, flatLen]
  obtain ⟨g₀, g₁, e₀, e₁, h⟩ := C125_local hp hf pair_blocks hn hm (ofFlat pair fun l => l.getD 0 0 ^ 2 + l.getD 1 0 ^ 2) (k := 0) (args := [Arg.other 0]) (by simp) []
  have hφ : ∀ x ∈ inside pair 2, g₀.call ([Arg.other 0].set 0 (realArg x)) [] = .ok (.single (.other (x 0 ^ 2 + x 1 ^ 2))) := by
    intro x hx
    obtain ⟨v, -, hv⟩ := C125_folds hp hf hn (C125_closure hp hf pair_blocks hn ▸ subset_closure hx)
    rw [ofFlat_call hp hne e₀ (hv none)]
    simp
  have hs : StrictConvexOn ℝ (inside pair 2) (fun x => x 0 ^ 2 + x 1 ^ 2) := by
    refine ⟨C121_convex hp hn, fun x hx y hy hxy a b ha hb hab => ?_⟩
    have h0 : x 0 ≠ y 0 := by
      intro h0
      refine hxy (funext fun i => ?_)
      have := ((pair_inside x).mp hx).2.2; have := ((pair_inside y).mp hy).2.2
      fin_cases i
      · exact h0
      · change x 1 = y 1; linarith
    obtain rfl : b = 1 - a := by linarith
    simp only [Pi.add_apply, Pi.smul_apply, smul_eq_mul]
    nlinarith [mul_pos (mul_pos ha hb) (sq_pos_of_ne_zero (sub_ne_zero.mpr h0)), mul_nonneg (mul_pos ha hb).le (sq_nonneg (x 1 - y 1))]
  obtain ⟨ψ, h1, -, h3⟩ := h _ hφ
  obtain ⟨u, t, hu, -⟩ := C111_analytic hp hf pair_blocks hn hm
  have hr : Set.range u = inside pair 2 := (range_unfree hp hf hne hu).2
  obtain ⟨g₀', g₁', e₀', e₁', hc⟩ := free_call hp hf hne hu (ofFlat pair fun l => l.getD 0 0 ^ 2 + l.getD 1 0 ^ 2) (k := 0) (args := [Arg.other 0]) (by simp) []
  have q0 := e₀.symm.trans e₀'
  have q1 := e₁.symm.trans e₁'
  injection q0 with q0
  injection q1 with q1
  subst q0 q1
  have hψ : ∀ y, ψ y = u y 0 ^ 2 + u y 1 ^ 2 := fun y => by
    have := (h1 y).symm.trans ((hc y).2.trans (hφ _ (hr ▸ ⟨y, rfl⟩)))
    injection this with this; injection this with this; injection this
  obtain ⟨y₀, hy₀⟩ : ![1 / 2, 1 / 2] ∈ Set.range u := by
    rw [hr, pair_inside]
    norm_num
  have hmin : IsLocalMin ψ y₀ := Filter.Eventually.of_forall fun y => by
    have := ((pair_inside (u y)).mp (hr ▸ ⟨y, rfl⟩)).2.2
    rw [hψ, hψ, hy₀]
    simp only [Matrix.cons_val_zero, Matrix.cons_val_one]
    obtain e : u y 1 = 1 - u y 0 := by linarith
    rw [e]
    nlinarith [sq_nonneg (u y 0 - 1 / 2)]
  exact ⟨_, g₀, g₁, ψ, y₀, e₀, e₁, hφ, hs, h1, hmin, fun y hy => h3 hs y y₀ hy hmin⟩

end Paragami
