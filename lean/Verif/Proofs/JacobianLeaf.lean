import Verif.Proofs.JacobianCalc

/-! # The Jacobians of the leaves are derivatives -/

set_option linter.unusedSimpArgs false
set_option linter.unusedSectionVars false

namespace Paragami
open NDArray Pattern Topology ContDiff

namespace Jac

/-! ### Numeric arrays -/

theorem eventually_gt {a x : ℝ} (h : a < x) : ∀ᶠ t in 𝓝 x, a < t := isOpen_Ioi.mem_nhds h
theorem eventually_lt {b x : ℝ} (h : x < b) : ∀ᶠ t in 𝓝 x, t < b := isOpen_Iio.mem_nhds h

theorem hasDerivAt_log_sub {a x : ℝ} (h : a < x) : HasDerivAt (fun t => Real.log (t - a)) (1 / (x - a)) x := by
  have := ((hasDerivAt_id x).sub_const a).log (by simpa using (sub_pos.mpr h).ne')
  simpa using this

theorem hasDerivAt_log_rsub {b x : ℝ} (h : x < b) : HasDerivAt (fun t => Real.log (b - t)) (-(1 / (b - x))) x := by
  have := ((hasDerivAt_id x).const_sub b).log (by simpa using (sub_pos.mpr h).ne')
  simpa [neg_div] using this

/-- The freeing derivative of one entry. -/
theorem unconstrain1_deriv {lb ub : Flt} (hl : lb.NotNaN) (hu : ub.NotNaN) (hlu : lb.lt ub = true) {x : ℝ}
    (h1 : lb.lt (.fin x) = true) (h2 : (Flt.fin x).lt ub = true) :
    ∃ (φ : ℝ → ℝ) (d : ℝ), (∀ᶠ t in 𝓝 x, unconstrain1 lb ub (.fin t) = .fin (φ t)) ∧
      unconstrainJac1 lb ub (.fin x) = .fin d ∧ HasDerivAt φ d x ∧ 0 < d ∧ ContDiffAt ℝ ω φ x := by
  rcases bounds_cases hl hu hlu with ⟨rfl, rfl⟩ | ⟨a, rfl, rfl⟩ | ⟨b, rfl, rfl⟩ | ⟨a, b, rfl, rfl, hab⟩
  · refine ⟨id, 1, Filter.Eventually.of_forall fun t => by simp [unconstrain1, Flt.eq],
      by simp [unconstrainJac1, Flt.eq], hasDerivAt_id x, one_pos, contDiffAt_id⟩
  · simp only [Flt.lt_fin, decide_eq_true_eq] at h1
    have h := sub_pos.mpr h1
    refine ⟨fun t => Real.log (t - a), 1 / (x - a), ?_, ?_, hasDerivAt_log_sub h1, by positivity,
      (contDiffAt_id.sub contDiffAt_const).log h.ne'⟩
    · filter_upwards [eventually_gt h1] with t ht
      simp [unconstrain1, Flt.eq, Flt.log_fin (sub_pos.mpr ht)]
    · simp [unconstrainJac1, Flt.eq, Flt.div_fin _ _ h.ne']
  · simp only [Flt.lt_fin, decide_eq_true_eq] at h2
    have h := sub_pos.mpr h2
    refine ⟨fun t => -1 * Real.log (b - t), 1 / (b - x), ?_, ?_, ?_, by positivity,
      contDiffAt_const.mul ((contDiffAt_const.sub contDiffAt_id).log h.ne')⟩
    · filter_upwards [eventually_lt h2] with t ht
      simp [unconstrain1, Flt.eq, Flt.log_fin (sub_pos.mpr ht)]
    · simp [unconstrainJac1, Flt.eq, Flt.div_fin _ _ h.ne']
    · have := (hasDerivAt_log_rsub h2).const_mul (-1)
      simpa using this
  · simp only [Flt.lt_fin, decide_eq_true_eq] at h1 h2
    have ha := sub_pos.mpr h1
    have hb := sub_pos.mpr h2
    refine ⟨fun t => Real.log (t - a) - Real.log (b - t), 1 / (x - a) + 1 / (b - x), ?_, ?_, ?_, by positivity,
      ((contDiffAt_id.sub contDiffAt_const).log ha.ne').sub ((contDiffAt_const.sub contDiffAt_id).log hb.ne')⟩
    · filter_upwards [eventually_gt h1, eventually_lt h2] with t ht ht'
      simp [unconstrain1, Flt.eq, Flt.log_fin (sub_pos.mpr ht), Flt.log_fin (sub_pos.mpr ht')]
    · simp [unconstrainJac1, Flt.eq, Flt.div_fin _ _ ha.ne', Flt.div_fin _ _ hb.ne']
    · have := (hasDerivAt_log_sub h1).sub (hasDerivAt_log_rsub h2)
      rw [sub_neg_eq_add] at this
      exact this

/-- The unfreeing derivative of one entry. -/
theorem constrain1_deriv {lb ub : Flt} (hl : lb.NotNaN) (hu : ub.NotNaN) (hlu : lb.lt ub = true) :
    ∃ φ : ℝ → ℝ, (∀ t, constrain1 lb ub (.fin t) = .fin (φ t)) ∧
      ∀ t, ∃ d, constrainJac1 lb ub (.fin t) = .fin d ∧ HasDerivAt φ d t ∧ 0 < d ∧ ContDiffAt ℝ ω φ t := by
  rcases bounds_cases hl hu hlu with ⟨rfl, rfl⟩ | ⟨a, rfl, rfl⟩ | ⟨b, rfl, rfl⟩ | ⟨a, b, rfl, rfl, hab⟩
  · exact ⟨id, fun t => by simp [constrain1, Flt.eq], fun t => ⟨1, by simp [constrainJac1, Flt.eq], hasDerivAt_id t, one_pos, contDiffAt_id⟩⟩
  · refine ⟨fun t => Real.exp t + a, fun t => by simp [constrain1, Flt.eq], fun t => ⟨Real.exp t,
      by simp [constrainJac1, Flt.eq], (Real.hasDerivAt_exp t).add_const a, Real.exp_pos t,
      Real.contDiff_exp.contDiffAt.add contDiffAt_const⟩⟩
  · refine ⟨fun t => b - Real.exp (-1 * t), fun t => by simp [constrain1, Flt.eq], fun t => ⟨Real.exp (-1 * t),
      by simp [constrainJac1, Flt.eq], ?_, Real.exp_pos _, contDiffAt_const.sub (contDiffAt_const.mul contDiffAt_id).exp⟩⟩
    have := (((hasDerivAt_id t).const_mul (-1)).exp).const_sub b
    simpa using this
  · have hba := sub_pos.mpr hab
    have hne : ∀ t : ℝ, (1 : ℝ) + Real.exp t ≠ 0 := fun t => by positivity
    refine ⟨fun t => (b - a) * Real.exp t / (1 + Real.exp t) + a, fun t => ?_, fun t =>
      ⟨(b - a) * (Real.exp t / (1 + Real.exp t)) * (1 - Real.exp t / (1 + Real.exp t)), ?_, ?_, ?_,
      ((contDiffAt_const.mul contDiffAt_id.exp).div (contDiffAt_const.add contDiffAt_id.exp) (hne t)).add contDiffAt_const⟩⟩
    · simp only [constrain1, Flt.eq, Flt.exp_fin, Flt.sub_fin, Flt.mul_fin, Flt.ofNat_fin, Flt.add_fin,
        Bool.false_eq_true, if_false, Nat.cast_one]
      rw [Flt.div_fin _ _ (hne t), Flt.add_fin]
    · simp only [constrainJac1, Flt.eq, Flt.exp_fin, Flt.sub_fin, Flt.mul_fin, Flt.ofNat_fin, Flt.add_fin,
        Bool.false_eq_true, if_false, Nat.cast_one]
      rw [Flt.div_fin _ _ (hne t)]
      simp
    · have h1 := ((Real.hasDerivAt_exp t).const_mul (b - a)).div ((Real.hasDerivAt_exp t).const_add 1) (hne t)
      have h2 := h1.add_const a
      refine h2.congr_deriv ?_
      have := hne t
      field_simp
    · have : 1 - Real.exp t / (1 + Real.exp t) = 1 / (1 + Real.exp t) := by
        have := hne t
        field_simp; ring
      rw [this]
      positivity

variable {E : Type} [NormedAddCommGroup E] [NormedSpace ℝ E]

theorem sum_diag (n i : Nat) (hi : i < n) (d : Nat → ℝ) (L : Nat → E →L[ℝ] ℝ) :
    ∑ j ∈ Finset.range n, (if i = j then d i else 0) • L j = d i • L i := by
  rw [Finset.sum_eq_single i]
  · simp
  · intro j _ hj; simp [Ne.symm hj]
  · intro h; exact absurd (Finset.mem_range.mpr hi) h

theorem point_eq {r : List ℝ} {z : Nat → ℝ} (h : (List.range r.length).map z = r) {j : Nat} (hj : j < r.length) :
    z j = r.getD j 0 := by
  have : ((List.range r.length).map z)[j]? = r[j]? := by rw [h]
  simp only [List.getElem?_map, List.getElem?_range hj, Option.map_some] at this
  simp [List.getD, ← this]

theorem eventually_forall_lt {α : Type} {l : Filter α} {P : α → Nat → Prop} (n : Nat) (h : ∀ j < n, ∀ᶠ u in l, P u j) :
    ∀ᶠ u in l, ∀ j < n, P u j := by
  have := (Filter.eventually_all_finset (l := l) (Finset.range n) (p := fun j u => P u j)).mpr
    fun j hj => h j (Finset.mem_range.mp hj)
  filter_upwards [this] with u hu j hj
  exact hu j (Finset.mem_range.mpr hj)

/-- Entrywise maps have diagonal Jacobians. -/
theorem DiffAt.map {F : Flt → Flt} {r : List ℝ} {d : Nat → ℝ}
    (h : ∀ j < r.length, ∃ φ : ℝ → ℝ, (∀ᶠ t in 𝓝 (r.getD j 0), F (.fin t) = .fin (φ t)) ∧
      HasDerivAt φ (d j) (r.getD j 0) ∧ ContDiffAt ℝ ω φ (r.getD j 0)) :
    DiffAt E (fun l => .ok (vec (l.map F))) r r.length (fun i j => if i = j then d i else 0) := by
  have h' : ∀ j, ∃ φ : ℝ → ℝ, j < r.length → (∀ᶠ t in 𝓝 (r.getD j 0), F (.fin t) = .fin (φ t)) ∧
      HasDerivAt φ (d j) (r.getD j 0) ∧ ContDiffAt ℝ ω φ (r.getD j 0) := by
    intro j
    by_cases hj : j < r.length
    · obtain ⟨φ, hφ⟩ := h j hj; exact ⟨φ, fun _ => hφ⟩
    · exact ⟨id, fun h => absurd h hj⟩
  choose φ hφ using h'
  intro z e L hz hL
  refine ⟨fun u j => φ j (z u j), ?_, ?_, ?_⟩
  · have : ∀ᶠ u in 𝓝 e, ∀ j < r.length, F (.fin (z u j)) = .fin (φ j (z u j)) := by
      apply eventually_forall_lt
      intro j hj
      have hc : Filter.Tendsto (fun u => z u j) (𝓝 e) (𝓝 (r.getD j 0)) := by
        have := (hL j hj).continuousAt
        rw [ContinuousAt, point_eq hz hj] at this
        exact this
      exact hc.eventually (hφ j hj).1
    filter_upwards [this] with u hu
    simp only [finVec, List.map_map, Except.ok.injEq, vec_inj]
    apply List.map_congr_left
    intro j hj
    exact hu j (List.mem_range.mp hj)
  · intro i hi
    rw [sum_diag _ _ hi]
    have h2 := (hφ i hi).2.1
    rw [← point_eq hz hi] at h2
    exact h2.comp_hasFDerivAt e (hL i hi)
  · intro hs i hi
    have h2 := (hφ i hi).2.2
    rw [← point_eq hz hi] at h2
    exact h2.comp e (hs i hi)

theorem diagMat_fin (d : List ℝ) : diagMat (d.map .fin) = toMat (d.length, d.length, fun i j => if i = j then d.getD i 0 else 0) := by
  simp only [diagMat, toMat, List.length_map]
  apply ofFn2_congr
  intro i hi j hj
  by_cases h : i = j
  · subst h; simp [hi]
  · simp [h]

/-! ### Simplexes -/

theorem unconstrainSimplexRow_finVec {n : Nat} {z : Nat → ℝ} (h : ∀ j < n + 1, 0 < z j) :
    unconstrainSimplexRow (finVec (n + 1) z) = finVec n (fun i => Real.log (z (i + 1)) - Real.log (z 0)) := by
  rw [finVec, List.range_succ_eq_map]
  simp only [List.map_cons, List.map_map, unconstrainSimplexRow, finVec]
  apply List.map_congr_left
  intro i hi
  have := List.mem_range.mp hi
  simp [Flt.log_fin (h (i + 1) (by omega)), Flt.log_fin (h 0 (by omega))]

theorem diff_unconstrainRow {n : Nat} {r : List ℝ} (hr : r.length = n + 1) (hpos : ∀ x ∈ r, 0 < x) :
    DiffAt E (fun l => .ok (vec (unconstrainSimplexRow l))) r n
      (fun i j => if j = 0 then -1 / r.getD 0 0 else if j = i + 1 then 1 / r.getD j 0 else 0) := by
  intro z e L hz hL
  have hp : ∀ j < n + 1, 0 < z e j := by
    intro j hj
    have hj : j < r.length := by omega
    rw [point_eq hz hj]
    apply hpos
    simp [hj]
  have hev : ∀ᶠ u in 𝓝 e, ∀ j < n + 1, 0 < z u j := by
    apply eventually_forall_lt
    intro j hj
    exact (hL j (by omega)).continuousAt.eventually (eventually_gt (hp j hj))
  refine ⟨fun u i => Real.log (z u (i + 1)) - Real.log (z u 0), ?_, ?_, fun hs i hi => ?_⟩
  · filter_upwards [hev] with u hu
    rw [hr, unconstrainSimplexRow_finVec hu]
  · intro i hi
    have d1 := (hL (i + 1) (by omega)).log (hp (i + 1) (by omega)).ne'
    have d0 := (hL 0 (by omega)).log (hp 0 (by omega)).ne'
    refine (d1.fun_sub d0).congr_fderiv ?_
    symm
    rw [hr, Finset.sum_range_succ', Finset.sum_eq_single i]
    · simp only [Nat.succ_ne_zero, if_false, if_true]
      rw [← point_eq hz (j := 0) (by omega), ← point_eq hz (j := i + 1) (by omega)]
      ext w
      simp only [add_apply, smul_apply, sub_apply, smul_eq_mul]
      ring
    · intro j _ hj; simp [hj]
    · intro h; exact absurd (Finset.mem_range.mpr hi) h
  · exact ((hs (i + 1) (by omega)).log (hp (i + 1) (by omega)).ne').sub ((hs 0 (by omega)).log (hp 0 (by omega)).ne')

theorem sum_map_range (n : Nat) (f : Nat → ℝ) : ((List.range n).map f).sum = ∑ j ∈ Finset.range n, f j := by
  induction n with
  | zero => simp
  | succ n ih => simp [List.range_succ, Finset.sum_range_succ, ih]

/-- The normalizer of a free simplex row. -/
noncomputable def normZ (n : Nat) (z : Nat → ℝ) : ℝ := 1 + ∑ j ∈ Finset.range n, Real.exp (z j)

theorem normZ_pos (n : Nat) (z : Nat → ℝ) : 0 < normZ n z := by
  have : 0 ≤ ∑ j ∈ Finset.range n, Real.exp (z j) := Finset.sum_nonneg fun _ _ => (Real.exp_pos _).le
  unfold normZ; linarith

theorem constrainSimplexRow_finVec (n : Nat) (z : Nat → ℝ) :
    constrainSimplexRow (finVec n z) =
      finVec (n + 1) (fun i => (if i = 0 then 1 else Real.exp (z (i - 1))) / normZ n z) := by
  rw [finVec_eq_map, constrainSimplexRow_fin, finVec_eq_map, List.range_succ_eq_map]
  congr 1
  simp only [softmax, List.map_cons, List.map_map, List.sum_cons, Real.exp_zero, normZ, if_true]
  rw [show (Real.exp ∘ z) = fun j => Real.exp (z j) from rfl, sum_map_range]
  simp

theorem diff_constrainRow {n : Nat} {r p : List ℝ} (hr : r.length = n)
    (hp : constrainSimplexRow (r.map .fin) = p.map .fin) :
    DiffAt E (fun l => .ok (vec (constrainSimplexRow l))) r (n + 1)
      (fun i j => -1 * (p.getD i 0 * p.getD (j + 1) 0) + if i = j + 1 then p.getD i 0 else 0) := by
  intro z e L hz hL
  rw [hr] at hL
  have hp' : ∀ i < n + 1, p.getD i 0 = (if i = 0 then 1 else Real.exp (z e (i - 1))) / normZ n (z e) := by
    have h1 : r.map Flt.fin = finVec n (z e) := by
      conv_lhs => rw [← hz, hr]
      rw [finVec_eq_map]
    rw [h1, constrainSimplexRow_finVec, eq_finVec] at hp
    have hl : p.length = n + 1 := by
      have := congrArg List.length hp
      simpa using this.symm
    rw [hl] at hp
    intro i hi
    exact (finVec_inj hp i hi).symm
  have hZ := (normZ_pos n (z e)).ne'
  have dZ : HasFDerivAt (fun u => normZ n (z u)) (∑ j ∈ Finset.range n, Real.exp (z e j) • L j) e := by
    have : HasFDerivAt (fun u => ∑ j ∈ Finset.range n, Real.exp (z u j)) (∑ j ∈ Finset.range n, Real.exp (z e j) • L j) e :=
      HasFDerivAt.fun_sum fun j hj => (hL j (Finset.mem_range.mp hj)).exp
    exact this.const_add 1
  refine ⟨fun u i => (if i = 0 then 1 else Real.exp (z u (i - 1))) / normZ n (z u), ?_, ?_, fun hs i hi => ?_⟩
  · filter_upwards with u
    rw [hr, constrainSimplexRow_finVec]
  · intro i hi
    have dN : HasFDerivAt (fun u => if i = 0 then (1 : ℝ) else Real.exp (z u (i - 1)))
        (∑ j ∈ Finset.range n, (if i = j + 1 then Real.exp (z e j) else 0) • L j) e := by
      by_cases h0 : i = 0
      · subst h0
        simp only [if_true]
        have : ∑ j ∈ Finset.range n, (if 0 = j + 1 then Real.exp (z e j) else 0) • L j = 0 := by
          apply Finset.sum_eq_zero; intro j _; simp
        rw [this]
        exact hasFDerivAt_const _ _
      · simp only [h0, if_false]
        have hi' : i - 1 < n := by omega
        rw [Finset.sum_eq_single (i - 1)]
        · rw [if_pos (by omega)]
          exact (hL _ hi').exp
        · intro j _ hj; rw [if_neg (by omega), zero_smul]
        · intro h; exact absurd (Finset.mem_range.mpr hi') h
    have dI : HasFDerivAt (fun u => (normZ n (z u))⁻¹) (-((normZ n (z e)) ^ 2)⁻¹ • ∑ j ∈ Finset.range n, Real.exp (z e j) • L j) e :=
      (hasDerivAt_inv hZ).comp_hasFDerivAt e dZ
    simp only [div_eq_mul_inv]
    refine (dN.fun_mul dI).congr_fderiv ?_
    symm
    rw [hr, Finset.smul_sum, Finset.smul_sum, Finset.smul_sum, ← Finset.sum_add_distrib]
    apply Finset.sum_congr rfl
    intro j hj
    have hj := Finset.mem_range.mp hj
    rw [smul_smul, smul_smul, smul_smul, ← add_smul]
    congr 1
    rw [hp' i hi, hp' (j + 1) (by omega)]
    simp only [Nat.succ_ne_zero, if_false, Nat.add_sub_cancel]
    by_cases h : i = j + 1
    · subst h
      simp only [if_true, Nat.succ_ne_zero, if_false, Nat.add_sub_cancel]
      field_simp
    · simp only [h, if_false]
      field_simp
      ring
  · rw [hr] at hs
    refine ContDiffAt.div ?_ ?_ hZ
    · by_cases h0 : i = 0
      · simp only [h0, if_true]; exact contDiffAt_const
      · simp only [h0, if_false]; exact (hs _ (by omega)).exp
    · exact contDiffAt_const.add (ContDiffAt.sum fun j hj => (hs j (Finset.mem_range.mp hj)).exp)

theorem unconstrainJacobian_fin {n : Nat} {r : List ℝ} (hr : r.length = n + 1) (hpos : ∀ x ∈ r, 0 < x) :
    Simplex.unconstrainJacobian (r.map .fin) =
      toMat (n, n + 1, fun i j => if j = 0 then -1 / r.getD 0 0 else if j = i + 1 then 1 / r.getD j 0 else 0) := by
  have hg : ∀ j < n + 1, (r.map Flt.fin).getD j .nan = .fin (r.getD j 0) ∧ r.getD j 0 ≠ 0 := by
    intro j hj
    have : j < r.length := by omega
    exact ⟨by simp [this], by have := hpos r[j] (List.getElem_mem _); simp [‹j < r.length›]; exact this.ne'⟩
  simp only [Simplex.unconstrainJacobian, toMat, List.length_map, hr, Nat.add_sub_cancel]
  apply ofFn2_congr
  intro i hi j hj
  by_cases h0 : j = 0
  · simp only [h0, if_true]
    rw [(hg 0 (by omega)).1, Flt.div_fin _ _ (hg 0 (by omega)).2]
  · simp only [h0, if_false]
    by_cases h1 : j = i + 1
    · simp only [h1, if_true]
      rw [(hg (i + 1) (by omega)).1, Flt.ofNat_fin, Nat.cast_one, Flt.div_fin _ _ (hg (i + 1) (by omega)).2]
    · simp [h1]

theorem constrainJacobian_fin {n : Nat} {p : List ℝ} (hp : p.length = n + 1) :
    Simplex.constrainJacobian (p.map .fin) =
      toMat (n + 1, n, fun i j => -1 * (p.getD i 0 * p.getD (j + 1) 0) + if i = j + 1 then p.getD i 0 else 0) := by
  have hg : ∀ j < n + 1, (p.map Flt.fin).getD j .nan = .fin (p.getD j 0) := by
    intro j hj
    have : j < p.length := by omega
    simp [this]
  simp only [Simplex.constrainJacobian, toMat, List.length_map, hp, Nat.add_sub_cancel]
  apply ofFn2_congr
  intro i hi j hj
  rw [hg i hi, hg (j + 1) (by omega)]
  by_cases h : i = j + 1 <;> simp [h]

end Jac

end Paragami
