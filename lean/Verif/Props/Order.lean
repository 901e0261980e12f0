import Verif.Props.Simplex
import Verif.Props.NumericFree

/-! # C82: free transforms keep order -/

namespace Paragami
open NDArray Pattern

/-! ### Numeric patterns -/

/-- One entry: the transform is strictly increasing. -/
theorem constrain1_lt {lb ub : Flt} (hl : lb.NotNaN) (hu : ub.NotNaN) (hlu : lb.lt ub = true) {y y' : ℝ} (h : y < y') :
    (constrain1 lb ub (.fin y)).lt (constrain1 lb ub (.fin y')) = true := by
  have hpos := Real.exp_pos y
  have hpos' := Real.exp_pos y'
  have hexp := Real.exp_lt_exp.mpr h
  rcases bounds_cases hl hu hlu with ⟨rfl, rfl⟩ | ⟨a, rfl, rfl⟩ | ⟨b, rfl, rfl⟩ | ⟨a, b, rfl, rfl, hab⟩
  · simpa [constrain1, Flt.eq] using h
  · simpa [constrain1, Flt.eq] using h
  · simpa [constrain1, Flt.eq] using h
  · have h1 : (0:ℝ) < 1 + Real.exp y := by linarith
    have h1' : (0:ℝ) < 1 + Real.exp y' := by linarith
    have hba : 0 < b - a := by linarith
    have e : ∀ z : ℝ, (0:ℝ) < 1 + Real.exp z → constrain1 (.fin a) (.fin b) (.fin z) = .fin ((b - a) * Real.exp z / (1 + Real.exp z) + a) := by
      intro z hz
      simp only [constrain1, Flt.eq, Flt.exp_fin, Flt.sub_fin, Flt.mul_fin, Flt.ofNat_fin, Flt.add_fin,
        Bool.false_eq_true, if_false, Nat.cast_one]
      rw [Flt.div_fin _ _ hz.ne', Flt.add_fin]
    rw [e y h1, e y' h1']
    simp only [Flt.lt_fin, decide_eq_true_eq, add_lt_add_iff_right]
    rw [div_lt_div_iff₀ h1 h1']
    nlinarith

theorem constrain1_lt_iff {lb ub : Flt} (hl : lb.NotNaN) (hu : ub.NotNaN) (hlu : lb.lt ub = true) {y y' : ℝ} :
    (constrain1 lb ub (.fin y)).lt (constrain1 lb ub (.fin y')) = true ↔ y < y' := by
  refine ⟨fun h => ?_, constrain1_lt hl hu hlu⟩
  by_contra hn
  obtain ⟨z, hz, -⟩ := unconstrain_constrain hl hu hlu y
  obtain ⟨z', hz', -⟩ := unconstrain_constrain hl hu hlu y'
  rcases (not_lt.mp hn).lt_or_eq with h' | h'
  · have := constrain1_lt hl hu hlu h'
    rw [hz, hz'] at h this
    simp only [Flt.lt_fin, decide_eq_true_eq] at h this
    exact lt_asymm h this
  · rw [h', hz] at h
    simp at h

/-- **C82, numeric patterns.**  Comparing entries of folded values is comparing the free entries: for two free vectors of a numeric
pattern, entry `i` of the one folded value is below entry `j` of the other exactly if the same holds of the free vectors. -/
theorem C82_numeric_order {cls shape lb ub dv fd p} (hp : mkNumeric cls shape lb ub dv fd = .ok p) {r r' : List ℝ}
    (hr : p.flatLength (some true) = .ok r.length) (hr' : p.flatLength (some true) = .ok r'.length) (vv : Option Bool) :
    ∃ d d' : List Flt, p.fold (vec (r.map .fin)) (some true) vv = .ok (.arr ⟨shape, d⟩) ∧
      p.fold (vec (r'.map .fin)) (some true) vv = .ok (.arr ⟨shape, d'⟩) ∧
      ∀ (i j : Nat) (y y' : ℝ), r[i]? = some y → r'[j]? = some y' →
        ∃ x x', d[i]? = some x ∧ d'[j]? = some x' ∧ (x.lt x' = true ↔ y < y') := by
  obtain ⟨rfl, hs, h1, h2, h3⟩ := mkNumeric_ok.mp hp
  rw [Pattern.flatLength_some] at hr hr'
  simp only [Except.ok.injEq] at hr hr'
  have key : ∀ r : List ℝ, (Pattern.numeric cls shape lb ub dv fd).flatLen true = r.length →
      (Pattern.numeric cls shape lb ub dv fd).fold (vec (r.map .fin)) (some true) vv =
        .ok (.arr ⟨shape, (r.map .fin).map (constrain1 lb.toFlt ub.toFlt)⟩) := by
    intro r hr
    rw [Pattern.fold_true]
    have : Numeric.foldFree shape lb.toFlt ub.toFlt (vec (r.map .fin)) = .ok ⟨shape, (r.map .fin).map (constrain1 lb.toFlt ub.toFlt)⟩ := by
      rw [Numeric.foldFree_ok]
      refine ⟨by simp [vec, atleast1d, ndim], ?_, rfl⟩
      simpa [vec, Pattern.flatLen] using hr.symm
    simp only [Pattern.foldFree, this, bind, Except.bind, pure, Except.pure]
  refine ⟨_, _, key r hr, key r' hr', fun i j y y' hy hy' => ?_⟩
  exact ⟨_, _, by simp [hy], by simp [hy'], constrain1_lt_iff h1 h2 h3⟩

/-- **C82, limits.**  Every number below the upper bound is exceeded by an entry whose free value is large enough, and every number above
the lower bound is undercut by one whose free value is small enough (`±inf` bounds included). -/
theorem C82_numeric_limits {cls shape lb ub dv fd p} (hp : mkNumeric cls shape lb ub dv fd = .ok p) (c : ℝ) :
    ((Flt.fin c).lt ub.toFlt = true → ∃ B : ℝ, ∀ (r : List ℝ), p.flatLength (some true) = .ok r.length → ∀ vv,
      ∃ d : List Flt, p.fold (vec (r.map .fin)) (some true) vv = .ok (.arr ⟨shape, d⟩) ∧
        ∀ (i : Nat) (y : ℝ), r[i]? = some y → B ≤ y → ∃ x, d[i]? = some x ∧ (Flt.fin c).lt x = true) ∧
    (lb.toFlt.lt (.fin c) = true → ∃ B : ℝ, ∀ (r : List ℝ), p.flatLength (some true) = .ok r.length → ∀ vv,
      ∃ d : List Flt, p.fold (vec (r.map .fin)) (some true) vv = .ok (.arr ⟨shape, d⟩) ∧
        ∀ (i : Nat) (y : ℝ), r[i]? = some y → y ≤ B → ∃ x, d[i]? = some x ∧ x.lt (.fin c) = true) := by
  obtain ⟨rfl, hs, h1, h2, h3⟩ := mkNumeric_ok.mp hp
  have key : ∀ r : List ℝ, (Pattern.numeric cls shape lb ub dv fd).flatLength (some true) = .ok r.length → ∀ vv,
      (Pattern.numeric cls shape lb ub dv fd).fold (vec (r.map .fin)) (some true) vv =
        .ok (.arr ⟨shape, (r.map .fin).map (constrain1 lb.toFlt ub.toFlt)⟩) := by
    intro r hr vv
    rw [Pattern.flatLength_some] at hr
    simp only [Except.ok.injEq] at hr
    rw [Pattern.fold_true]
    have : Numeric.foldFree shape lb.toFlt ub.toFlt (vec (r.map .fin)) = .ok ⟨shape, (r.map .fin).map (constrain1 lb.toFlt ub.toFlt)⟩ := by
      rw [Numeric.foldFree_ok]
      refine ⟨by simp [vec, atleast1d, ndim], ?_, rfl⟩
      simpa [vec, Pattern.flatLen] using hr.symm
    simp only [Pattern.foldFree, this, bind, Except.bind, pure, Except.pure]
  have mono : ∀ {y y' : ℝ}, y ≤ y' → (constrain1 lb.toFlt ub.toFlt (.fin y)).le (constrain1 lb.toFlt ub.toFlt (.fin y')) = true := by
    intro y y' h
    rcases h.lt_or_eq with h | h
    · have := constrain1_lt h1 h2 h3 h
      obtain ⟨z, hz, -⟩ := unconstrain_constrain h1 h2 h3 y
      obtain ⟨z', hz', -⟩ := unconstrain_constrain h1 h2 h3 y'
      rw [hz, hz'] at this ⊢
      simp only [Flt.lt_fin, decide_eq_true_eq] at this
      simp [Flt.le, this]
    · subst h
      obtain ⟨z, hz, -⟩ := unconstrain_constrain h1 h2 h3 y
      rw [hz]; simp [Flt.le]
  -- a number strictly between the bounds that is a fold
  have hit : ∀ c' : ℝ, lb.toFlt.lt (.fin c') = true → (Flt.fin c').lt ub.toFlt = true →
      ∃ B : ℝ, constrain1 lb.toFlt ub.toFlt (.fin B) = .fin c' := by
    intro c' ha hb
    obtain ⟨y, hy, hc⟩ := constrain_unconstrain h1 h2 h3 ha hb
    exact ⟨y, hc⟩
  constructor
  · intro hc
    obtain ⟨c', hcc, ha, hb⟩ : ∃ c' : ℝ, c < c' ∧ lb.toFlt.lt (.fin c') = true ∧ (Flt.fin c').lt ub.toFlt = true := by
      revert hc
      rcases bounds_cases h1 h2 h3 with ⟨e, e'⟩ | ⟨a, e, e'⟩ | ⟨b, e, e'⟩ | ⟨a, b, e, e', hab⟩ <;> rw [e, e'] <;> intro hc
      · exact ⟨c + 1, by linarith, rfl, rfl⟩
      · exact ⟨max c a + 1, by linarith [le_max_left c a], by simp; linarith [le_max_right c a], rfl⟩
      · simp only [Flt.lt_fin, decide_eq_true_eq] at hc
        obtain ⟨m, hm1, hm2⟩ := exists_between hc
        exact ⟨m, hm1, rfl, by simpa using hm2⟩
      · simp only [Flt.lt_fin, decide_eq_true_eq] at hc
        obtain ⟨m, hm1, hm2⟩ := exists_between (max_lt hc hab)
        exact ⟨m, lt_of_le_of_lt (le_max_left ..) hm1, by simpa using lt_of_le_of_lt (le_max_right ..) hm1, by simpa using hm2⟩
    obtain ⟨B, hB⟩ := hit c' ha hb
    refine ⟨B, fun r hr vv => ⟨_, key r hr vv, fun i y hy hBy => ⟨constrain1 lb.toFlt ub.toFlt (.fin y), by simp [hy], ?_⟩⟩⟩
    have := mono hBy
    obtain ⟨z, hz, -⟩ := unconstrain_constrain h1 h2 h3 y
    rw [hB, hz] at this
    rw [hz]
    simp only [Flt.le, Flt.lt_fin, Flt.eq, Bool.or_eq_true, decide_eq_true_eq] at this
    simp only [Flt.lt_fin, decide_eq_true_eq]
    rcases this with h | h <;> linarith
  · intro hc
    obtain ⟨c', hcc, ha, hb⟩ : ∃ c' : ℝ, c' < c ∧ lb.toFlt.lt (.fin c') = true ∧ (Flt.fin c').lt ub.toFlt = true := by
      revert hc
      rcases bounds_cases h1 h2 h3 with ⟨e, e'⟩ | ⟨a, e, e'⟩ | ⟨b, e, e'⟩ | ⟨a, b, e, e', hab⟩ <;> rw [e, e'] <;> intro hc
      · exact ⟨c - 1, by linarith, rfl, rfl⟩
      · simp only [Flt.lt_fin, decide_eq_true_eq] at hc
        obtain ⟨m, hm1, hm2⟩ := exists_between hc
        exact ⟨m, hm2, by simpa using hm1, rfl⟩
      · exact ⟨min c b - 1, by linarith [min_le_left c b], rfl, by simp; linarith [min_le_right c b]⟩
      · simp only [Flt.lt_fin, decide_eq_true_eq] at hc
        obtain ⟨m, hm1, hm2⟩ := exists_between (lt_min hc hab)
        exact ⟨m, lt_of_lt_of_le hm2 (min_le_left ..), by simpa using hm1, by simpa using lt_of_lt_of_le hm2 (min_le_right ..)⟩
    obtain ⟨B, hB⟩ := hit c' ha hb
    refine ⟨B, fun r hr vv => ⟨_, key r hr vv, fun i y hy hBy => ⟨constrain1 lb.toFlt ub.toFlt (.fin y), by simp [hy], ?_⟩⟩⟩
    have := mono hBy
    obtain ⟨z, hz, -⟩ := unconstrain_constrain h1 h2 h3 y
    rw [hB, hz] at this
    rw [hz]
    simp only [Flt.le, Flt.lt_fin, Flt.eq, Bool.or_eq_true, decide_eq_true_eq] at this
    simp only [Flt.lt_fin, decide_eq_true_eq]
    rcases this with h | h <;> linarith

/-- Non-vacuity: a pattern with an upper bound only, two free vectors, and a number below the bound. -/
example : ∃ p, mkNumericVector 3 (.flt .ninf) (.int 7) true (some true) = .ok p ∧
    p.flatLength (some true) = .ok ([1, -2, 0] : List ℝ).length ∧ p.flatLength (some true) = .ok ([5, 5, -1] : List ℝ).length ∧
    (Flt.fin 6.5).lt (PyNum.int 7).toFlt = true :=
  ⟨_, mkNumeric_ok.mpr ⟨rfl, by simp, by simp [PyNum.toFlt], by simp [PyNum.toFlt], rfl⟩, rfl, rfl,
    by simp only [PyNum.toFlt, Flt.lt_fin, decide_eq_true_eq]; norm_num⟩

/-! ### Simplexes -/

/-- **C82, simplexes.**  Within a simplex the probabilities are ordered like the free entries with a zero in front: the larger the
free entry the larger the probability, so the most probable category is where the largest of those is. -/
theorem C82_simplex_order {k s dv fd} (hp : Pattern.Built (.simplex k s dv fd)) (r : List ℝ)
    (hr : r.length = s.prod * (k - 1)) (vv : Option Bool) :
    ∃ d : List Flt, (Pattern.simplex k s dv fd).fold (vec (r.map .fin)) (some true) vv = .ok (.arr ⟨s ++ [k], d⟩) ∧
      ∀ i < s.prod, ∀ (a b : Nat) (x y : ℝ), ((0 : ℝ) :: Spec.block (k - 1) r i)[a]? = some x →
        ((0 : ℝ) :: Spec.block (k - 1) r i)[b]? = some y →
        ∃ u v, (Spec.block k d i)[a]? = some u ∧ (Spec.block k d i)[b]? = some v ∧ (u.lt v = true ↔ x < y) := by
  obtain ⟨d, h1, h2, h3⟩ := C14_simplex_fold_softmax hp r hr vv
  refine ⟨d, h1, fun i hi a b x y hx hy => ?_⟩
  obtain ⟨q, hq, hq', -, hpos, -⟩ := h3 i hi
  have hS : 0 < (((0 : ℝ) :: Spec.block (k - 1) r i).map Real.exp).sum := by
    rw [List.map_cons, List.sum_cons]
    have : 0 ≤ ((Spec.block (k - 1) r i).map Real.exp).sum :=
      List.sum_nonneg (by simp only [List.mem_map]; rintro _ ⟨z, -, rfl⟩; exact (Real.exp_pos z).le)
    have := Real.exp_pos 0
    linarith
  generalize (((0 : ℝ) :: Spec.block (k - 1) r i).map Real.exp).sum = S at hS hq'
  rw [hq, hq']
  refine ⟨.fin (Real.exp x / S), .fin (Real.exp y / S), ?_, ?_, ?_⟩
  · rw [List.getElem?_map, List.getElem?_map, hx]; rfl
  · rw [List.getElem?_map, List.getElem?_map, hy]; rfl
  · simp only [Flt.lt_fin, decide_eq_true_eq]
    rw [div_lt_div_iff_of_pos_right hS, Real.exp_lt_exp]

/-- Non-vacuity: two simplexes of size three. -/
example : Pattern.Built (.simplex 3 [2] true none) ∧ ([1, -2, 0.5, 4] : List ℝ).length = [2].prod * (3 - 1) ∧
    ((0 : ℝ) :: Spec.block (3 - 1) [1, -2, 0.5, 4] 1)[2]? = some 4 :=
  ⟨Pattern.WF.built _ (by simp [Pattern.WF]), by simp, by simp [Spec.block]⟩

end Paragami
