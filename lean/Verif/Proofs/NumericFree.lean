import Verif.Proofs.NonfreeTrip

/-! # The elementwise free transforms of numeric patterns -/

set_option linter.unusedSimpArgs false

namespace Paragami
open NDArray

/-- The four kinds of legal bounds. -/
theorem bounds_cases {lb ub : Flt} (h1 : lb.NotNaN) (h2 : ub.NotNaN) (h : lb.lt ub = true) :
    (lb = .ninf ∧ ub = .pinf) ∨ (∃ a, lb = .fin a ∧ ub = .pinf) ∨ (∃ b, lb = .ninf ∧ ub = .fin b) ∨
      (∃ a b, lb = .fin a ∧ ub = .fin b ∧ a < b) := by
  cases lb <;> cases ub <;> simp_all [Flt.lt]

theorem fin_of_between {lb ub x : Flt} (h1 : lb.lt x = true) (h2 : x.lt ub = true) : ∃ r, x = .fin r := by
  cases x <;> cases lb <;> cases ub <;> simp_all [Flt.lt]

/-- Freeing then un-freeing a strictly interior number gives it back. -/
theorem constrain_unconstrain {lb ub x : Flt} (hl : lb.NotNaN) (hu : ub.NotNaN) (hlu : lb.lt ub = true)
    (h1 : lb.lt x = true) (h2 : x.lt ub = true) :
    ∃ y, unconstrain1 lb ub x = .fin y ∧ constrain1 lb ub (.fin y) = x := by
  obtain ⟨r, rfl⟩ := fin_of_between h1 h2
  rcases bounds_cases hl hu hlu with ⟨rfl, rfl⟩ | ⟨a, rfl, rfl⟩ | ⟨b, rfl, rfl⟩ | ⟨a, b, rfl, rfl, hab⟩
  · exact ⟨r, by simp [unconstrain1, Flt.eq], by simp [constrain1, Flt.eq]⟩
  · simp only [Flt.lt_fin, decide_eq_true_eq] at h1
    have h : 0 < r - a := by linarith
    refine ⟨Real.log (r - a), by simp [unconstrain1, Flt.eq, Flt.log_fin h], ?_⟩
    simp [constrain1, Flt.eq, Real.exp_log h]
  · simp only [Flt.lt_fin, decide_eq_true_eq] at h2
    have h : 0 < b - r := by linarith
    refine ⟨-Real.log (b - r), by simp [unconstrain1, Flt.eq, Flt.log_fin h], ?_⟩
    simp [constrain1, Flt.eq, Real.exp_log h]
  · simp only [Flt.lt_fin, decide_eq_true_eq] at h1 h2
    have ha : 0 < r - a := by linarith
    have hb : 0 < b - r := by linarith
    refine ⟨Real.log (r - a) - Real.log (b - r), by simp [unconstrain1, Flt.eq, Flt.log_fin ha, Flt.log_fin hb], ?_⟩
    have he : Real.exp (Real.log (r - a) - Real.log (b - r)) = (r - a) / (b - r) := by
      rw [Real.exp_sub, Real.exp_log ha, Real.exp_log hb]
    have hne : 1 + (r - a) / (b - r) ≠ 0 := by positivity
    have hba : b - a ≠ 0 := by linarith
    have e1 : 1 + (r - a) / (b - r) = (b - a) / (b - r) := by field_simp; ring
    simp only [constrain1, Flt.eq, Flt.exp_fin, he, Flt.sub_fin, Flt.mul_fin, Flt.ofNat_fin, Flt.add_fin,
      Bool.false_eq_true, if_false, Nat.cast_one]
    rw [Flt.div_fin _ _ hne, Flt.add_fin, e1]
    congr 1
    field_simp
    ring

/-- Un-freeing any real lands strictly inside the bounds, and freeing the result gives the real back. -/
theorem unconstrain_constrain {lb ub : Flt} (hl : lb.NotNaN) (hu : ub.NotNaN) (hlu : lb.lt ub = true) (y : ℝ) :
    ∃ z, constrain1 lb ub (.fin y) = .fin z ∧ lb.lt (.fin z) = true ∧ (Flt.fin z).lt ub = true ∧
      unconstrain1 lb ub (.fin z) = .fin y := by
  have hpos := Real.exp_pos y
  rcases bounds_cases hl hu hlu with ⟨rfl, rfl⟩ | ⟨a, rfl, rfl⟩ | ⟨b, rfl, rfl⟩ | ⟨a, b, rfl, rfl, hab⟩
  · exact ⟨y, by simp [constrain1, Flt.eq], rfl, rfl, by simp [unconstrain1, Flt.eq]⟩
  · refine ⟨Real.exp y + a, by simp [constrain1, Flt.eq], by simp [hpos], rfl, ?_⟩
    have : 0 < Real.exp y + a - a := by linarith
    simp only [unconstrain1, Flt.eq, Flt.sub_fin, if_true, Bool.false_eq_true, if_false]
    rw [Flt.log_fin this]; simp
  · have hneg := Real.exp_pos (-y)
    refine ⟨b - Real.exp (-y), by simp [constrain1, Flt.eq], rfl, by simp [hneg], ?_⟩
    have : 0 < b - (b - Real.exp (-y)) := by linarith
    simp only [unconstrain1, Flt.eq, Flt.sub_fin, if_true, Bool.false_eq_true, if_false]
    rw [Flt.log_fin this]; simp
  · have h1 : (0:ℝ) < 1 + Real.exp y := by linarith
    have hba : 0 < b - a := by linarith
    refine ⟨(b - a) * Real.exp y / (1 + Real.exp y) + a, ?_, ?_, ?_, ?_⟩
    · simp only [constrain1, Flt.eq, Flt.exp_fin, Flt.sub_fin, Flt.mul_fin, Flt.ofNat_fin, Flt.add_fin,
        Bool.false_eq_true, if_false, Nat.cast_one]
      rw [Flt.div_fin _ _ h1.ne', Flt.add_fin]
    · simp only [Flt.lt_fin, decide_eq_true_eq]
      have : 0 < (b - a) * Real.exp y / (1 + Real.exp y) := by positivity
      linarith
    · simp only [Flt.lt_fin, decide_eq_true_eq]
      have : (b - a) * Real.exp y / (1 + Real.exp y) < b - a := by
        rw [div_lt_iff₀ h1]; nlinarith
      linarith
    · have e1 : (b - a) * Real.exp y / (1 + Real.exp y) + a - a = (b - a) * Real.exp y / (1 + Real.exp y) := by ring
      have e2 : b - ((b - a) * Real.exp y / (1 + Real.exp y) + a) = (b - a) / (1 + Real.exp y) := by
        field_simp; ring
      simp only [unconstrain1, Flt.eq, Flt.sub_fin, Bool.false_eq_true, if_false]
      rw [e1, e2, Flt.log_fin (by positivity), Flt.log_fin (by positivity), Flt.sub_fin]
      congr 1
      rw [Real.log_div (by positivity) (by positivity), Real.log_div (by positivity) (by positivity),
        Real.log_mul hba.ne' hpos.ne', Real.log_exp]
      ring

namespace Numeric

theorem foldFree_ok {s : List Nat} {lb ub : Flt} {x a : NDArray Flt} :
    foldFree s lb ub x = .ok a ↔ x.atleast1d.ndim = 1 ∧ x.data.length = s.prod ∧
      a = ⟨s, x.data.map (constrain1 lb ub)⟩ := by
  simp only [foldFree, bind, Except.bind, throw, throwThe, MonadExceptOf.throw, pure, Except.pure]
  split
  · next h => simp [show x.atleast1d.ndim ≠ 1 from h]
  next h1 =>
  have h1 : x.atleast1d.ndim = 1 := by simpa using h1
  split
  · next h =>
    have h : x.data.length ≠ s.prod := by simpa [size, atleast1d_data] using h
    simp [h]
  next h2 =>
  have h2 : x.data.length = s.prod := by simpa [size, atleast1d_data] using h2
  rw [Pattern.reshape_ok]
  simp [h1, h2, NDArray.map, atleast1d_data]

theorem flattenFree_ok {s : List Nat} {lb ub : Flt} {dv : Bool} {a x : NDArray Flt} {vv} :
    flattenFree s lb ub dv a vv = .ok x ↔
      validate s lb ub dv a vv = (true, "") ∧ x = vec (a.data.map (unconstrain1 lb ub)) := by
  have e : validate s lb ub dv a.atleast1d vv = validate s lb ub dv a vv := by
    have : a.atleast1d.atleast1d = a.atleast1d := atleast1d_of_ne (atleast1d_shape_ne_nil a)
    unfold validate; rw [this]
  simp only [flattenFree, e, bind, Except.bind, throw, throwThe, MonadExceptOf.throw, pure, Except.pure]
  rcases hv : validate s lb ub dv a vv with ⟨b, m⟩
  cases b
  · simp
  · have hm : m = "" := (Pattern.numeric_validate_true.mp hv).1
    subst hm
    simp [NDArray.flatten, NDArray.map, atleast1d_data, eq_comm]

end Numeric

end Paragami
