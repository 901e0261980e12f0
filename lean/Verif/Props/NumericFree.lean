import Verif.Proofs.User

/-! # C01–C03: the free parameterization of numeric arrays -/

set_option linter.unusedSimpArgs false

namespace Paragami
open Pattern NDArray

/-- `x` lies strictly between the two bounds (IEEE comparisons). -/
def Spec.StrictlyBetween (lb ub : PyNum) (x : Flt) : Prop := lb.toFlt.lt x = true ∧ x.lt ub.toFlt = true

/-- **C01.**  For a numeric pattern of any class, shape and bounds, every array of the pattern's shape with entries
strictly between the bounds is accepted by `flatten(free=True)`, with a vector of finite numbers as the result, and
`fold(free=True)` of that vector is exactly the original array — whatever the `validate_value` arguments. -/
theorem C01_numeric_free_value {cls shape lb ub dv fd p} (hp : mkNumeric cls shape lb ub dv fd = .ok p)
    {a : NDArray Flt} (hwf : a.WF) (hsh : a.shape = shape) (hin : ∀ x ∈ a.data, Spec.StrictlyBetween lb ub x) :
    ∃ r : List ℝ, r.length = a.data.length ∧ ∀ vv vv', p.flatten (.arr a) (some true) vv = .ok (vec (r.map .fin)) ∧
      p.fold (vec (r.map .fin)) (some true) vv' = .ok (.arr a) := by
  obtain ⟨rfl, hs, h1, h2, h3⟩ := mkNumeric_ok.mp hp
  -- `cls` does not matter for the free transforms
  have hw : (Pattern.numeric .array shape lb ub dv fd).WF := by simp [Pattern.WF, hs, h1, h2, h3]
  have hI : Spec.Interior (.numeric .array shape lb ub dv fd) (.arr a) := by
    refine ⟨hwf, ?_, hin⟩
    rw [atleast1d_of_ne (by rw [hsh]; exact hs), hsh]
  obtain ⟨r, e1, e2, e3⟩ := numeric_free_val hw hI
  refine ⟨r, by rw [e1, hwf, hsh], fun vv vv' => ⟨?_, ?_⟩⟩
  · rw [flatten_true]; have := e2 vv; simp only [flattenFree] at this ⊢; exact this
  · rw [fold_true]
    rw [atleast1d_of_ne (by rw [hsh]; exact hs)] at e3
    simp only [foldFree] at e3 ⊢; exact e3

/-- C01 is not vacuous: a two-by-one array strictly inside `(0, 1)`. -/
example : ∃ p, mkNumericArray [2, 1] (.int 0) (.flt (.fin 1)) true none = .ok p ∧
    ∃ a : NDArray Flt, a.WF ∧ a.shape = [2, 1] ∧ a.data = [.fin (1/2), .fin (1/4)] ∧
      ∀ x ∈ a.data, Spec.StrictlyBetween (.int 0) (.flt (.fin 1)) x := by
  refine ⟨_, mkNumeric_ok.mpr ⟨rfl, by simp, by simp [PyNum.toFlt], by simp [PyNum.toFlt], by simp [PyNum.toFlt]⟩,
    ⟨[2, 1], [.fin (1/2), .fin (1/4)]⟩, rfl, rfl, rfl, ?_⟩
  simp [Spec.StrictlyBetween, PyNum.toFlt]
  norm_num

/-- **C02.**  For every vector of finite numbers of length `flat_length(free=True)`, `fold(free=True)` of a numeric
pattern succeeds with an array of the pattern's shape whose entries are strictly between the bounds, and
`flatten(free=True)` of it is exactly the vector. -/
theorem C02_numeric_free_vector {cls shape lb ub dv fd p} (hp : mkNumeric cls shape lb ub dv fd = .ok p)
    {r : List ℝ} (hr : p.flatLength (some true) = .ok r.length) :
    ∃ a : NDArray Flt, a.WF ∧ a.shape = shape ∧ (∀ x ∈ a.data, Spec.StrictlyBetween lb ub x) ∧
      ∀ vv vv', p.fold (vec (r.map .fin)) (some true) vv = .ok (.arr a) ∧
        p.flatten (.arr a) (some true) vv' = .ok (vec (r.map .fin)) := by
  obtain ⟨rfl, hs, h1, h2, h3⟩ := mkNumeric_ok.mp hp
  have hw : (Pattern.numeric .array shape lb ub dv fd).WF := by simp [Pattern.WF, hs, h1, h2, h3]
  rw [flatLength_some] at hr
  obtain ⟨d, e1, e2, e3, e4⟩ := numeric_free_vec hw (r := r) (by injection hr with hr; exact hr.symm)
  refine ⟨⟨shape, d⟩, e2, rfl, e3.2.2, fun vv vv' => ⟨?_, ?_⟩⟩
  · rw [fold_true]; simp only [foldFree] at e1 ⊢; exact e1
  · rw [flatten_true]; have := e4 vv'; simp only [flattenFree] at this ⊢; exact this

/-- C02 is not vacuous. -/
example : ∃ p, mkNumericVector 3 (.flt .ninf) (.int 7) true (some true) = .ok p ∧
    p.flatLength (some true) = .ok ([1, -2, 0] : List ℝ).length := by
  exact ⟨_, mkNumeric_ok.mpr ⟨rfl, by simp, by simp [PyNum.toFlt], by simp [PyNum.toFlt], rfl⟩, rfl⟩

/-! ### C03: values on a bound -/

open Classical in
/-- One entry that is within the inclusive bounds survives the free round trip, unless both bounds are finite and it
sits on the upper one, where the result is NaN. -/
theorem constrain_unconstrain_incl {lb ub x : Flt} (hl : lb.NotNaN) (hu : ub.NotNaN) (hlu : lb.lt ub = true)
    (h1 : lb.le x = true) (h2 : x.le ub = true) :
    constrain1 lb ub (unconstrain1 lb ub x) = if lb.IsFin ∧ ub.IsFin ∧ x = ub then .nan else x := by
  by_cases hb1 : lb.lt x = true
  · by_cases hb2 : x.lt ub = true
    · obtain ⟨y, e1, e2⟩ := constrain_unconstrain hl hu hlu hb1 hb2
      rw [e1, e2, if_neg]
      rintro ⟨_, _, rfl⟩
      cases x <;> simp_all [Flt.lt]
    · have hx : x = ub := by
        cases x <;> cases ub <;> simp_all [Flt.le, Flt.lt, Flt.eq]
        rcases h2 with h | h
        · linarith
        · exact h
      subst hx
      rcases bounds_cases hl hu hlu with ⟨rfl, rfl⟩ | ⟨a, rfl, rfl⟩ | ⟨b, rfl, rfl⟩ | ⟨a, b, rfl, rfl, hab⟩
      · simp [constrain1, unconstrain1, Flt.eq, Flt.IsFin]
      · have e : Flt.pinf - Flt.fin a = Flt.pinf := rfl
        have e' : Flt.pinf + Flt.fin a = Flt.pinf := rfl
        simp [constrain1, unconstrain1, Flt.eq, Flt.IsFin, e, Flt.log, Flt.exp, e']
      · have e : Flt.fin (-1) * Flt.ninf = Flt.pinf := by
          change Flt.scaleInf _ = _; simp [Flt.scaleInf]
        have e' : Flt.fin (-1) * Flt.pinf = Flt.ninf := by
          change Flt.scaleInf _ = _; simp [Flt.scaleInf]
        simp [constrain1, unconstrain1, Flt.eq, Flt.IsFin, e, e', Flt.exp]
      · have e : Flt.fin (Real.log (b - a)) - Flt.ninf = Flt.pinf := rfl
        have e2 : Flt.fin (b - a) * Flt.pinf = Flt.pinf := by
          change Flt.scaleInf _ = _; simp [Flt.scaleInf, hab]
        have e3 : Flt.fin 1 + Flt.pinf = Flt.pinf := rfl
        have e4 : Flt.pinf / Flt.pinf = Flt.nan := rfl
        have e5 : Flt.nan + Flt.fin a = Flt.nan := rfl
        simp [constrain1, unconstrain1, Flt.eq, Flt.IsFin, Flt.log_fin (sub_pos.mpr hab), e, e2, e3, e4, e5]
  · have hx : x = lb := by
      cases x <;> cases lb <;> simp_all [Flt.le, Flt.lt, Flt.eq]
      rcases h1 with h | h
      · linarith
      · exact h.symm
    subst hx
    rw [if_neg (by rintro ⟨_, _, rfl⟩; cases x <;> simp_all [Flt.lt])]
    rcases bounds_cases hl hu hlu with ⟨rfl, rfl⟩ | ⟨a, rfl, rfl⟩ | ⟨b, rfl, rfl⟩ | ⟨a, b, rfl, rfl, hab⟩
    · simp [constrain1, unconstrain1, Flt.eq]
    · simp [constrain1, unconstrain1, Flt.eq]
    · have e0 : Flt.fin b - Flt.ninf = Flt.pinf := rfl
      have e : Flt.fin (-1) * Flt.ninf = Flt.pinf := by
        change Flt.scaleInf _ = _; simp [Flt.scaleInf]
      have e' : Flt.fin (-1) * Flt.pinf = Flt.ninf := by
        change Flt.scaleInf _ = _; simp [Flt.scaleInf]
      have e2 : Flt.fin b - Flt.pinf = Flt.ninf := rfl
      simp [constrain1, unconstrain1, Flt.eq, e0, e, e', Flt.exp, Flt.log, e2]
    · have e : Flt.ninf - Flt.fin (Real.log (b - a)) = Flt.ninf := rfl
      simp [constrain1, unconstrain1, Flt.eq, Flt.log_fin (sub_pos.mpr hab), e, Flt.div_fin]

/-- An array of the pattern's shape whose entries obey the inclusive bounds. -/
def Spec.WithinInclusive (shape : List Nat) (lb ub : PyNum) (a : NDArray Flt) : Prop :=
  a.WF ∧ a.shape = shape ∧ ∀ x ∈ a.data, lb.toFlt.le x = true ∧ x.le ub.toFlt = true

/-- The full claim of C03: every value within the inclusive bounds survives `flatten` then `fold` in free mode. -/
def Spec.C03Claim : Prop :=
  ∀ cls shape lb ub dv fd p, mkNumeric cls shape lb ub dv fd = .ok p → ∀ a, Spec.WithinInclusive shape lb ub a →
    ∃ x, p.flatten (.arr a) (some true) none = .ok x ∧ p.fold x (some true) none = .ok (.arr a)

/-- What the round trip does on any array within the inclusive bounds. -/
theorem numeric_free_incl {cls shape lb ub dv fd p} (hp : mkNumeric cls shape lb ub dv fd = .ok p)
    {a : NDArray Flt} (ha : Spec.WithinInclusive shape lb ub a) (vv vv') :
    ∃ x, p.flatten (.arr a) (some true) vv = .ok x ∧ p.fold x (some true) vv' = .ok (.arr ⟨shape,
      a.data.map fun x => constrain1 lb.toFlt ub.toFlt (unconstrain1 lb.toFlt ub.toFlt x)⟩) := by
  obtain ⟨rfl, hs, h1, h2, h3⟩ := mkNumeric_ok.mp hp
  obtain ⟨hwf, hsh, hb⟩ := ha
  refine ⟨vec (a.data.map (unconstrain1 lb.toFlt ub.toFlt)), ?_, ?_⟩
  · rw [flatten_true]
    simp only [flattenFree, Val.asArr, bind, Except.bind]
    rw [Numeric.flattenFree_ok]
    refine ⟨?_, rfl⟩
    rw [numeric_validate_true]
    refine ⟨rfl, by rw [atleast1d_of_ne (by rw [hsh]; exact hs), hsh], fun _ x hx => ?_⟩
    obtain ⟨hb1, hb2⟩ := hb x hx
    generalize lb.toFlt = l at *
    generalize ub.toFlt = u at *
    simp only [Elem.toFlt, id, Flt.gt]
    cases x <;> cases l <;> cases u <;> simp_all [Flt.le, Flt.lt, Flt.eq]
    · next x l u => exact ⟨by rcases hb1 with h | h <;> linarith, by rcases hb2 with h | h <;> linarith⟩
    · next x l => rcases hb1 with h | h <;> linarith
    · next x l => rcases hb2 with h | h <;> linarith
  · rw [fold_true]
    simp only [foldFree]
    rw [Numeric.foldFree_ok.mpr ⟨by simp, by rw [vec_data, List.length_map, hwf, hsh], rfl⟩]
    simp [bind, Except.bind, pure, Except.pure, Function.comp_def]

/-- **C03, partial.**  Every array within the inclusive bounds survives the free round trip provided it is not the
case that both bounds are finite and some entry equals the upper bound.  (Missing, because false: that case.) -/
theorem C03_inclusive_bounds_partial {cls shape lb ub dv fd p} (hp : mkNumeric cls shape lb ub dv fd = .ok p)
    {a : NDArray Flt} (ha : Spec.WithinInclusive shape lb ub a)
    (hno : ¬ (lb.toFlt.IsFin ∧ ub.toFlt.IsFin ∧ ub.toFlt ∈ a.data)) (vv vv') :
    ∃ x, p.flatten (.arr a) (some true) vv = .ok x ∧ p.fold x (some true) vv' = .ok (.arr a) := by
  obtain ⟨x, e1, e2⟩ := numeric_free_incl hp ha vv vv'
  refine ⟨x, e1, ?_⟩
  rw [e2]
  obtain ⟨_, hs, h1, h2, h3⟩ := mkNumeric_ok.mp hp
  obtain ⟨hwf, rfl, hb⟩ := ha
  congr 2
  obtain ⟨s, d⟩ := a
  simp only [NDArray.mk.injEq, true_and]
  conv_rhs => rw [← List.map_id d]
  apply List.map_congr_left
  intro x hx
  rw [constrain_unconstrain_incl h1 h2 h3 (hb x hx).1 (hb x hx).2, if_neg]
  · rfl
  · rintro ⟨f1, f2, rfl⟩; exact hno ⟨f1, f2, hx⟩

/-- **C03, the failure.**  With two finite bounds, an entry equal to the upper bound is accepted by
`flatten(free=True)`, and `fold(free=True)` of the result has NaN in its place (all other entries are restored). -/
theorem C03_upper_bound_gives_nan {cls shape lb ub dv fd p} (hp : mkNumeric cls shape lb ub dv fd = .ok p)
    (hl : lb.toFlt.IsFin) (hu : ub.toFlt.IsFin) {a : NDArray Flt} (ha : Spec.WithinInclusive shape lb ub a) (vv vv') :
    ∃ (x b : NDArray Flt), p.flatten (.arr a) (some true) vv = .ok x ∧ p.fold x (some true) vv' = .ok (.arr b) ∧ b.shape = a.shape ∧
      ∀ i : Nat, (a.data[i]? = some ub.toFlt → b.data[i]? = some Flt.nan) ∧
        (a.data[i]? ≠ some ub.toFlt → b.data[i]? = a.data[i]?) := by
  obtain ⟨x, e1, e2⟩ := numeric_free_incl hp ha vv vv'
  obtain ⟨_, hs, h1, h2, h3⟩ := mkNumeric_ok.mp hp
  obtain ⟨hwf, hsh, hb⟩ := ha
  refine ⟨x, _, e1, e2, hsh.symm, fun i => ?_⟩
  simp only [List.getElem?_map]
  cases h : a.data[i]? with
  | none => simp
  | some y =>
    have hy : y ∈ a.data := List.mem_of_getElem? h
    have := constrain_unconstrain_incl h1 h2 h3 (hb y hy).1 (hb y hy).2
    simp only [Option.map_some, this, hl, hu, true_and]
    refine ⟨fun e => ?_, fun e => ?_⟩
    · injection e with e; rw [if_pos ⟨hl, hu, e⟩]
    · rw [if_neg (fun e' => e (by rw [e'.2.2]))]

/-- The claim of C03 is false for the code as written. -/
theorem C03_claim_false : ¬ Spec.C03Claim := by
  intro h
  have hp : mkNumeric .array [1] (.int 0) (.int 1) true none = .ok (.numeric .array [1] (.int 0) (.int 1) true none) :=
    mkNumeric_ok.mpr ⟨rfl, by simp, by simp [PyNum.toFlt], by simp [PyNum.toFlt], by simp [PyNum.toFlt]⟩
  have ha : Spec.WithinInclusive [1] (.int 0) (.int 1) ⟨[1], [.fin 1]⟩ := by
    refine ⟨rfl, rfl, ?_⟩
    simp [PyNum.toFlt]
  obtain ⟨x, e1, e2⟩ := h _ _ _ _ _ _ _ hp _ ha
  obtain ⟨x', b, f1, f2, _, f4⟩ := C03_upper_bound_gives_nan hp (by simp [PyNum.toFlt]) (by simp [PyNum.toFlt]) ha none none
  rw [e1] at f1; cases f1
  rw [e2] at f2; cases f2
  have := (f4 0).1 (by simp [PyNum.toFlt])
  simp at this

end Paragami
