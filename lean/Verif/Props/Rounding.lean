import Verif.Proofs.RoundingMatrix
import Verif.Props.Regroup

/-!
# Folding in rounded arithmetic (C76-C79)

`A : Arith` is the machine.  `Sane` and `Accurate` (`Spec/Rounding.lean`) say what is assumed of it; `binary64_sane` and
`binary64_accurate` show that IEEE binary64 arithmetic with correctly rounded library functions meets both.
-/

set_option linter.unusedSimpArgs false

namespace Paragami
open NDArray Pattern Flt

variable {A : Arith}

/-! ### Numeric patterns -/

theorem not_lt_of_nan_or_le {l x : Flt} (h : x = .nan ∨ l.le x = true) : x.lt l = false := by
  rcases h with rfl | h
  · cases l <;> rfl
  · exact not_lt_of_le h

theorem not_gt_of_nan_or_le {u x : Flt} (h : x = .nan ∨ x.le u = true) : x.gt u = false := by
  rcases h with rfl | h
  · cases u <;> rfl
  · exact not_lt_of_le h

theorem numeric_fold_round {p : Pattern} {s : List Nat} {lb ub : PyNum} {dv : Bool} {fd : Option Bool}
    (hp : mkNumericArray s lb ub dv fd = .ok p) {l : List Flt} (hl : l.length = s.prod) :
    p.foldFreeA A (vec l) = .ok (.arr ⟨s, l.map (constrain1A A lb.toFlt ub.toFlt)⟩) := by
  obtain rfl := mkNumeric_eq hp
  simp only [foldFreeA, numeric_foldFreeA hl, bind, Except.bind, pure, Except.pure]

/-- **C76, one-sided bounds.**  If at most one bound is finite, the folded value of any free vector without NaN has no NaN, lies
within the bounds and is accepted by `validate_folded`, whatever the rounding. -/
theorem C76_one_sided (hA : A.Sane) {p : Pattern} {s : List Nat} {lb ub : PyNum} {dv : Bool} {fd : Option Bool}
    (hp : mkNumericArray s lb ub dv fd = .ok p) (hlb : A.Machine lb.toFlt) (hub : A.Machine ub.toFlt)
    (hone : lb.toFlt = .ninf ∨ ub.toFlt = .pinf) (l : List Flt) (hl : l.length = s.prod) (hn : ∀ x ∈ l, x.NotNaN)
    (vv : Option Bool) :
    ∃ d : List Flt, p.foldFreeA A (vec l) = .ok (.arr ⟨s, d⟩) ∧
      (∀ z ∈ d, z.NotNaN ∧ lb.toFlt.le z = true ∧ z.le ub.toFlt = true) ∧
      ∃ m, p.validate (.arr ⟨s, d⟩ : Val Flt) vv = .ok (true, m) := by
  have hmk := mkNumeric_ok.mp hp
  have key : ∀ z ∈ l.map (constrain1A A lb.toFlt ub.toFlt), z.NotNaN ∧ lb.toFlt.le z = true ∧ z.le ub.toFlt = true := by
    intro z hz
    obtain ⟨y, hy, rfl⟩ := List.mem_map.mp hz
    exact hA.constrain_one_sided hlb hub hmk.2.2.2.2 hone (hn y hy)
  refine ⟨_, numeric_fold_round hp hl, key, ?_⟩
  rw [hmk.1]
  refine acc_numeric.mpr ⟨_, rfl, by rw [atleast1d_of_ne (by exact hmk.2.1)], fun _ z hz => ?_⟩
  obtain ⟨_, h1, h2⟩ := key z hz
  exact ⟨not_lt_of_nan_or_le (Or.inr h1), not_gt_of_nan_or_le (Or.inr h2)⟩

/-- Positive numbers in binary64, from free values that underflow and overflow. -/
example : ∃ d : List Flt,
    (Pattern.numeric .array [3] (.int 0) (.flt .pinf) true none).foldFreeA binary64 (vec [.fin (-1000), .fin 1000, .fin 1]) =
      .ok (.arr ⟨[3], d⟩) ∧ (∀ z ∈ d, z.NotNaN ∧ (PyNum.int 0).toFlt.le z = true ∧ z.le (PyNum.flt .pinf).toFlt = true) ∧
      ∃ m, (Pattern.numeric .array [3] (.int 0) (.flt .pinf) true none).validate (.arr ⟨[3], d⟩ : Val Flt) (some true) =
        .ok (true, m) :=
  C76_one_sided binary64_sane (s := [3]) (lb := .int 0) (ub := .flt .pinf) (dv := true) (fd := none)
    (mkNumeric_ok.mpr ⟨rfl, by simp [PyNum.toFlt, Flt.lt]⟩) (by simpa [PyNum.toFlt] using binary64_sane.zero_machine) rfl
    (Or.inr rfl) _ rfl (by simp [NotNaN]) (some true)

/-- **C76, two-sided bounds, below.**  With two finite bounds no entry of the folded value is below the lower bound (it may be
NaN). -/
theorem C76_two_sided_lower (hA : A.Sane) {p : Pattern} {s : List Nat} {lb ub : PyNum} {dv : Bool} {fd : Option Bool}
    (hp : mkNumericArray s lb ub dv fd = .ok p) (hlb : A.Machine lb.toFlt) (hfl : lb.toFlt.IsFin) (hfu : ub.toFlt.IsFin)
    (l : List Flt) (hl : l.length = s.prod) (hn : ∀ x ∈ l, x.NotNaN) :
    ∃ d : List Flt, p.foldFreeA A (vec l) = .ok (.arr ⟨s, d⟩) ∧ ∀ z ∈ d, z = .nan ∨ lb.toFlt.le z = true := by
  have hmk := mkNumeric_ok.mp hp
  refine ⟨_, numeric_fold_round hp hl, fun z hz => ?_⟩
  obtain ⟨y, hy, rfl⟩ := List.mem_map.mp hz
  obtain ⟨a, ha⟩ := isFin_iff.mp hfl
  obtain ⟨b, hb⟩ := isFin_iff.mp hfu
  have hlt := hmk.2.2.2.2
  rw [ha] at hlb
  rw [ha, hb] at hlt
  rw [ha, hb]
  exact hA.constrain_two_sided hlb (by simpa using hlt) (hn y hy)

/-- Free values of both signs between -1 and 3. -/
example : ∃ d : List Flt,
    (Pattern.numeric .array [2] (.int (-1)) (.int 3) true none).foldFreeA binary64 (vec [.fin (-5), .fin 50]) =
      .ok (.arr ⟨[2], d⟩) ∧ ∀ z ∈ d, z = .nan ∨ (PyNum.int (-1)).toFlt.le z = true :=
  C76_two_sided_lower binary64_sane (s := [2]) (lb := .int (-1)) (ub := .int 3) (dv := true) (fd := none)
    (mkNumeric_ok.mpr ⟨rfl, by simp [PyNum.toFlt, Flt.lt, NotNaN]; norm_num⟩)
    (by simpa [PyNum.toFlt] using binary64_sane.neg 1 binary64_sane.one_machine)
    trivial trivial _ rfl (by simp [NotNaN])

/-- **C76, intervals of width one.**  With finite bounds whose computed difference is one and whose computed `1 + lb` is at most
`ub` (such as 0 and 1), the folded value of any free vector without NaN is accepted by `validate_folded`. -/
theorem C76_unit_interval (hA : A.Sane) {p : Pattern} {s : List Nat} {lb ub : PyNum} {dv : Bool} {fd : Option Bool}
    (hp : mkNumericArray s lb ub dv fd = .ok p) (hlb : A.Machine lb.toFlt) (hfl : lb.toFlt.IsFin) (hfu : ub.toFlt.IsFin)
    (hw : A.sub ub.toFlt lb.toFlt = .fin 1) (hw' : (A.add 1 lb.toFlt).le ub.toFlt = true) (l : List Flt)
    (hl : l.length = s.prod) (hn : ∀ x ∈ l, x.NotNaN) (vv : Option Bool) :
    ∃ v, p.foldFreeA A (vec l) = .ok v ∧ ∃ m, p.validate v vv = .ok (true, m) := by
  have hmk := mkNumeric_ok.mp hp
  refine ⟨_, numeric_fold_round hp hl, ?_⟩
  rw [hmk.1]
  refine acc_numeric.mpr ⟨_, rfl, by rw [atleast1d_of_ne (by exact hmk.2.1)], fun _ z hz => ?_⟩
  obtain ⟨y, hy, rfl⟩ := List.mem_map.mp hz
  change (constrain1A A lb.toFlt ub.toFlt y).lt lb.toFlt = false ∧ (constrain1A A lb.toFlt ub.toFlt y).gt ub.toFlt = false
  obtain ⟨a, ha⟩ := isFin_iff.mp hfl
  obtain ⟨b, hb⟩ := isFin_iff.mp hfu
  have hlt := hmk.2.2.2.2
  rw [ha] at hlb hw'
  rw [ha, hb] at hlt hw
  rw [hb] at hw'
  rw [ha, hb]
  refine ⟨not_lt_of_nan_or_le (hA.constrain_two_sided hlb (by simpa using hlt) (hn y hy)), not_gt_of_nan_or_le ?_⟩
  rcases hA.constrain_unit hw (hn y hy) with h3 | h3
  · exact Or.inl h3
  · exact Or.inr (le_trans' h3 hw')

theorem binary64_sub_one : binary64.sub (.fin 1) (.fin 0) = .fin 1 := by
  rw [Arith.sub, sub_fin, sub_zero]; exact binary64_sane.one
theorem binary64_add_one : binary64.add 1 (.fin 0) = .fin 1 := by
  rw [Arith.one_flt, Arith.add, add_fin, add_zero]; exact binary64_sane.one

/-- Probabilities in binary64, where one free value overflows. -/
example : ∃ v, (Pattern.numeric .array [2] (.int 0) (.int 1) true none).foldFreeA binary64 (vec [.fin 3, .fin 800]) = .ok v ∧
    ∃ m, (Pattern.numeric .array [2] (.int 0) (.int 1) true none).validate v (some true) = .ok (true, m) :=
  C76_unit_interval binary64_sane (s := [2]) (lb := .int 0) (ub := .int 1) (dv := true) (fd := none)
    (mkNumeric_ok.mpr ⟨rfl, by simp [PyNum.toFlt, Flt.lt, NotNaN]⟩)
    (by simpa [PyNum.toFlt] using binary64_sane.zero_machine) trivial trivial
    (by simpa [PyNum.toFlt] using binary64_sub_one) (by simp only [PyNum.toFlt, Int.cast_zero, Int.cast_one, binary64_add_one]; simp) _ rfl
    (by simp [NotNaN]) (some true)

/-- **C76, two-sided bounds, above.**  Between the numbers Python reads as `-1.7` and `0.3`, every free value from 40 to 700
folds to a number above the upper bound, and `validate_folded` refuses the value just folded. -/
theorem C76_upper_bound_exceeded (hA : A.Sane) (hB : A.Accurate) {p : Pattern} {s : List Nat} {dv : Bool} {fd : Option Bool}
    (hp : mkNumericArray s (.flt (.fin Arith.lbWitness)) (.flt (.fin Arith.ubWitness)) dv fd = .ok p) (l : List ℝ)
    (hl : l.length = s.prod) (hr : ∀ y ∈ l, 40 ≤ y ∧ y ≤ 700) :
    ∃ c : ℝ, Arith.ubWitness < c ∧
      p.foldFreeA A (vec (l.map .fin)) = .ok (.arr ⟨s, List.replicate s.prod (.fin c)⟩) ∧
      (0 ∉ s → ∃ m, p.validate (.arr ⟨s, List.replicate s.prod (.fin c)⟩ : Val Flt) (some true) = .ok (false, m)) := by
  have hmk := mkNumeric_ok.mp hp
  refine ⟨5404319552844596 / 2 ^ 54, by unfold Arith.ubWitness; norm_num, ?_, fun h0 => ?_⟩
  · rw [numeric_fold_round hp (by simpa using hl), List.map_map]
    congr 3
    rw [← hl, List.eq_replicate_iff]
    refine ⟨by simp, fun z hz => ?_⟩
    obtain ⟨y, hy, rfl⟩ := List.mem_map.mp hz
    exact Arith.constrain_exceeds hA hB (hr y hy).1 (hr y hy).2
  · rw [hmk.1]
    simp only [validate, Val.asArr, bind, Except.bind, pure, Except.pure, Except.ok.injEq]
    generalize hv : Numeric.validate s _ _ dv (⟨s, List.replicate s.prod (.fin (5404319552844596 / 2 ^ 54))⟩ : NDArray Flt) (some true) = r
    obtain ⟨ok, m⟩ := r
    cases ok with
    | false => exact ⟨m, rfl⟩
    | true =>
      exfalso
      obtain ⟨_, _, h⟩ := numeric_validate_true.mp hv
      have hpos : s.prod ≠ 0 := fun h => h0 (List.prod_eq_zero_iff.mp h)
      have := (h rfl (.fin (5404319552844596 / 2 ^ 54)) (List.mem_replicate.mpr ⟨hpos, rfl⟩)).2
      change (Flt.fin _).gt (.fin Arith.ubWitness) = false at this
      simp only [gt, lt, decide_eq_false_iff_not, not_lt] at this
      revert this
      unfold Arith.ubWitness; norm_num

/-- Two such values in binary64; the bounds are the binary64 numbers nearest to -1.7 and 0.3. -/
example : (|Arith.lbWitness - (-1.7)| < 1 / 10 ^ 15 ∧ |Arith.ubWitness - 0.3| < 1 / 10 ^ 15) ∧
    ∃ c : ℝ, Arith.ubWitness < c ∧
      (Pattern.numeric .array [2] (.flt (.fin Arith.lbWitness)) (.flt (.fin Arith.ubWitness)) true none).foldFreeA binary64
        (vec ([40, 50].map .fin)) = .ok (.arr ⟨[2], [.fin c, .fin c]⟩) ∧
      (0 ∉ [2] → ∃ m, (Pattern.numeric .array [2] (.flt (.fin Arith.lbWitness)) (.flt (.fin Arith.ubWitness)) true none).validate
        (.arr ⟨[2], [.fin c, .fin c]⟩ : Val Flt) (some true) = .ok (false, m)) :=
  ⟨by unfold Arith.lbWitness Arith.ubWitness; constructor <;> norm_num [abs_lt],
    C76_upper_bound_exceeded binary64_sane binary64_accurate (s := [2]) (dv := true) (fd := none)
    (p := .numeric .array [2] (.flt (.fin Arith.lbWitness)) (.flt (.fin Arith.ubWitness)) true none)
    (mkNumeric_ok.mpr ⟨rfl, by
      simp [PyNum.toFlt, Flt.lt, NotNaN, Arith.lbWitness, Arith.ubWitness]; norm_num⟩) [40, 50] rfl (by
      intro y hy
      simp only [List.mem_cons, List.not_mem_nil, or_false] at hy
      rcases hy with rfl | rfl <;> norm_num)⟩

/-- **C76, overflow.**  With two finite bounds every free value whose `exp` overflows folds to NaN, and `validate_folded` accepts
the result. -/
theorem C76_overflow_nan (hA : A.Sane) {p : Pattern} {s : List Nat} {lb ub : PyNum} {dv : Bool} {fd : Option Bool}
    (hp : mkNumericArray s lb ub dv fd = .ok p) (hfl : lb.toFlt.IsFin) (hfu : ub.toFlt.IsFin) (l : List Flt)
    (hl : l.length = s.prod) (ho : ∀ y ∈ l, A.exp y = .pinf) (vv : Option Bool) :
    p.foldFreeA A (vec l) = .ok (.arr ⟨s, List.replicate s.prod .nan⟩) ∧
      ∃ m, p.validate (.arr ⟨s, List.replicate s.prod .nan⟩ : Val Flt) vv = .ok (true, m) := by
  have hmk := mkNumeric_ok.mp hp
  obtain ⟨a, ha⟩ := isFin_iff.mp hfl
  obtain ⟨b, hb⟩ := isFin_iff.mp hfu
  have hlt := hmk.2.2.2.2
  rw [ha, hb] at hlt
  constructor
  · rw [numeric_fold_round hp hl]
    congr 3
    rw [← hl, List.eq_replicate_iff]
    refine ⟨by simp, fun z hz => ?_⟩
    obtain ⟨y, hy, rfl⟩ := List.mem_map.mp hz
    rw [ha, hb]
    exact hA.constrain_overflow (by simpa using hlt) (ho y hy)
  · rw [hmk.1]
    refine acc_numeric.mpr ⟨_, rfl, by rw [atleast1d_of_ne (by exact hmk.2.1)], fun _ z hz => ?_⟩
    obtain rfl := (List.mem_replicate.mp hz).2
    exact ⟨not_lt_of_nan_or_le (Or.inl rfl), not_gt_of_nan_or_le (Or.inl rfl)⟩

theorem binary64_exp_overflow {y : ℝ} (hy : 711 ≤ y) : binary64.exp (.fin y) = .pinf := by
  change rnd64 (Real.exp y) = .pinf
  have h1 : overflow64 ≤ Real.exp y := by
    have e1 : Real.exp (Real.log 2 * (1024:ℤ)) ≤ Real.exp y := by
      apply Real.exp_le_exp.mpr
      have := Real.log_two_lt_d9
      push_cast; linarith
    rwa [Real.exp_mul, Real.exp_log (by norm_num), Real.rpow_intCast] at e1
  have h2 : rndReal overflow64 = overflow64 := by
    have := rndReal_fix (m := 1) (e := 1024) (by norm_num) (by norm_num)
    push_cast at this
    rwa [one_mul] at this
  have h3 := rndReal_mono h1
  rw [h2] at h3
  rw [rnd64, if_pos h3]

/-- A probability whose free value is 711. -/
example : (Pattern.numeric .array [1] (.int 0) (.int 1) true none).foldFreeA binary64 (vec [.fin 711]) =
      .ok (.arr ⟨[1], [.nan]⟩) ∧
    ∃ m, (Pattern.numeric .array [1] (.int 0) (.int 1) true none).validate (.arr ⟨[1], [.nan]⟩ : Val Flt) (some true) =
      .ok (true, m) :=
  C76_overflow_nan binary64_sane (s := [1]) (lb := .int 0) (ub := .int 1) (dv := true) (fd := none)
    (mkNumeric_ok.mpr ⟨rfl, by simp [PyNum.toFlt, Flt.lt, NotNaN]⟩) trivial trivial _ rfl
    (by simpa using binary64_exp_overflow le_rfl) (some true)

/-! ### Simplexes -/

theorem simplex_fold_round {p : Pattern} {k : ℤ} {s : List Nat} {dv : Bool} {fd : Option Bool}
    (hp : mkSimplex k s dv fd = .ok p) {l : List Flt} (hl : l.length = s.prod * (k.toNat - 1)) :
    p.foldFreeA A (vec l) = .ok (.arr ⟨s ++ [k.toNat],
      (List.range s.prod).flatMap fun i => constrainSimplexRowA A (chunk (k.toNat - 1) l i)⟩) := by
  obtain rfl := mkSimplex_eq hp
  simp only [foldFreeA, simplex_foldFreeA (show l.length = (s ++ [k.toNat - 1]).prod by simpa using hl), bind, Except.bind, pure,
    Except.pure]

/-- **C77, range.**  The entries of a computed simplex lie between zero and one and are never NaN. -/
theorem C77_range (hA : A.Sane) {p : Pattern} {k : ℤ} {s : List Nat} {dv : Bool} {fd : Option Bool}
    (hp : mkSimplex k s dv fd = .ok p) (l : List ℝ) (hl : l.length = s.prod * (k.toNat - 1))
    (hm : ∀ x ∈ l, A.Machine (.fin x)) :
    ∃ d : List Flt, p.foldFreeA A (vec (l.map .fin)) = .ok (.arr ⟨s ++ [k.toNat], d⟩) ∧
      ∀ z ∈ d, ∃ r : ℝ, z = .fin r ∧ 0 ≤ r ∧ r ≤ 1 := by
  refine ⟨_, simplex_fold_round hp (by simpa using hl), fun z hz => ?_⟩
  obtain ⟨i, _, hz⟩ := List.mem_flatMap.mp hz
  have hc : chunk (k.toNat - 1) (l.map Flt.fin) i = ((l.drop (i * (k.toNat - 1))).take (k.toNat - 1)).map .fin := by
    simp [chunk, List.map_drop, List.map_take]
  rw [hc] at hz
  obtain ⟨h1, h2⟩ := hA.simplex_row (fun x hx => hm x (List.mem_of_mem_drop (List.mem_of_mem_take hx))) z hz
  cases z with
  | fin r => exact ⟨r, rfl, by simpa using h1, by simpa using h2⟩
  | pinf => simp [le, lt, eq] at h2
  | ninf => simp [le, lt, eq] at h1
  | nan => simp [le, lt, eq] at h1

/-- A simplex of three from the free values 0 and 1. -/
example : ∃ d : List Flt, (Pattern.simplex 3 [1] true none).foldFreeA binary64 (vec ([0, 1].map .fin)) =
    .ok (.arr ⟨[1] ++ [3], d⟩) ∧ ∀ z ∈ d, ∃ r : ℝ, z = .fin r ∧ 0 ≤ r ∧ r ≤ 1 :=
  C77_range binary64_sane (k := 3) (s := [1]) (dv := true) (fd := none) rfl [0, 1] rfl (by
    intro x hx
    simp only [List.mem_cons, List.not_mem_nil, or_false] at hx
    rcases hx with rfl | rfl
    · exact binary64_sane.zero_machine
    · exact binary64_sane.one_machine)

theorem validateA_ok {k : Nat} {s : List Nat} {dv : Bool} {d : List Flt} (vv : Option Bool)
    (h0 : ∀ z ∈ d, z.lt 0 = false)
    (h1 : ∀ i < s.prod, ((A.sub (A.sum (chunk k d i)) 1).abs.gt (A.rnd (1 / 10 ^ 12))) = false) :
    Simplex.validateA A k s dv ⟨s ++ [k], d⟩ vv = .ok (true, "") := by
  have a1 : d.any (fun x => x.lt 0) = false := by
    rw [List.any_eq_false]; intro z hz; rw [h0 z hz]; simp
  have a2 : (NDArray.rows s.prod k d).any (fun row => (A.sub (A.sum row) 1).abs.gt (A.rnd (1 / 10 ^ 12))) = false := by
    rw [List.any_eq_false]
    intro row hrow
    obtain ⟨i, hi, rfl⟩ := List.mem_map.mp hrow
    have := h1 i (List.mem_range.mp hi)
    simp only [chunk] at this
    rw [this]; simp
  simp only [Simplex.validateA, Simplex.validateShape, if_true, Bool.not_true, Bool.false_eq_true, if_false, a1, a2, ite_self]

theorem validateA_false {k : Nat} {s : List Nat} {dv : Bool} {d : List Flt} {i : Nat} (hi : i < s.prod)
    (h1 : ((A.sub (A.sum (chunk k d i)) 1).abs.gt (A.rnd (1 / 10 ^ 12))) = true) :
    ∃ m, Simplex.validateA A k s dv ⟨s ++ [k], d⟩ (some true) = .ok (false, m) := by
  have a2 : (NDArray.rows s.prod k d).any (fun row => (A.sub (A.sum row) 1).abs.gt (A.rnd (1 / 10 ^ 12))) = true := by
    rw [List.any_eq_true]
    exact ⟨chunk k d i, List.mem_map.mpr ⟨i, List.mem_range.mpr hi, rfl⟩, h1⟩
  by_cases a1 : d.any (fun x => x.lt 0) = true
  · exact ⟨_, by simp only [Simplex.validateA, Simplex.validateShape, if_true, Bool.not_true, Bool.false_eq_true, if_false,
      Option.getD_some, a1]; rfl⟩
  · exact ⟨_, by simp only [Simplex.validateA, Simplex.validateShape, if_true, Bool.not_true, Bool.false_eq_true, if_false,
      Option.getD_some, a1, a2]; rfl⟩

/-- **C77, accepted.**  Simplexes of at most 500 entries computed from free values between -1000 and 1000 pass
`validate_folded`: their computed sums are within `1e-12` of one. -/
theorem C77_accepted (hA : A.Sane) (hB : A.Accurate) {p : Pattern} {k : ℤ} {s : List Nat} {dv : Bool} {fd : Option Bool}
    (hp : mkSimplex k s dv fd = .ok p) (hk : k ≤ 500) (l : List ℝ) (hl : l.length = s.prod * (k.toNat - 1))
    (hm : ∀ x ∈ l, A.Machine (.fin x)) (hx : ∀ x ∈ l, |x| ≤ 1000) (vv : Option Bool) :
    ∃ a : NDArray Flt, p.foldFreeA A (vec (l.map .fin)) = .ok (.arr a) ∧
      Simplex.validateA A k.toNat s dv a vv = .ok (true, "") := by
  have hw : 2 ≤ k.toNat := by
    have := (Built.simplex hp).wf
    obtain rfl := mkSimplex_eq hp
    simp only [Pattern.WF] at this; omega
  have hc : ∀ i, chunk (k.toNat - 1) (l.map Flt.fin) i = ((l.drop (i * (k.toNat - 1))).take (k.toNat - 1)).map .fin := by
    intro i; simp [chunk, List.map_drop, List.map_take]
  have hrow : ∀ i, ∃ d : List ℝ, i < s.prod → (constrainSimplexRowA A (chunk (k.toNat - 1) (l.map Flt.fin) i) = d.map .fin ∧
      ∃ F, A.sum (d.map .fin) = .fin F ∧ |F - 1| ≤ 9000 * Arith.uRound) := by
    intro i
    by_cases hi : i < s.prod
    · obtain ⟨d, h1⟩ := Arith.simplex_sum hA hB (r := (l.drop (i * (k.toNat - 1))).take (k.toNat - 1))
        (fun x hx => hm x (List.mem_of_mem_drop (List.mem_of_mem_take hx)))
        (fun x h => hx x (List.mem_of_mem_drop (List.mem_of_mem_take h)))
        (by simp; omega)
      rw [← hc i] at h1
      exact ⟨d, fun _ => h1⟩
    · exact ⟨[], fun h => absurd h hi⟩
  choose g hg using hrow
  have hgl : ∀ i < s.prod, ((g i).map Flt.fin).length = k.toNat := by
    intro i hi
    rw [← (hg i hi).1]
    have hl' : (l.map Flt.fin).length = s.prod * (k.toNat - 1) := by simpa using hl
    simp only [constrainSimplexRowA, List.length_map, List.length_cons, length_chunk hl' hi]
    omega
  have hd : ((List.range s.prod).flatMap fun i => constrainSimplexRowA A (chunk (k.toNat - 1) (l.map Flt.fin) i)) =
      (List.range s.prod).flatMap fun i => (g i).map Flt.fin := by
    simp only [List.flatMap_def]
    congr 1
    exact List.map_congr_left fun i hi => (hg i (List.mem_range.mp hi)).1
  refine ⟨_, simplex_fold_round hp (by simpa using hl), validateA_ok vv ?_ ?_⟩
  · intro z hz
    obtain ⟨d, h1, h2⟩ := C77_range hA hp l hl hm
    rw [simplex_fold_round hp (by simpa using hl)] at h1
    injection h1 with h1; injection h1 with h1; injection h1 with _ h1
    rw [h1] at hz
    obtain ⟨r, rfl, h3, _⟩ := h2 z hz
    rw [Arith.zero_flt]
    simpa [lt] using h3
  · intro i hi
    rw [hd, chunk_of_flatMap _ hgl hi]
    obtain ⟨_, F, h1, h2⟩ := hg i hi
    rw [h1]
    apply Arith.dist_one hB _ (by norm_num)
    refine h2.trans ?_
    unfold Arith.uRound; norm_num

/-- Two simplexes of three in binary64, far from balanced. -/
example : ∃ a : NDArray Flt, (Pattern.simplex 3 [2] true none).foldFreeA binary64 (vec ([0, 1, 1000, -1000].map .fin)) =
    .ok (.arr a) ∧ Simplex.validateA binary64 3 [2] true a none = .ok (true, "") :=
  C77_accepted binary64_sane binary64_accurate (k := 3) (s := [2]) (dv := true) (fd := none) rfl (by norm_num)
    [0, 1, 1000, -1000] rfl (by
    intro x hx
    simp only [List.mem_cons, List.not_mem_nil, or_false] at hx
    have h1000 : binary64.Machine (.fin 1000) := by
      have := binary64_accurate.machine_of (m := 1000) (e := 0) (by norm_num) (by norm_num) (by norm_num)
      simpa using this
    rcases hx with rfl | rfl | rfl | rfl
    · exact binary64_sane.zero_machine
    · exact binary64_sane.one_machine
    · exact h1000
    · exact binary64_sane.neg _ h1000) (by
    intro x hx
    simp only [List.mem_cons, List.not_mem_nil, or_false] at hx
    rcases hx with rfl | rfl | rfl | rfl <;> norm_num [abs_le]) none

/-- **C77, rejected.**  The limit on the free values is needed: if any row of free values is `2 ** 30, 2 ** 30`, the value just
folded is refused by `validate_folded`. -/
theorem C77_rejected (hA : A.Sane) (hB : A.Accurate) {p : Pattern} {s : List Nat} {dv : Bool} {fd : Option Bool}
    (hp : mkSimplex 3 s dv fd = .ok p) (l : List Flt) (hl : l.length = s.prod * 2) (i : Nat) (hi : i < s.prod)
    (hrow : chunk 2 l i = [.fin (2 ^ 30), .fin (2 ^ 30)]) :
    ∃ a : NDArray Flt, p.foldFreeA A (vec l) = .ok (.arr a) ∧
      ∃ m, Simplex.validateA A 3 s dv a (some true) = .ok (false, m) := by
  refine ⟨_, simplex_fold_round hp hl, validateA_false hi ?_⟩
  have hgl : ∀ i < s.prod, (constrainSimplexRowA A (chunk 2 l i)).length = 3 := by
    intro i hi
    simp only [constrainSimplexRowA, List.length_map, List.length_cons, length_chunk hl hi]
  have := chunk_of_flatMap _ hgl hi
  change (A.sub (A.sum (chunk 3 ((List.range s.prod).flatMap fun i => constrainSimplexRowA A (chunk 2 l i)) i)) 1).abs.gt _ = true
  rw [this, hrow]
  obtain ⟨d, h1, F, h2, h3, h4⟩ := Arith.simplex_short hA hB
  rw [h1, h2]
  exact Arith.dist_one_gt hB h3 h4

/-- The second of two simplexes. -/
example : ∃ a : NDArray Flt, (Pattern.simplex 3 [2] true none).foldFreeA binary64
    (vec [.fin 0, .fin 1, .fin (2 ^ 30), .fin (2 ^ 30)]) = .ok (.arr a) ∧
    ∃ m, Simplex.validateA binary64 3 [2] true a (some true) = .ok (false, m) :=
  C77_rejected binary64_sane binary64_accurate (s := [2]) (dv := true) (fd := none) rfl _ rfl 1 (by norm_num)
    (by simp [chunk])

/-! ### Matrices -/

theorem mkPSD_eq {n : Nat} {lb : PyNum} {dv fd} {p : Pattern} (h : mkPSD n lb dv fd = .ok p) : p = .psd n lb dv fd := by
  simp only [mkPSD, bind, Except.bind, throw, throwThe, MonadExceptOf.throw, pure, Except.pure] at h
  repeat' (split at h <;> try (simp at h; done))
  all_goals simpa using h.symm

theorem psd_fold_round {p : Pattern} {n : Nat} {lb : PyNum} {dv : Bool} {fd : Option Bool} (hp : mkPSD n lb dv fd = .ok p)
    {l : List Flt} (hl : l.length = tri n) :
    p.foldFreeA A (vec l) = .ok (.arr (ofFn2 n n fun i j =>
      A.add (A.dot ((List.range n).map fun k => (factorA A l i k, factorA A l j k))) (if i = j then lb.toFlt else 0))) := by
  obtain rfl := mkPSD_eq hp
  simp only [foldFreeA, psd_foldFreeA hl, bind, Except.bind, pure, Except.pure]

theorem factorA_diag {l : List Flt} {i : Nat} (hA : A.Sane) (hB : A.Accurate) {d : ℝ}
    (hd : l.getD (symIndex i i) .nan = .fin d) (hm : A.Machine (.fin d)) (h : d ≤ -36) : factorA A l i i = .fin 0 := by
  simp only [factorA, if_true, le_refl, hd]
  exact Arith.expDiag_collapse hA hB hm h

/-- **C78, diagonals collapse.**  Free diagonal values of -36 and below are all the same to a matrix pattern: two free vectors
that differ only there fold to the same matrix. -/
theorem C78_diagonal_collapses (hA : A.Sane) (hB : A.Accurate) {p : Pattern} {n : Nat} {lb : PyNum} {dv : Bool} {fd : Option Bool}
    (hp : mkPSD n lb dv fd = .ok p) (l l' : List Flt) (hl : l.length = tri n) (hl' : l'.length = tri n)
    (hoff : ∀ i < n, ∀ j < i, l.getD (symIndex i j) .nan = l'.getD (symIndex i j) .nan)
    (hdiag : ∀ i < n, l.getD (symIndex i i) .nan = l'.getD (symIndex i i) .nan ∨
      ∃ d d' : ℝ, l.getD (symIndex i i) .nan = .fin d ∧ l'.getD (symIndex i i) .nan = .fin d' ∧
        A.Machine (.fin d) ∧ A.Machine (.fin d') ∧ d ≤ -36 ∧ d' ≤ -36) :
    p.foldFreeA A (vec l) = p.foldFreeA A (vec l') := by
  rw [psd_fold_round hp hl, psd_fold_round hp hl']
  have key : ∀ i < n, ∀ k, factorA A l i k = factorA A l' i k := by
    intro i hi k
    by_cases hik : i = k
    · subst hik
      rcases hdiag i hi with h | ⟨d, d', h1, h2, h3, h4, h5, h6⟩
      · simp only [factorA, h]
      · rw [factorA_diag hA hB h1 h3 h5, factorA_diag hA hB h2 h4 h6]
    · simp only [factorA, if_neg hik]
      by_cases hk : k ≤ i
      · simp only [if_pos hk, hoff i hi k (by omega)]
      · simp only [if_neg hk]
  congr 2
  apply ofFn2_congr
  intro i hi j hj
  congr 2
  apply List.map_congr_left
  intro k _
  rw [key i hi k, key j hj k]

theorem binary64_int_machine {m : ℤ} (h : |m| ≤ 2 ^ 53) : binary64.Machine (.fin m) := by
  have := binary64_accurate.machine_of (m := m) (e := 0) h (by norm_num) (by norm_num)
  simpa using this

/-- Free diagonals -40 and -500 of a 2x2 matrix. -/
example : (Pattern.psd 2 (.int 0) true none).foldFreeA binary64 (vec [.fin 1, .fin 2, .fin (-40)]) =
    (Pattern.psd 2 (.int 0) true none).foldFreeA binary64 (vec [.fin 1, .fin 2, .fin (-500)]) :=
  C78_diagonal_collapses binary64_sane binary64_accurate (n := 2) (lb := .int 0) (dv := true) (fd := none)
    (by simp [mkPSD, PyNum.toFlt, lt]) _ _ rfl rfl
    (by
      intro i hi j hj
      have hi' : i < 2 := hi
      interval_cases i <;> interval_cases j; rfl)
    (by
      intro i hi
      have hi' : i < 2 := hi
      interval_cases i
      · exact Or.inl rfl
      · refine Or.inr ⟨-40, -500, rfl, rfl, ?_, ?_, by norm_num, by norm_num⟩
        · simpa using binary64_int_machine (m := -40) (by norm_num)
        · simpa using binary64_int_machine (m := -500) (by norm_num))

/-- **C78, the first diagonal value.**  If the first free diagonal value is -36 or below, the folded matrix has its lower bound in
the corner, and the same pattern refuses to flatten it to a free vector, with or without validation. -/
theorem C78_corner_not_invertible (hA : A.Sane) (hB : A.Accurate) {p : Pattern} {n : Nat} {lb : PyNum} {dv : Bool}
    {fd : Option Bool} (hp : mkPSD n lb dv fd = .ok p) (hlb : A.Machine lb.toFlt) (hfin : lb.toFlt.IsFin)
    (l : List Flt) (hl : l.length = tri n) {d : ℝ} (h0 : l.head? = some (.fin d)) (hm : A.Machine (.fin d))
    (hd : d ≤ -36) (vv : Option Bool) :
    ∃ a : NDArray Flt, p.foldFreeA A (vec l) = .ok (.arr a) ∧ entry n a.data 0 0 = lb.toFlt ∧
      ∃ e, PSD.flattenFreeA A n lb.toFlt dv a vv = .error e := by
  have hn : 0 < n := by
    rcases Nat.eq_zero_or_pos n with h | h
    · rw [h] at hl
      obtain rfl := List.length_eq_zero_iff.mp hl
      simp at h0
    · exact h
  have hg : l.getD (symIndex 0 0) .nan = .fin d := by
    cases l with
    | nil => simp at h0
    | cons x l => simpa [symIndex] using h0
  have hz : ∀ k, factorA A l 0 k = .fin 0 := by
    intro k
    rcases Nat.eq_zero_or_pos k with rfl | hk
    · exact factorA_diag hA hB hg hm hd
    · have h1 : ¬ (0 = k) := by omega
      have h2 : ¬ (k ≤ 0) := by omega
      simp only [factorA, if_neg h1, if_neg h2]
      rw [Arith.zero_flt, Arith.add, add_fin, add_zero, Arith.round_fin, hA.zero, Arith.sub, sub_fin, sub_zero, Arith.round_fin,
        hA.zero]
  obtain ⟨r, hr⟩ := isFin_iff.mp hfin
  have hcorner : entry n (ofFn2 n n fun i j =>
      A.add (A.dot ((List.range n).map fun k => (factorA A l i k, factorA A l j k))) (if i = j then lb.toFlt else 0)).data 0 0 =
      lb.toFlt := by
    rw [entry_ofFn2 _ _ _ hn hn, if_pos rfl, hA.dot_zero, hr, Arith.add, add_fin, zero_add]
    · rw [hr] at hlb; exact hlb
    · intro q hq
      obtain ⟨k, _, rfl⟩ := List.mem_map.mp hq
      exact ⟨hz k, hz k⟩
  refine ⟨_, psd_fold_round hp hl, hcorner, ?_⟩
  generalize (ofFn2 n n fun i j => _) = a at *
  unfold PSD.flattenFreeA
  simp only [bind, Except.bind, throw, throwThe, MonadExceptOf.throw, pure, Except.pure]
  split
  · exact ⟨_, rfl⟩
  · split
    · exact ⟨_, rfl⟩
    · have hc : A.chol n (ofFn2 n n fun i j => A.sub (entry n a.data i j) (if i = j then lb.toFlt else 0)) =
          .error .linAlgError := by
        apply hA.chol_fails _ _ hn
        rw [entry_ofFn2 _ _ _ hn hn, if_pos rfl, hcorner, hr, Arith.sub, sub_fin, sub_self, Arith.round_fin, hA.zero]
        simp
      exact ⟨_, by simp only [packPosdefA, bind, Except.bind, hc]; rfl⟩

/-- A 2x2 matrix with free corner -40. -/
example : ∃ a : NDArray Flt, (Pattern.psd 2 (.int 1) true none).foldFreeA binary64 (vec [.fin (-40), .fin 2, .fin 3]) =
    .ok (.arr a) ∧ entry 2 a.data 0 0 = (PyNum.int 1).toFlt ∧
      ∃ e, PSD.flattenFreeA binary64 2 (PyNum.int 1).toFlt true a none = .error e :=
  C78_corner_not_invertible binary64_sane binary64_accurate (n := 2) (lb := .int 1) (dv := true) (fd := none)
    (by simp [mkPSD, PyNum.toFlt, lt])
    (by simpa [PyNum.toFlt] using binary64_sane.one_machine) trivial _ rfl (d := -40) rfl
    (by simpa using binary64_int_machine (m := -40) (by norm_num)) (by norm_num) none

/-- **C78, large diagonals.**  `flatten(free=True)` stores zero for every diagonal entry of the computed Cholesky factor that is
`2 ** 66` or more, whichever it is. -/
theorem C78_diagonal_forgotten (hA : A.Sane) (hB : A.Accurate) {n : Nat} {lb : Flt} {dv : Bool} {a x : NDArray Flt}
    {vv : Option Bool} (h : PSD.flattenFreeA A n lb dv a vv = .ok x) :
    ∃ L : NDArray Flt,
      A.chol n (ofFn2 n n fun i j => A.sub (entry n a.data i j) (if i = j then lb else 0)) = .ok L ∧
      ∀ i < n, ∀ r : ℝ, entry n L.data i i = .fin r → A.Machine (.fin r) → 2 ^ 66 ≤ r →
        x.data.getD (symIndex i i) .nan = .fin 0 := by
  unfold PSD.flattenFreeA at h
  obtain ⟨⟨ok, m⟩, h1, h⟩ := bind_ok h
  cases ok with
  | false => simp [bind, Except.bind, throw, throwThe, MonadExceptOf.throw] at h
  | true =>
    simp only [Bool.not_true, Bool.false_eq_true, if_false] at h
    replace h : packPosdefA A n lb a = .ok x := h
    unfold packPosdefA at h
    obtain ⟨L, h2, h⟩ := bind_ok h
    refine ⟨L, h2, fun i hi r hr hm hr2 => ?_⟩
    rw [logDiagA, vectorizeLd_ofFn2] at h
    injection h with h
    subst h
    rw [vec_data, getD_tril (fun i j => A.sub (A.add (if i = j then A.log (entry n L.data i i) else 0) (entry n L.data i j))
      (if i = j then entry n L.data i i else 0)) hi le_rfl]
    simp only [if_true, hr]
    exact Arith.logDiag_collapse hA hB hm hr2

theorem binary64_chol_one {r : ℝ} (hr : 0 < r) (hm : binary64.Machine (.fin r)) :
    binary64.chol 1 ⟨[1, 1], [.fin (r * r)]⟩ = .ok ⟨[1, 1], [.fin r]⟩ := by
  have hpos : 0 < r * r := mul_pos hr hr
  have h1 := cholesky_eq (n := 1) (A := fun _ _ => r * r) (L := fun _ _ => r)
    ⟨by intro i j hi hj hij; omega, fun i _ => hr, by
      intro i j hi hj
      simp⟩
  have e1 : ∀ f : Nat → Nat → Flt, ofFn2 1 1 f = ⟨[1, 1], [f 0 0]⟩ := by
    intro f; simp [ofFn2]
  rw [e1, e1] at h1
  have h2 : ¬ ((Flt.fin (r * r)).le (.fin 0) = true) := by simp [not_le, hpos]
  have h3 : ¬ ((entry 1 [Flt.fin (r * r)] 0 0).le (.fin 0) = true ∧ 0 < 1) := fun h => h2 h.1
  simp only [binary64]
  rw [if_neg h3, h1]
  simp only [bind, Except.bind, pure, Except.pure, NDArray.map, List.map_cons, List.map_nil]
  rw [Arith.Machine, round64_eq] at hm
  rw [hm]

/-- The matrix `[[2 ** 200]]` flattens to `[0]`, the free vector of `[[1]]`. -/
example : ∃ x : NDArray Flt, PSD.flattenFreeA binary64 1 (.fin 0) true ⟨[1, 1], [.fin (2 ^ 200)]⟩ none = .ok x ∧
    x.data.getD 0 .nan = .fin 0 := by
  have hm : binary64.Machine (.fin (2 ^ 100)) := by
    have := binary64_accurate.machine_of (m := 1) (e := 100) (by norm_num) (by norm_num) (by norm_num)
    simpa using this
  have hm2 : binary64.Machine (.fin (2 ^ 200)) := by
    have := binary64_accurate.machine_of (m := 1) (e := 200) (by norm_num) (by norm_num) (by norm_num)
    simpa using this
  have e1 : ∀ f : Nat → Nat → Flt, ofFn2 1 1 f = ⟨[1, 1], [f 0 0]⟩ := by
    intro f; simp [ofFn2]
  have hsub : (ofFn2 1 1 fun i j => binary64.sub (entry 1 [Flt.fin (2 ^ 200)] i j) (if i = j then .fin 0 else 0)) =
      ⟨[1, 1], [.fin (2 ^ 100 * 2 ^ 100)]⟩ := by
    rw [e1]
    change (⟨[1, 1], [binary64.sub (.fin (2 ^ 200)) (.fin 0)]⟩ : NDArray Flt) = _
    rw [Arith.sub, sub_fin, sub_zero, hm2]
    norm_num
  have hval : PSD.validate 1 (.fin 0) true (⟨[1, 1], [Flt.fin (2 ^ 200)]⟩ : NDArray Flt) none = .ok (true, "") := by
    rw [psd_validate_true]
    refine ⟨rfl, rfl, fun _ => ⟨?_, ?_⟩⟩
    · intro i hi
      obtain rfl : i = 0 := by omega
      change (Flt.fin (2 ^ 200)).lt (.fin 0) = false
      simp [lt]
    · intro i hi j hj
      obtain rfl : i = 0 := by omega
      obtain rfl : j = 0 := by omega
      change (Flt.fin (2 ^ 200)).eq (.fin (2 ^ 200)) = true
      simp [Flt.eq]
  have hflat : ∃ x, PSD.flattenFreeA binary64 1 (.fin 0) true ⟨[1, 1], [.fin (2 ^ 200)]⟩ none = .ok x := by
    simp only [PSD.flattenFreeA, hval, bind, Except.bind, Bool.not_true, Bool.false_eq_true, if_false, packPosdefA, hsub,
      binary64_chol_one (by positivity : (0:ℝ) < 2 ^ 100) hm, logDiagA, vectorizeLd_ofFn2]
    exact ⟨_, rfl⟩
  obtain ⟨x, hx⟩ := hflat
  obtain ⟨L, h1, h2⟩ := C78_diagonal_forgotten binary64_sane binary64_accurate hx
  simp only [] at h1
  rw [hsub, binary64_chol_one (by positivity : (0:ℝ) < 2 ^ 100) hm] at h1
  injection h1 with h1
  subst h1
  exact ⟨x, hx, h2 0 (by norm_num) (2 ^ 100) rfl hm (by norm_num)⟩

/-! ### Trees -/

/-- **C79, no rounding.**  In exact arithmetic the rounded transcription of `fold(free=True)` is the one used everywhere else. -/
theorem C79_exact (p : Pattern) (x : NDArray Flt) : p.foldFreeA .exact x = p.fold x (some true) := by
  rw [Arith.exact_foldFree]
  simp only [Pattern.fold, freeWithDefault, bind, Except.bind, if_true]

/-- Without rounding the free value 0 folds to the probability one half. -/
example : (Pattern.numeric .array [1] (.int 0) (.int 1) true none).foldFreeA .exact (vec [.fin 0]) =
    .ok (.arr ⟨[1], [.fin (1 / 2)]⟩) := by
  rw [C79_exact]
  simp only [Pattern.fold, freeWithDefault, bind, Except.bind, if_true, foldFree, Numeric.foldFree]
  simp [NDArray.map, reshape, size, vec, atleast1d, ndim, pure, Except.pure, constrain1, PyNum.toFlt, Flt.eq, Flt.exp]
  rw [div_fin _ _ (by norm_num), add_fin]
  norm_num

/-- **C79, trees.**  On any machine the free fold of a vector of the right length succeeds with a value of the right shape.  On a
machine whose rounding is monotone the value is accepted by `validate_folded` if it has no NaN and the pattern has no simplexes,
no finite intervals except of width one, and bounds that are machine numbers. -/
theorem C79_tree {p : Pattern} (hp : Built p) (hf : p.FiniteLb) (l : List Flt) (hl : l.length = p.flatLen true) :
    ∃ v, p.foldFreeA A (vec l) = .ok v ∧ Spec.ShapeOk p v ∧
      (A.Sane → Spec.RoundSafe A p → (∀ x ∈ l, x.IsFin) → Spec.NoNaN v →
        ∀ vv, ∃ m, p.validate v vv = .ok (true, m)) := by
  obtain ⟨v, h1, _, h3, _, h5⟩ := p.round_vec (A := A) hp.wf hf l hl
  exact ⟨v, h1, h3, h5⟩

/-- A dictionary of a probability and a matrix, in binary64. -/
example : ∃ v, (Pattern.dict (.cons "p" (.numeric .array [1] (.int 0) (.int 1) true none) (.cons "m" (.psd 2 (.int 0) true none) .nil))
      false none).foldFreeA binary64 (vec [.fin 1, .fin 2, .fin 3, .fin 4]) = .ok v ∧
    (Spec.NoNaN v → ∃ m, (Pattern.dict (.cons "p" (.numeric .array [1] (.int 0) (.int 1) true none)
      (.cons "m" (.psd 2 (.int 0) true none) .nil)) false none).validate v (some true) = .ok (true, m)) := by
  have h0 : binary64.Machine (PyNum.int 0).toFlt := by simpa [PyNum.toFlt] using binary64_sane.zero_machine
  have h1 : binary64.Machine (PyNum.int 1).toFlt := by simpa [PyNum.toFlt] using binary64_sane.one_machine
  obtain ⟨v, hv, _, h⟩ := C79_tree (A := binary64) (p := .dict (.cons "p" (.numeric .array [1] (.int 0) (.int 1) true none)
      (.cons "m" (.psd 2 (.int 0) true none) .nil)) false none)
    (Pattern.WF.built _ (by simp [Pattern.WF, Pattern.WFEs, PyNum.toFlt, Flt.lt, NotNaN, Entries.keys, Entries.toList, Pattern.lock]))
    (by simp [FiniteLb, FiniteLbEs, PyNum.toFlt, IsFin]) [.fin 1, .fin 2, .fin 3, .fin 4] rfl
  refine ⟨v, hv, fun hn => h binary64_sane ⟨⟨h0, h1, Or.inr (Or.inr ⟨?_, ?_⟩)⟩, h0, trivial⟩ (by simp [IsFin]) hn _⟩
  · simpa [PyNum.toFlt] using binary64_sub_one
  · simp only [PyNum.toFlt, Int.cast_zero, Int.cast_one, binary64_add_one]; simp

end Paragami
