import Verif.Proofs.RoundingTrip
import Verif.Proofs.RoundingTree
import Verif.Props.Rounding

/-!
# C98: round trips of numeric patterns in floating point

`A` is a machine: binary64 arithmetic with `exp` and `log` accurate to about one unit in the last place.  `binary64_sane`, `binary64_accurate`
and `binary64_logAccurate` show that binary64 with correctly rounded library functions is one.
-/

set_option linter.unusedSimpArgs false

namespace Paragami
open NDArray Pattern Flt

variable {A : Arith}

theorem exact_validate (p : Pattern) : ∀ (v : Val Flt) vv, p.validateA .exact v vv = p.validate v vv := by
  induction p using Pattern.ind (Q := fun es => ∀ (vs : List (String × Val Flt)) vv, validateAEs .exact es vs vv = validateEs es vs vv) with
  | hnum c s lb ub dv fd => intro v vv; simp only [validateA, validate]
  | hsim k s dv fd =>
    intro v vv
    have h : ∀ a : NDArray Flt, Simplex.validateA .exact k s dv a vv = Simplex.validate k s dv a vv := by
      intro a
      have hid : a.data.map Elem.toFlt = a.data := by
        have : (Elem.toFlt : Flt → Flt) = id := rfl
        rw [this, List.map_id]
      simp only [Simplex.validateA, Simplex.validate, Arith.exact_sub, hid]
      rfl
    simp only [validateA, validate, h]
  | hpsd n lb dv fd => intro v vv; simp only [validateA, validate]
  | harr s b fd ih => intro v vv; simp only [validateA, validate, ih]
  | hdict es l fd ih => intro v vv; simp only [validateA, validate, ih]
  | hnil => simp only [validateAEs, validateEs]
  | hcons k p r ihp ihr => rename_i vs vv; simp only [validateAEs, validateEs, ihp, ihr]; cases vs.lookup k <;> rfl

theorem exact_unconstrain1 (lb ub : Flt) : unconstrain1A .exact lb ub = unconstrain1 lb ub := by
  funext y; simp only [unconstrain1A, unconstrain1, Arith.exact_sub, Arith.exact_mul]; rfl

theorem exact_unconstrainRow : unconstrainSimplexRowA .exact = unconstrainSimplexRow := by
  funext row
  cases row with
  | nil => rfl
  | cons x l => simp only [unconstrainSimplexRowA, unconstrainSimplexRow, Arith.exact_sub]; rfl

theorem exact_flattenFree (p : Pattern) : ∀ (v : Val Flt) vv, p.flattenFreeA .exact v vv = p.flattenFree v vv := by
  induction p using Pattern.ind (Q := fun es => ∀ (vs : List (String × Val Flt)) vv, flattenFreeAEs .exact es vs vv = flattenFreeEs es vs vv) with
  | hnum c s lb ub dv fd =>
    intro v vv; simp only [flattenFreeA, flattenFree, Numeric.flattenFreeA, Numeric.flattenFree, exact_unconstrain1]
  | hsim k s dv fd =>
    intro v vv
    have h : ∀ v : Val Flt, (Pattern.simplex k s dv fd).validateA .exact v vv = (Pattern.simplex k s dv fd).validate v vv := fun v => exact_validate _ v vv
    cases v with
    | dict d => rfl
    | arr a =>
      have h1 := h (.arr a)
      simp only [validateA, validate, Val.asArr, bind, Except.bind] at h1
      simp only [flattenFreeA, flattenFree, Simplex.flattenFreeA, Simplex.flattenFree, exact_unconstrainRow, Val.asArr, bind, Except.bind, h1]
  | hpsd n lb dv fd =>
    intro v vv
    simp only [flattenFreeA, flattenFree, PSD.flattenFreeA, PSD.flattenFree, Arith.exact_pack]
  | harr s b fd ih => intro v vv; simp only [flattenFreeA, flattenFree, ih, exact_validate]
  | hdict es l fd ih => intro v vv; simp only [flattenFreeA, flattenFree, ih, exact_validate]
  | hnil => simp only [flattenFreeAEs, flattenFreeEs]
  | hcons k p r ihp ihr => rename_i vs vv; simp only [flattenFreeAEs, flattenFreeEs, ihp, ihr]; cases vs.lookup k <;> rfl

/-- **C98, no rounding.**  In exact arithmetic the rounded transcription of `flatten(free=True)` is the one used everywhere else. -/
theorem C98_exact (p : Pattern) (v : Val Flt) (vv : Option Bool) : p.flattenFreeA .exact v vv = p.flatten v (some true) vv := by
  rw [exact_flattenFree]
  simp only [Pattern.flatten, freeWithDefault, bind, Except.bind, if_true]

theorem numeric_flatten_round {p : Pattern} {s : List Nat} {lb ub : PyNum} {dv : Bool} {fd : Option Bool}
    (hp : mkNumericArray s lb ub dv fd = .ok p) {d : List Flt} (vv : Option Bool)
    (h : ∀ z ∈ d, z.lt lb.toFlt = false ∧ z.gt ub.toFlt = false) :
    p.flattenFreeA A (.arr ⟨s, d⟩) vv = .ok (vec (d.map (unconstrain1A A lb.toFlt ub.toFlt))) := by
  have hmk := mkNumeric_ok.mp hp
  have hs : s ≠ [] := hmk.2.1
  have hv : Numeric.validate s lb.toFlt ub.toFlt dv (⟨s, d⟩ : NDArray Flt) vv = (true, "") := by
    rw [numeric_validate_true]
    refine ⟨rfl, by rw [atleast1d_of_ne hs], fun _ z hz => h z hz⟩
  have h1 : (⟨s, d⟩ : NDArray Flt).atleast1d = ⟨s, d⟩ := atleast1d_of_ne (by exact hs)
  rw [hmk.1]
  simp only [flattenFreeA, Val.asArr, bind, Except.bind, Numeric.flattenFreeA, h1, hv, Bool.not_true, Bool.false_eq_true,
    if_false, pure, Except.pure, NDArray.map, NDArray.flatten]

/-- From one entry to arrays, values first. -/
theorem value_trip {p : Pattern} {s : List Nat} {lb ub : PyNum} {dv : Bool} {fd : Option Bool} (hp : mkNumericArray s lb ub dv fd = .ok p)
    {x : List ℝ} (hx : x.length = s.prod) (vv : Option Bool) {bound : ℝ → ℝ}
    (hb : ∀ v ∈ x, (Flt.fin v).lt lb.toFlt = false ∧ (Flt.fin v).gt ub.toFlt = false)
    (h : ∀ v ∈ x, ∃ y w, unconstrain1A A lb.toFlt ub.toFlt (.fin v) = .fin y ∧ constrain1A A lb.toFlt ub.toFlt (.fin y) = .fin w ∧ |w - v| ≤ bound v) :
    ∃ y w : List ℝ, p.flattenFreeA A (.arr ⟨s, x.map .fin⟩) vv = .ok (vec (y.map .fin)) ∧
      p.foldFreeA A (vec (y.map .fin)) = .ok (.arr ⟨s, w.map .fin⟩) ∧ List.Forall₂ (fun v v' => |v' - v| ≤ bound v) x w := by
  have key : ∀ x : List ℝ, (∀ v ∈ x, ∃ y w, unconstrain1A A lb.toFlt ub.toFlt (.fin v) = .fin y ∧ constrain1A A lb.toFlt ub.toFlt (.fin y) = .fin w ∧ |w - v| ≤ bound v) →
      ∃ y w : List ℝ, (x.map Flt.fin).map (unconstrain1A A lb.toFlt ub.toFlt) = y.map .fin ∧
        (y.map Flt.fin).map (constrain1A A lb.toFlt ub.toFlt) = w.map .fin ∧ List.Forall₂ (fun v v' => |v' - v| ≤ bound v) x w := by
    intro x
    induction x with
    | nil => intro _; exact ⟨[], [], rfl, rfl, .nil⟩
    | cons v x ih =>
      intro h
      obtain ⟨y, w, h1, h2, h3⟩ := h v (by simp)
      obtain ⟨ys, ws, g1, g2, g3⟩ := ih fun v hv => h v (by simp [hv])
      refine ⟨y :: ys, w :: ws, ?_, ?_, .cons h3 g3⟩
      · rw [List.map_cons, List.map_cons, h1, g1, List.map_cons]
      · rw [List.map_cons, List.map_cons, h2, g2, List.map_cons]
  obtain ⟨y, w, h1, h2, h3⟩ := key x h
  have hlen : (y.map Flt.fin).length = s.prod := by rw [← h1, List.length_map, List.length_map, hx]
  refine ⟨y, w, ?_, ?_, h3⟩
  · rw [numeric_flatten_round hp vv (by
      intro z hz; obtain ⟨v, hv, rfl⟩ := List.mem_map.mp hz; exact hb v hv), h1]
  · rw [numeric_fold_round hp hlen, h2]

/-- From one entry to arrays, free vectors first. -/
theorem free_trip {p : Pattern} {s : List Nat} {lb ub : PyNum} {dv : Bool} {fd : Option Bool} (hp : mkNumericArray s lb ub dv fd = .ok p)
    {t : List ℝ} (ht : t.length = s.prod) (vv : Option Bool) {bound : ℝ → ℝ}
    (h : ∀ u ∈ t, ∃ w y, constrain1A A lb.toFlt ub.toFlt (.fin u) = .fin w ∧ unconstrain1A A lb.toFlt ub.toFlt (.fin w) = .fin y ∧
      |y - u| ≤ bound u ∧ (Flt.fin w).lt lb.toFlt = false ∧ (Flt.fin w).gt ub.toFlt = false) :
    ∃ w y : List ℝ, p.foldFreeA A (vec (t.map .fin)) = .ok (.arr ⟨s, w.map .fin⟩) ∧
      p.flattenFreeA A (.arr ⟨s, w.map .fin⟩) vv = .ok (vec (y.map .fin)) ∧ List.Forall₂ (fun u u' => |u' - u| ≤ bound u) t y := by
  have key : ∀ t : List ℝ, (∀ u ∈ t, ∃ w y, constrain1A A lb.toFlt ub.toFlt (.fin u) = .fin w ∧ unconstrain1A A lb.toFlt ub.toFlt (.fin w) = .fin y ∧
        |y - u| ≤ bound u ∧ (Flt.fin w).lt lb.toFlt = false ∧ (Flt.fin w).gt ub.toFlt = false) →
      ∃ w y : List ℝ, (t.map Flt.fin).map (constrain1A A lb.toFlt ub.toFlt) = w.map .fin ∧
        (w.map Flt.fin).map (unconstrain1A A lb.toFlt ub.toFlt) = y.map .fin ∧ List.Forall₂ (fun u u' => |u' - u| ≤ bound u) t y ∧
        ∀ z ∈ w, (Flt.fin z).lt lb.toFlt = false ∧ (Flt.fin z).gt ub.toFlt = false := by
    intro x
    induction x with
    | nil => intro _; exact ⟨[], [], rfl, rfl, .nil, by simp⟩
    | cons v x ih =>
      intro h
      obtain ⟨y, w, h1, h2, h3, h4⟩ := h v (by simp)
      obtain ⟨ys, ws, g1, g2, g3, g4⟩ := ih fun v hv => h v (by simp [hv])
      refine ⟨y :: ys, w :: ws, ?_, ?_, .cons h3 g3, ?_⟩
      · rw [List.map_cons, List.map_cons, h1, g1, List.map_cons]
      · rw [List.map_cons, List.map_cons, h2, g2, List.map_cons]
      · intro z hz
        rcases List.mem_cons.mp hz with rfl | hz
        · exact h4
        · exact g4 z hz
  obtain ⟨w, y, h1, h2, h3, h4⟩ := key t h
  refine ⟨w, y, ?_, ?_, h3⟩
  · rw [numeric_fold_round hp (by rw [List.length_map, ht]), h1]
  · rw [numeric_flatten_round hp vv (by
      intro z hz; obtain ⟨v, hv, rfl⟩ := List.mem_map.mp hz; exact h4 v hv), h2]

/-! ### Values -/

/-- **C98, no bounds.**  Without bounds both directions copy, on every machine, also infinities and NaN. -/
theorem C98_unbounded {p : Pattern} {s : List Nat} {lb ub : PyNum} {dv : Bool} {fd : Option Bool} (hp : mkNumericArray s lb ub dv fd = .ok p)
    (hlb : lb.toFlt = .ninf) (hub : ub.toFlt = .pinf) {x : List Flt} (hx : x.length = s.prod) (vv : Option Bool) :
    p.flattenFreeA A (.arr ⟨s, x⟩) vv = .ok (vec x) ∧ p.foldFreeA A (vec x) = .ok (.arr ⟨s, x⟩) := by
  constructor
  · rw [numeric_flatten_round hp vv (by intro z _; rw [hlb, hub]; cases z <;> simp [Flt.lt, Flt.gt])]
    have : unconstrain1A A lb.toFlt ub.toFlt = id := by
      funext z; rw [hlb, hub]; simp [unconstrain1A, Flt.eq]
    rw [this, List.map_id]
  · rw [numeric_fold_round hp hx]
    have : constrain1A A lb.toFlt ub.toFlt = id := by
      funext z; rw [hlb, hub]; simp [constrain1A, Flt.eq]
    rw [this, List.map_id]

/-- **C98, lower bounds.**  With a lower bound only, folding the flattened value gives each entry `v` back up to
`2 ** -53 * (|v| + (2 * |log (v - lb)| + 8) * (v - lb))`. -/
theorem C98_lower (hA : A.Sane) (hB : A.Accurate) (hL : A.LogAccurate) {p : Pattern} {s : List Nat} {lb ub : PyNum} {dv : Bool} {fd : Option Bool}
    (hp : mkNumericArray s lb ub dv fd = .ok p) {a : ℝ} (hlb : lb.toFlt = .fin a) (hub : ub.toFlt = .pinf) (ha : A.Machine (.fin a))
    (ha' : |a| ≤ 2 ^ (1000 : ℤ)) {x : List ℝ} (hx : x.length = s.prod)
    (hv : ∀ v ∈ x, A.Machine (.fin v) ∧ |v| ≤ 2 ^ (1000 : ℤ) ∧ 2 ^ (-1000 : ℤ) ≤ v - a) (vv : Option Bool) :
    ∃ y w : List ℝ, p.flattenFreeA A (.arr ⟨s, x.map .fin⟩) vv = .ok (vec (y.map .fin)) ∧
      p.foldFreeA A (vec (y.map .fin)) = .ok (.arr ⟨s, w.map .fin⟩) ∧
      List.Forall₂ (fun v v' => |v' - v| ≤ 2 ^ (-53 : ℤ) * (|v| + (2 * |Real.log (v - a)| + 8) * (v - a))) x w := by
  refine value_trip hp hx vv ?_ ?_
  · intro v h
    have : a < v := by have := lt_of_lt_of_le (two_zpow_pos _) (hv v h).2.2; linarith
    rw [hlb, hub]; simp [Flt.lt, Flt.gt, this.le]
  · intro v h
    obtain ⟨h1, h2, h3⟩ := hv v h
    rw [hlb, hub, Arith.uRound_val]
    exact Arith.lower_trip hA hB hL ha h1 ha' h2 h3

theorem two_le_big {m : ℝ} {e : ℤ} (hm : m ≤ 8) (he : 3 ≤ e) : m ≤ 2 ^ e :=
  hm.trans (le_trans (by norm_num) (Arith.small_zpow (e := 3) he))

theorem big_le_one {m : ℝ} {e : ℤ} (hm : 1 ≤ m) (he : e ≤ 0) : 2 ^ e ≤ m :=
  (zpow_le_one_of_nonpos₀ (by norm_num) he).trans hm

/-- The numbers 1 and 3 with the lower bound 0, in binary64. -/
example : ∃ y w : List ℝ,
    (Pattern.numeric .array [2] (.int 0) (.flt .pinf) true none).flattenFreeA binary64 (.arr ⟨[2], [.fin 1, .fin 3]⟩) none = .ok (vec (y.map .fin)) ∧
      (Pattern.numeric .array [2] (.int 0) (.flt .pinf) true none).foldFreeA binary64 (vec (y.map .fin)) = .ok (.arr ⟨[2], w.map .fin⟩) ∧
      List.Forall₂ (fun v v' => |v' - v| ≤ 2 ^ (-53 : ℤ) * (|v| + (2 * |Real.log (v - 0)| + 8) * (v - 0))) [1, 3] w :=
  C98_lower binary64_sane binary64_accurate binary64_logAccurate (s := [2]) (lb := .int 0) (ub := .flt .pinf) (dv := true) (fd := none)
    (mkNumeric_ok.mpr ⟨rfl, by simp [PyNum.toFlt, Flt.lt]⟩) (a := 0) (by simp [PyNum.toFlt]) rfl binary64_sane.zero_machine
    (by simp) (x := [1, 3]) rfl (by
      intro v hv
      have hm1 := binary64_int_machine (m := 1) (by norm_num)
      have hm3 := binary64_int_machine (m := 3) (by norm_num)
      simp only [List.mem_cons, List.not_mem_nil, or_false] at hv
      rcases hv with rfl | rfl
      · exact ⟨by simpa using hm1, two_le_big (by norm_num) (by norm_num), big_le_one (by norm_num) (by norm_num)⟩
      · exact ⟨by simpa using hm3, two_le_big (by norm_num) (by norm_num), big_le_one (by norm_num) (by norm_num)⟩) none

/-- **C98, upper bounds.**  The same with an upper bound only. -/
theorem C98_upper (hA : A.Sane) (hB : A.Accurate) (hL : A.LogAccurate) {p : Pattern} {s : List Nat} {lb ub : PyNum} {dv : Bool} {fd : Option Bool}
    (hp : mkNumericArray s lb ub dv fd = .ok p) {b : ℝ} (hlb : lb.toFlt = .ninf) (hub : ub.toFlt = .fin b) (hb : A.Machine (.fin b))
    (hb' : |b| ≤ 2 ^ (1000 : ℤ)) {x : List ℝ} (hx : x.length = s.prod)
    (hv : ∀ v ∈ x, A.Machine (.fin v) ∧ |v| ≤ 2 ^ (1000 : ℤ) ∧ 2 ^ (-1000 : ℤ) ≤ b - v) (vv : Option Bool) :
    ∃ y w : List ℝ, p.flattenFreeA A (.arr ⟨s, x.map .fin⟩) vv = .ok (vec (y.map .fin)) ∧
      p.foldFreeA A (vec (y.map .fin)) = .ok (.arr ⟨s, w.map .fin⟩) ∧
      List.Forall₂ (fun v v' => |v' - v| ≤ 2 ^ (-53 : ℤ) * (|v| + (2 * |Real.log (b - v)| + 8) * (b - v))) x w := by
  refine value_trip hp hx vv ?_ ?_
  · intro v h
    have : v < b := by have := lt_of_lt_of_le (two_zpow_pos _) (hv v h).2.2; linarith
    rw [hlb, hub]; simp [Flt.lt, Flt.gt, this.le]
  · intro v h
    obtain ⟨h1, h2, h3⟩ := hv v h
    rw [hlb, hub, Arith.uRound_val]
    exact Arith.upper_trip hA hB hL hb h1 hb' h2 h3

/-- **C98, two bounds.**  With two finite bounds the error is at most `2 ** -53` times
`|v| + 8 * (v - lb) + (3 * |log (v - lb)| + 3 * |log (ub - v)| + 13) * (v - lb) * (ub - v) / (ub - lb)`. -/
theorem C98_two_sided (hA : A.Sane) (hB : A.Accurate) (hL : A.LogAccurate) {p : Pattern} {s : List Nat} {lb ub : PyNum} {dv : Bool} {fd : Option Bool}
    (hp : mkNumericArray s lb ub dv fd = .ok p) {a b : ℝ} (hlb : lb.toFlt = .fin a) (hub : ub.toFlt = .fin b) (ha : A.Machine (.fin a))
    (hb : A.Machine (.fin b)) (ha' : |a| ≤ 2 ^ (300 : ℤ)) (hb' : |b| ≤ 2 ^ (300 : ℤ)) {x : List ℝ} (hx : x.length = s.prod)
    (hv : ∀ v ∈ x, A.Machine (.fin v) ∧ |v| ≤ 2 ^ (300 : ℤ) ∧ 2 ^ (-300 : ℤ) ≤ v - a ∧ 2 ^ (-300 : ℤ) ≤ b - v) (vv : Option Bool) :
    ∃ y w : List ℝ, p.flattenFreeA A (.arr ⟨s, x.map .fin⟩) vv = .ok (vec (y.map .fin)) ∧
      p.foldFreeA A (vec (y.map .fin)) = .ok (.arr ⟨s, w.map .fin⟩) ∧
      List.Forall₂ (fun v v' => |v' - v| ≤ 2 ^ (-53 : ℤ) * (|v| + 8 * (v - a) +
        (3 * |Real.log (v - a)| + 3 * |Real.log (b - v)| + 13) * ((v - a) * (b - v) / (b - a)))) x w := by
  refine value_trip hp hx vv ?_ ?_
  · intro v h
    have h1 : a < v := by have := lt_of_lt_of_le (two_zpow_pos _) (hv v h).2.2.1; linarith
    have h2 : v < b := by have := lt_of_lt_of_le (two_zpow_pos _) (hv v h).2.2.2; linarith
    rw [hlb, hub]; simp [Flt.lt, Flt.gt, h1.le, h2.le]
  · intro v h
    obtain ⟨h1, h2, h3, h4⟩ := hv v h
    rw [hlb, hub, Arith.uRound_val]
    exact Arith.two_sided_trip hA hB hL ha hb h1 ha' hb' h2 h3 h4

/-- The number 1 between 0 and 4, in binary64. -/
example : ∃ y w : List ℝ,
    (Pattern.numeric .array [1] (.int 0) (.int 4) true none).flattenFreeA binary64 (.arr ⟨[1], [.fin 1]⟩) none = .ok (vec (y.map .fin)) ∧
      (Pattern.numeric .array [1] (.int 0) (.int 4) true none).foldFreeA binary64 (vec (y.map .fin)) = .ok (.arr ⟨[1], w.map .fin⟩) ∧
      List.Forall₂ (fun v v' => |v' - v| ≤ 2 ^ (-53 : ℤ) * (|v| + 8 * (v - 0) +
        (3 * |Real.log (v - 0)| + 3 * |Real.log (4 - v)| + 13) * ((v - 0) * (4 - v) / (4 - 0)))) [1] w :=
  C98_two_sided binary64_sane binary64_accurate binary64_logAccurate (s := [1]) (lb := .int 0) (ub := .int 4) (dv := true) (fd := none)
    (mkNumeric_ok.mpr ⟨rfl, by simp [PyNum.toFlt, Flt.lt, NotNaN]⟩) (a := 0) (b := 4) (by simp [PyNum.toFlt]) (by simp [PyNum.toFlt])
    binary64_sane.zero_machine (by simpa using binary64_int_machine (m := 4) (by norm_num))
    (two_le_big (by norm_num) (by norm_num)) (two_le_big (by norm_num) (by norm_num)) (x := [1]) rfl (by
      intro v hv
      obtain rfl : v = 1 := by simpa using hv
      exact ⟨binary64_sane.one_machine, two_le_big (by norm_num) (by norm_num), big_le_one (by norm_num) (by norm_num),
        big_le_one (by norm_num) (by norm_num)⟩) none

/-! ### Free vectors -/

/-- **C98, free vectors and lower bounds.**  Flattening the folded value gives each free entry `t` back up to
`2 ** -53 * (2 * |t| + 10 + 3 * |lb| * exp (-t))`: the closer the value is to a bound that is not zero, the worse. -/
theorem C98_free_lower (hA : A.Sane) (hB : A.Accurate) (hL : A.LogAccurate) {p : Pattern} {s : List Nat} {lb ub : PyNum} {dv : Bool} {fd : Option Bool}
    (hp : mkNumericArray s lb ub dv fd = .ok p) {a : ℝ} (hlb : lb.toFlt = .fin a) (hub : ub.toFlt = .pinf) (ha : A.Machine (.fin a))
    (ha' : |a| ≤ 2 ^ (1000 : ℤ)) {t : List ℝ} (ht : t.length = s.prod)
    (h : ∀ u ∈ t, |u| ≤ 690 ∧ |a| ≤ 2 ^ 40 * Real.exp u) (vv : Option Bool) :
    ∃ w y : List ℝ, p.foldFreeA A (vec (t.map .fin)) = .ok (.arr ⟨s, w.map .fin⟩) ∧
      p.flattenFreeA A (.arr ⟨s, w.map .fin⟩) vv = .ok (vec (y.map .fin)) ∧
      List.Forall₂ (fun u u' => |u' - u| ≤ 2 ^ (-53 : ℤ) * (2 * |u| + 10 + 3 * (|a| * Real.exp (-u)))) t y := by
  refine free_trip hp ht vv fun u hu => ?_
  obtain ⟨h1, h2⟩ := h u hu
  obtain ⟨w, y, g1, g2, g3⟩ := Arith.lower_free_trip hA hB hL ha ha' h1 h2
  refine ⟨w, y, by rw [hlb, hub, g1], by rw [hlb, hub, g2], by rwa [Arith.uRound_val], ?_⟩
  have h5 := hA.constrain_one_sided (lb := .fin a) (ub := .pinf) (y := .fin u) ha rfl rfl (Or.inr rfl) trivial
  rw [g1] at h5
  rw [hlb, hub]
  exact ⟨not_lt_of_nan_or_le (Or.inr h5.2.1), not_gt_of_nan_or_le (Or.inr h5.2.2)⟩

/-- **C98, free vectors and upper bounds.**  The same with an upper bound only. -/
theorem C98_free_upper (hA : A.Sane) (hB : A.Accurate) (hL : A.LogAccurate) {p : Pattern} {s : List Nat} {lb ub : PyNum} {dv : Bool} {fd : Option Bool}
    (hp : mkNumericArray s lb ub dv fd = .ok p) {b : ℝ} (hlb : lb.toFlt = .ninf) (hub : ub.toFlt = .fin b) (hb : A.Machine (.fin b))
    (hb' : |b| ≤ 2 ^ (1000 : ℤ)) {t : List ℝ} (ht : t.length = s.prod)
    (h : ∀ u ∈ t, A.Machine (.fin u) ∧ |u| ≤ 690 ∧ |b| ≤ 2 ^ 40 * Real.exp (-u)) (vv : Option Bool) :
    ∃ w y : List ℝ, p.foldFreeA A (vec (t.map .fin)) = .ok (.arr ⟨s, w.map .fin⟩) ∧
      p.flattenFreeA A (.arr ⟨s, w.map .fin⟩) vv = .ok (vec (y.map .fin)) ∧
      List.Forall₂ (fun u u' => |u' - u| ≤ 2 ^ (-53 : ℤ) * (2 * |u| + 10 + 3 * (|b| * Real.exp u))) t y := by
  refine free_trip hp ht vv fun u hu => ?_
  obtain ⟨h0, h1, h2⟩ := h u hu
  obtain ⟨w, y, g1, g2, g3⟩ := Arith.upper_free_trip hA hB hL hb h0 hb' h1 h2
  refine ⟨w, y, by rw [hlb, hub, g1], by rw [hlb, hub, g2], by rwa [Arith.uRound_val], ?_⟩
  have h5 := hA.constrain_one_sided (lb := .ninf) (ub := .fin b) (y := .fin u) rfl hb rfl (Or.inl rfl) trivial
  rw [g1] at h5
  rw [hlb, hub]
  exact ⟨not_lt_of_nan_or_le (Or.inr h5.2.1), not_gt_of_nan_or_le (Or.inr h5.2.2)⟩

/-- **C98, lost free values.**  All free values `t` with `exp t <= 2 ** -57 * |bound|` fold to the bound itself, so that they cannot be told apart;
the folded value is accepted and flattens to `-inf`. -/
theorem C98_lost_lower (hA : A.Sane) (hB : A.Accurate) (hL : A.LogAccurate) {p : Pattern} {s : List Nat} {lb ub : PyNum} {dv : Bool} {fd : Option Bool}
    (hp : mkNumericArray s lb ub dv fd = .ok p) {a : ℝ} (hlb : lb.toFlt = .fin a) (hub : ub.toFlt = .pinf) (ha : A.Machine (.fin a))
    (ha1 : 2 ^ (-1000 : ℤ) ≤ |a|) (ha2 : |a| ≤ 2 ^ (1000 : ℤ)) {t : List ℝ} (ht : t.length = s.prod)
    (h : ∀ u ∈ t, Real.exp u ≤ 2 ^ (-57 : ℤ) * |a|) (vv : Option Bool) :
    p.foldFreeA A (vec (t.map .fin)) = .ok (.arr ⟨s, List.replicate s.prod (.fin a)⟩) ∧
      p.flattenFreeA A (.arr ⟨s, List.replicate s.prod (.fin a)⟩) vv = .ok (vec (List.replicate s.prod .ninf)) := by
  have hun : unconstrain1A A (.fin a) .pinf (.fin a) = .ninf := by
    have : A.sub (.fin a) (.fin a) = .fin 0 := by rw [Arith.sub, sub_fin, sub_self]; exact hA.zero
    simp only [unconstrain1A, Flt.eq, if_true, this, hL.zero, Bool.false_eq_true, if_false]
  constructor
  · rw [numeric_fold_round hp (by rw [List.length_map, ht])]
    congr 3
    rw [List.eq_replicate_iff]
    refine ⟨by simp [ht], ?_⟩
    intro z hz
    obtain ⟨y, hy, rfl⟩ := List.mem_map.mp hz
    obtain ⟨u, hu, rfl⟩ := List.mem_map.mp hy
    rw [hlb, hub]
    exact (Arith.lower_lost hA hB hL ha ha1 ha2 (h u hu)).1
  · rw [numeric_flatten_round hp vv (by
      intro z hz; rw [List.eq_of_mem_replicate hz, hlb, hub]; simp [Flt.lt, Flt.gt]), List.map_replicate, hlb, hub, hun]

/-- Above 1 the free value -100 is lost in binary64, whereas 2 comes back. -/
example : (Pattern.numeric .array [1] (.int 1) (.flt .pinf) true none).foldFreeA binary64 (vec [.fin (-100)]) = .ok (.arr ⟨[1], [.fin 1]⟩) ∧
    (Pattern.numeric .array [1] (.int 1) (.flt .pinf) true none).flattenFreeA binary64 (.arr ⟨[1], [.fin 1]⟩) none = .ok (vec [.ninf]) ∧
    ∃ w y : List ℝ, (Pattern.numeric .array [1] (.int 1) (.flt .pinf) true none).foldFreeA binary64 (vec ([2].map .fin)) = .ok (.arr ⟨[1], w.map .fin⟩) ∧
      (Pattern.numeric .array [1] (.int 1) (.flt .pinf) true none).flattenFreeA binary64 (.arr ⟨[1], w.map .fin⟩) none = .ok (vec (y.map .fin)) ∧
      List.Forall₂ (fun u u' => |u' - u| ≤ 2 ^ (-53 : ℤ) * (2 * |u| + 10 + 3 * (|1| * Real.exp (-u)))) [2] y := by
  have hp : mkNumericArray [1] (.int 1) (.flt .pinf) true none = .ok (Pattern.numeric .array [1] (.int 1) (.flt .pinf) true none) :=
    mkNumeric_ok.mpr ⟨rfl, by simp [PyNum.toFlt, Flt.lt]⟩
  have h1 : |(1:ℝ)| ≤ 2 ^ (1000 : ℤ) := two_le_big (by norm_num) (by norm_num)
  obtain ⟨a1, a2⟩ := C98_lost_lower binary64_sane binary64_accurate binary64_logAccurate hp (a := 1) (by simp [PyNum.toFlt]) rfl
    binary64_sane.one_machine (big_le_one (by norm_num) (by norm_num)) h1 (t := [-100]) rfl (by
      intro u hu
      obtain rfl : u = -100 := by simpa using hu
      have h3 : Real.exp 40 ≤ Real.exp 100 := Real.exp_le_exp.mpr (by norm_num)
      have h4 := Arith.exp_forty
      have h5 : (2:ℝ) ^ (57 : ℤ) ≤ Real.exp 100 := by
        have e : Real.exp 100 = Real.exp 40 * Real.exp 60 := by rw [← Real.exp_add]; norm_num
        have h6 : 2 ≤ Real.exp 60 := by have := Real.add_one_le_exp (60:ℝ); linarith
        rw [e, show (57 : ℤ) = 56 + 1 by norm_num, zpow_add₀ (by norm_num), zpow_one]
        exact mul_le_mul h4 h6 (by norm_num) (Real.exp_pos _).le
      rw [Real.exp_neg, abs_one, mul_one, zpow_neg]
      exact inv_anti₀ (by positivity) h5) none
  refine ⟨a1, a2, C98_free_lower binary64_sane binary64_accurate binary64_logAccurate hp (a := 1) (by simp [PyNum.toFlt]) rfl
    binary64_sane.one_machine h1 (t := [2]) rfl ?_ none⟩
  intro u hu
  obtain rfl : u = 2 := by simpa using hu
  have := Real.add_one_le_exp (2:ℝ)
  exact ⟨by norm_num, by rw [abs_one]; nlinarith⟩

/-- **C98, lost free values, upper bounds.** -/
theorem C98_lost_upper (hA : A.Sane) (hB : A.Accurate) (hL : A.LogAccurate) {p : Pattern} {s : List Nat} {lb ub : PyNum} {dv : Bool} {fd : Option Bool}
    (hp : mkNumericArray s lb ub dv fd = .ok p) {b : ℝ} (hlb : lb.toFlt = .ninf) (hub : ub.toFlt = .fin b) (hb : A.Machine (.fin b))
    (hb1 : 2 ^ (-1000 : ℤ) ≤ |b|) (hb2 : |b| ≤ 2 ^ (1000 : ℤ)) {t : List ℝ} (ht : t.length = s.prod)
    (h : ∀ u ∈ t, A.Machine (.fin u) ∧ Real.exp (-u) ≤ 2 ^ (-57 : ℤ) * |b|) (vv : Option Bool) :
    p.foldFreeA A (vec (t.map .fin)) = .ok (.arr ⟨s, List.replicate s.prod (.fin b)⟩) ∧
      p.flattenFreeA A (.arr ⟨s, List.replicate s.prod (.fin b)⟩) vv = .ok (vec (List.replicate s.prod .pinf)) := by
  have hun : unconstrain1A A .ninf (.fin b) (.fin b) = .pinf := by
    have : A.sub (.fin b) (.fin b) = .fin 0 := by rw [Arith.sub, sub_fin, sub_self]; exact hA.zero
    simp only [unconstrain1A, Flt.eq, if_true, this, hL.zero, Bool.false_eq_true, if_false]
    simp [Arith.mul, Arith.round, HMul.hMul, Mul.mul, Flt.mul, Flt.scaleInf]
  constructor
  · rw [numeric_fold_round hp (by rw [List.length_map, ht])]
    congr 3
    rw [List.eq_replicate_iff]
    refine ⟨by simp [ht], ?_⟩
    intro z hz
    obtain ⟨y, hy, rfl⟩ := List.mem_map.mp hz
    obtain ⟨u, hu, rfl⟩ := List.mem_map.mp hy
    rw [hlb, hub]
    exact (Arith.upper_lost hA hB hL hb (h u hu).1 hb1 hb2 (h u hu).2).1
  · rw [numeric_flatten_round hp vv (by
      intro z hz; rw [List.eq_of_mem_replicate hz, hlb, hub]; simp [Flt.lt, Flt.gt]), List.map_replicate, hlb, hub, hun]

end Paragami
