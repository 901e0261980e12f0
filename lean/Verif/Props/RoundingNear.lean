import Verif.Props.RoundingTrip

/-!
# C99: how far floating point is from exact arithmetic, for numeric patterns
-/

set_option linter.unusedSimpArgs false

namespace Paragami
open NDArray Pattern Flt

variable {A : Arith}

/-- From one entry to arrays. -/
theorem map_near {f g : Flt → Flt} {R : ℝ → ℝ → ℝ → Prop} (x : List ℝ) (h : ∀ u ∈ x, ∃ w v, f (.fin u) = .fin w ∧ g (.fin u) = .fin v ∧ R u v w) :
    ∃ w v : List ℝ, (x.map Flt.fin).map f = w.map .fin ∧ (x.map Flt.fin).map g = v.map .fin ∧
      List.Forall₂ (fun u (q : ℝ × ℝ) => R u q.1 q.2) x (v.zip w) ∧ v.length = x.length ∧ w.length = x.length := by
  induction x with
  | nil => exact ⟨[], [], rfl, rfl, .nil, rfl, rfl⟩
  | cons u x ih =>
    obtain ⟨w, v, h1, h2, h3⟩ := h u (by simp)
    obtain ⟨ws, vs, g1, g2, g3, g4, g5⟩ := ih fun v hv => h v (by simp [hv])
    refine ⟨w :: ws, v :: vs, ?_, ?_, .cons h3 g3, by simp [g4], by simp [g5]⟩
    · rw [List.map_cons, List.map_cons, h1, g1, List.map_cons]
    · rw [List.map_cons, List.map_cons, h2, g2, List.map_cons]

theorem forall₂_zip {R : ℝ → ℝ → Prop} : ∀ {x v w : List ℝ}, v.length = x.length → w.length = x.length →
    List.Forall₂ (fun _ (q : ℝ × ℝ) => R q.1 q.2) x (v.zip w) → List.Forall₂ R v w := by
  intro x
  induction x with
  | nil => intro v w hv hw _; rw [List.length_eq_zero_iff.mp hv, List.length_eq_zero_iff.mp hw]; exact .nil
  | cons a x ih =>
    intro v w hv hw h
    cases v with
    | nil => simp at hv
    | cons b v =>
      cases w with
      | nil => simp at hw
      | cons c w =>
        rw [List.zip_cons_cons] at h
        cases h with
        | cons h1 h2 => exact .cons h1 (ih (by simpa using hv) (by simpa using hw) h2)

theorem fold_near {p : Pattern} {s : List Nat} {lb ub : PyNum} {dv : Bool} {fd : Option Bool} (hp : mkNumericArray s lb ub dv fd = .ok p)
    {t : List ℝ} (ht : t.length = s.prod) {bound : ℝ → ℝ}
    (h : ∀ u ∈ t, ∃ w v, constrain1A A lb.toFlt ub.toFlt (.fin u) = .fin w ∧ constrain1 lb.toFlt ub.toFlt (.fin u) = .fin v ∧ |w - v| ≤ bound v) :
    ∃ v w : List ℝ, p.fold (vec (t.map .fin)) (some true) = .ok (.arr ⟨s, v.map .fin⟩) ∧
      p.foldFreeA A (vec (t.map .fin)) = .ok (.arr ⟨s, w.map .fin⟩) ∧ List.Forall₂ (fun v w => |w - v| ≤ bound v) v w := by
  obtain ⟨w, v, h1, h2, h3, h4, h5⟩ := map_near (R := fun _ v w => |w - v| ≤ bound v) t h
  refine ⟨v, w, ?_, ?_, forall₂_zip (R := fun v w => |w - v| ≤ bound v) h4 h5 h3⟩
  · rw [← C79_exact, numeric_fold_round hp (by rw [List.length_map, ht]), Arith.exact_constrain1, h2]
  · rw [numeric_fold_round hp (by rw [List.length_map, ht]), h1]

theorem flatten_near {p : Pattern} {s : List Nat} {lb ub : PyNum} {dv : Bool} {fd : Option Bool} (hp : mkNumericArray s lb ub dv fd = .ok p)
    {x : List ℝ} (vv : Option Bool) {bound : ℝ → ℝ → ℝ}
    (hb : ∀ v ∈ x, (Flt.fin v).lt lb.toFlt = false ∧ (Flt.fin v).gt ub.toFlt = false)
    (h : ∀ v ∈ x, ∃ w y, unconstrain1A A lb.toFlt ub.toFlt (.fin v) = .fin w ∧ unconstrain1 lb.toFlt ub.toFlt (.fin v) = .fin y ∧ |w - y| ≤ bound v y) :
    ∃ y w : List ℝ, p.flatten (.arr ⟨s, x.map .fin⟩ : Val Flt) (some true) vv = .ok (vec (y.map .fin)) ∧
      p.flattenFreeA A (.arr ⟨s, x.map .fin⟩) vv = .ok (vec (w.map .fin)) ∧ y.length = x.length ∧ w.length = x.length ∧
      List.Forall₂ (fun v (q : ℝ × ℝ) => |q.2 - q.1| ≤ bound v q.1) x (y.zip w) := by
  obtain ⟨w, y, h1, h2, h3, h4, h5⟩ := map_near (R := fun v y w => |w - y| ≤ bound v y) x h
  have hb' : ∀ z ∈ x.map Flt.fin, z.lt lb.toFlt = false ∧ z.gt ub.toFlt = false := by
    intro z hz; obtain ⟨v, hv, rfl⟩ := List.mem_map.mp hz; exact hb v hv
  refine ⟨y, w, ?_, ?_, h4, h5, h3⟩
  · rw [← C98_exact, numeric_flatten_round hp vv hb', exact_unconstrain1, h2]
  · rw [numeric_flatten_round hp vv hb', h1]

/-! ### Folding -/

/-- **C99, folding above a lower bound.**  The computed fold of a free vector differs from the exact one, entry by entry, by at most
`2 ** -53 * (|v| + 5 * (v - lb))`, where `v` is the exact entry. -/
theorem C99_fold_lower (hA : A.Sane) (hB : A.Accurate) {p : Pattern} {s : List Nat} {lb ub : PyNum} {dv : Bool} {fd : Option Bool}
    (hp : mkNumericArray s lb ub dv fd = .ok p) {a : ℝ} (hlb : lb.toFlt = .fin a) (hub : ub.toFlt = .pinf) (ha : A.Machine (.fin a))
    (ha' : |a| ≤ 2 ^ (1000 : ℤ)) {t : List ℝ} (ht : t.length = s.prod) (h : ∀ u ∈ t, |u| ≤ 690) :
    ∃ v w : List ℝ, p.fold (vec (t.map .fin)) (some true) = .ok (.arr ⟨s, v.map .fin⟩) ∧
      p.foldFreeA A (vec (t.map .fin)) = .ok (.arr ⟨s, w.map .fin⟩) ∧
      List.Forall₂ (fun v w => |w - v| ≤ 2 ^ (-53 : ℤ) * (|v| + 5 * (v - a))) v w := by
  refine fold_near hp ht fun u hu => ?_
  rw [hlb, hub, Arith.uRound_val]
  exact Arith.lower_fold hA hB ha ha' (h u hu)

/-- **C99, folding below an upper bound.** -/
theorem C99_fold_upper (hA : A.Sane) (hB : A.Accurate) {p : Pattern} {s : List Nat} {lb ub : PyNum} {dv : Bool} {fd : Option Bool}
    (hp : mkNumericArray s lb ub dv fd = .ok p) {b : ℝ} (hlb : lb.toFlt = .ninf) (hub : ub.toFlt = .fin b) (hb : A.Machine (.fin b))
    (hb' : |b| ≤ 2 ^ (1000 : ℤ)) {t : List ℝ} (ht : t.length = s.prod) (h : ∀ u ∈ t, A.Machine (.fin u) ∧ |u| ≤ 690) :
    ∃ v w : List ℝ, p.fold (vec (t.map .fin)) (some true) = .ok (.arr ⟨s, v.map .fin⟩) ∧
      p.foldFreeA A (vec (t.map .fin)) = .ok (.arr ⟨s, w.map .fin⟩) ∧
      List.Forall₂ (fun v w => |w - v| ≤ 2 ^ (-53 : ℤ) * (|v| + 5 * (b - v))) v w := by
  refine fold_near hp ht fun u hu => ?_
  rw [hlb, hub, Arith.uRound_val]
  exact Arith.upper_fold hA hB hb (h u hu).1 hb' (h u hu).2

/-- **C99, folding between bounds.**  With two bounds, at most `2 ** -53 * (|v| + 14 * (v - lb))`. -/
theorem C99_fold_two_sided (hA : A.Sane) (hB : A.Accurate) {p : Pattern} {s : List Nat} {lb ub : PyNum} {dv : Bool} {fd : Option Bool}
    (hp : mkNumericArray s lb ub dv fd = .ok p) {a b : ℝ} (hlb : lb.toFlt = .fin a) (hub : ub.toFlt = .fin b) (ha : A.Machine (.fin a))
    (hb : A.Machine (.fin b)) (ha' : |a| ≤ 2 ^ (300 : ℤ)) (hb' : |b| ≤ 2 ^ (300 : ℤ)) (hab : 2 ^ (-200 : ℤ) ≤ b - a)
    {t : List ℝ} (ht : t.length = s.prod) (h : ∀ u ∈ t, |u| ≤ 60) :
    ∃ v w : List ℝ, p.fold (vec (t.map .fin)) (some true) = .ok (.arr ⟨s, v.map .fin⟩) ∧
      p.foldFreeA A (vec (t.map .fin)) = .ok (.arr ⟨s, w.map .fin⟩) ∧
      List.Forall₂ (fun v w => |w - v| ≤ 2 ^ (-53 : ℤ) * (|v| + 14 * (v - a))) v w := by
  refine fold_near hp ht fun u hu => ?_
  rw [hlb, hub, Arith.uRound_val]
  exact Arith.two_sided_fold hA hB ha hb ha' hb' hab (h u hu)

/-- The free values 0 and -3, between 0 and 4 in binary64. -/
example : ∃ v w : List ℝ,
    (Pattern.numeric .array [2] (.int 0) (.int 4) true none).fold (vec ([0, -3].map .fin)) (some true) = .ok (.arr ⟨[2], v.map .fin⟩) ∧
      (Pattern.numeric .array [2] (.int 0) (.int 4) true none).foldFreeA binary64 (vec ([0, -3].map .fin)) = .ok (.arr ⟨[2], w.map .fin⟩) ∧
      List.Forall₂ (fun v w => |w - v| ≤ 2 ^ (-53 : ℤ) * (|v| + 14 * (v - 0))) v w :=
  C99_fold_two_sided binary64_sane binary64_accurate (s := [2]) (lb := .int 0) (ub := .int 4) (dv := true) (fd := none)
    (mkNumeric_ok.mpr ⟨rfl, by simp [PyNum.toFlt, Flt.lt, NotNaN]⟩) (a := 0) (b := 4) (by simp [PyNum.toFlt]) (by simp [PyNum.toFlt])
    binary64_sane.zero_machine (by simpa using binary64_int_machine (m := 4) (by norm_num))
    (two_le_big (by norm_num) (by norm_num)) (two_le_big (by norm_num) (by norm_num)) (big_le_one (by norm_num) (by norm_num)) rfl (by
      intro u hu
      simp only [List.mem_cons, List.not_mem_nil, or_false] at hu
      rcases hu with rfl | rfl <;> norm_num)

/-! ### Flattening -/

/-- **C99, flattening above a lower bound.**  The computed free vector differs from the exact one, entry by entry, by at most
`2 ** -53 * (2 * |y| + 3)`, where `y` is the exact entry. -/
theorem C99_flatten_lower (hB : A.Accurate) (hL : A.LogAccurate) {p : Pattern} {s : List Nat} {lb ub : PyNum} {dv : Bool} {fd : Option Bool}
    (hp : mkNumericArray s lb ub dv fd = .ok p) {a : ℝ} (hlb : lb.toFlt = .fin a) (hub : ub.toFlt = .pinf) (ha : A.Machine (.fin a))
    (ha' : |a| ≤ 2 ^ (1000 : ℤ)) {x : List ℝ}
    (hv : ∀ v ∈ x, A.Machine (.fin v) ∧ |v| ≤ 2 ^ (1000 : ℤ) ∧ 2 ^ (-1000 : ℤ) ≤ v - a) (vv : Option Bool) :
    ∃ y w : List ℝ, p.flatten (.arr ⟨s, x.map .fin⟩ : Val Flt) (some true) vv = .ok (vec (y.map .fin)) ∧
      p.flattenFreeA A (.arr ⟨s, x.map .fin⟩) vv = .ok (vec (w.map .fin)) ∧
      List.Forall₂ (fun y w => |w - y| ≤ 2 ^ (-53 : ℤ) * (2 * |y| + 3)) y w := by
  obtain ⟨y, w, h1, h2, h3, h4, h5⟩ := flatten_near (A := A) (s := s) hp (x := x) vv (bound := fun _ y => Arith.uRound * (2 * |y| + 3)) (by
      intro v h
      have : a < v := by have := lt_of_lt_of_le (two_zpow_pos _) (hv v h).2.2; linarith
      rw [hlb, hub]; simp [Flt.lt, Flt.gt, this.le]) (by
      intro v h
      obtain ⟨h1, h2, h3⟩ := hv v h
      rw [hlb, hub]
      exact Arith.lower_flatten hB hL ha h1 ha' h2 h3)
  rw [Arith.uRound_val]
  exact ⟨y, w, h1, h2, forall₂_zip (R := fun y w => |w - y| ≤ Arith.uRound * (2 * |y| + 3)) h3 h4 h5⟩

/-- **C99, flattening below an upper bound.** -/
theorem C99_flatten_upper (hA : A.Sane) (hB : A.Accurate) (hL : A.LogAccurate) {p : Pattern} {s : List Nat} {lb ub : PyNum} {dv : Bool} {fd : Option Bool}
    (hp : mkNumericArray s lb ub dv fd = .ok p) {b : ℝ} (hlb : lb.toFlt = .ninf) (hub : ub.toFlt = .fin b) (hb : A.Machine (.fin b))
    (hb' : |b| ≤ 2 ^ (1000 : ℤ)) {x : List ℝ}
    (hv : ∀ v ∈ x, A.Machine (.fin v) ∧ |v| ≤ 2 ^ (1000 : ℤ) ∧ 2 ^ (-1000 : ℤ) ≤ b - v) (vv : Option Bool) :
    ∃ y w : List ℝ, p.flatten (.arr ⟨s, x.map .fin⟩ : Val Flt) (some true) vv = .ok (vec (y.map .fin)) ∧
      p.flattenFreeA A (.arr ⟨s, x.map .fin⟩) vv = .ok (vec (w.map .fin)) ∧
      List.Forall₂ (fun y w => |w - y| ≤ 2 ^ (-53 : ℤ) * (2 * |y| + 3)) y w := by
  obtain ⟨y, w, h1, h2, h3, h4, h5⟩ := flatten_near (A := A) (s := s) hp (x := x) vv (bound := fun _ y => Arith.uRound * (2 * |y| + 3)) (by
      intro v h
      have : v < b := by have := lt_of_lt_of_le (two_zpow_pos _) (hv v h).2.2; linarith
      rw [hlb, hub]; simp [Flt.lt, Flt.gt, this.le]) (by
      intro v h
      obtain ⟨h1, h2, h3⟩ := hv v h
      rw [hlb, hub]
      exact Arith.upper_flatten hA hB hL hb h1 hb' h2 h3)
  rw [Arith.uRound_val]
  exact ⟨y, w, h1, h2, forall₂_zip (R := fun y w => |w - y| ≤ Arith.uRound * (2 * |y| + 3)) h3 h4 h5⟩

/-- **C99, flattening between bounds.**  With two bounds the free entry of `v` is off by at most
`2 ** -53 * (3 * |log (v - lb)| + 3 * |log (ub - v)| + 7)`. -/
theorem C99_flatten_two_sided (hB : A.Accurate) (hL : A.LogAccurate) {p : Pattern} {s : List Nat} {lb ub : PyNum} {dv : Bool} {fd : Option Bool}
    (hp : mkNumericArray s lb ub dv fd = .ok p) {a b : ℝ} (hlb : lb.toFlt = .fin a) (hub : ub.toFlt = .fin b) (ha : A.Machine (.fin a))
    (hb : A.Machine (.fin b)) (ha' : |a| ≤ 2 ^ (300 : ℤ)) (hb' : |b| ≤ 2 ^ (300 : ℤ)) {x : List ℝ}
    (hv : ∀ v ∈ x, A.Machine (.fin v) ∧ |v| ≤ 2 ^ (300 : ℤ) ∧ 2 ^ (-300 : ℤ) ≤ v - a ∧ 2 ^ (-300 : ℤ) ≤ b - v) (vv : Option Bool) :
    ∃ y w : List ℝ, p.flatten (.arr ⟨s, x.map .fin⟩ : Val Flt) (some true) vv = .ok (vec (y.map .fin)) ∧
      p.flattenFreeA A (.arr ⟨s, x.map .fin⟩) vv = .ok (vec (w.map .fin)) ∧ y.length = x.length ∧ w.length = x.length ∧
      List.Forall₂ (fun v (q : ℝ × ℝ) => |q.2 - q.1| ≤ 2 ^ (-53 : ℤ) * (3 * |Real.log (v - a)| + 3 * |Real.log (b - v)| + 7)) x (y.zip w) := by
  refine flatten_near hp (x := x) vv (bound := fun v _ => 2 ^ (-53 : ℤ) * (3 * |Real.log (v - a)| + 3 * |Real.log (b - v)| + 7)) ?_ ?_
  · intro v h
    have h1 : a < v := by have := lt_of_lt_of_le (two_zpow_pos _) (hv v h).2.2.1; linarith
    have h2 : v < b := by have := lt_of_lt_of_le (two_zpow_pos _) (hv v h).2.2.2; linarith
    rw [hlb, hub]; simp [Flt.lt, Flt.gt, h1.le, h2.le]
  · intro v h
    obtain ⟨h1, h2, h3, h4⟩ := hv v h
    rw [hlb, hub, Arith.uRound_val]
    exact Arith.two_sided_flatten hB hL ha hb h1 ha' hb' h2 h3 h4

/-- The value 1 between 0 and 4, and above 0, in binary64. -/
example : (∃ y w : List ℝ,
    (Pattern.numeric .array [1] (.int 0) (.int 4) true none).flatten (.arr ⟨[1], [1].map .fin⟩ : Val Flt) (some true) none = .ok (vec (y.map .fin)) ∧
      (Pattern.numeric .array [1] (.int 0) (.int 4) true none).flattenFreeA binary64 (.arr ⟨[1], [1].map .fin⟩) none = .ok (vec (w.map .fin)) ∧
      y.length = 1 ∧ w.length = 1 ∧
      List.Forall₂ (fun v (q : ℝ × ℝ) => |q.2 - q.1| ≤ 2 ^ (-53 : ℤ) * (3 * |Real.log (v - 0)| + 3 * |Real.log (4 - v)| + 7)) [1] (y.zip w)) ∧
    ∃ y w : List ℝ,
    (Pattern.numeric .array [1] (.int 0) (.flt .pinf) true none).flatten (.arr ⟨[1], [1].map .fin⟩ : Val Flt) (some true) none = .ok (vec (y.map .fin)) ∧
      (Pattern.numeric .array [1] (.int 0) (.flt .pinf) true none).flattenFreeA binary64 (.arr ⟨[1], [1].map .fin⟩) none = .ok (vec (w.map .fin)) ∧
      List.Forall₂ (fun y w => |w - y| ≤ 2 ^ (-53 : ℤ) * (2 * |y| + 3)) y w := by
  constructor
  · exact C99_flatten_two_sided binary64_accurate binary64_logAccurate (s := [1]) (lb := .int 0) (ub := .int 4) (dv := true) (fd := none)
      (mkNumeric_ok.mpr ⟨rfl, by simp [PyNum.toFlt, Flt.lt, NotNaN]⟩) (a := 0) (b := 4) (by simp [PyNum.toFlt]) (by simp [PyNum.toFlt])
      binary64_sane.zero_machine (by simpa using binary64_int_machine (m := 4) (by norm_num))
      (two_le_big (by norm_num) (by norm_num)) (two_le_big (by norm_num) (by norm_num)) (x := [1]) (by
        intro v hv
        obtain rfl : v = 1 := by simpa using hv
        exact ⟨binary64_sane.one_machine, two_le_big (by norm_num) (by norm_num), big_le_one (by norm_num) (by norm_num),
          big_le_one (by norm_num) (by norm_num)⟩) none
  · exact C99_flatten_lower binary64_accurate binary64_logAccurate (s := [1]) (lb := .int 0) (ub := .flt .pinf) (dv := true) (fd := none)
      (mkNumeric_ok.mpr ⟨rfl, by simp [PyNum.toFlt, Flt.lt]⟩) (a := 0) (by simp [PyNum.toFlt]) rfl
      binary64_sane.zero_machine (by simp) (x := [1]) (by
        intro v hv
        obtain rfl : v = 1 := by simpa using hv
        exact ⟨binary64_sane.one_machine, two_le_big (by norm_num) (by norm_num), big_le_one (by norm_num) (by norm_num)⟩) none

end Paragami
