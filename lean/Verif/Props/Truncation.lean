import Verif.Model.Truncation
import Verif.Proofs.Optimization

/-! # C81: truncating complex and integer eigenvalues -/

namespace Paragami
open Optimization

/-- **C81, floats.**  On float arrays this is the function of C51, errors included. -/
theorem C81_float (d : List ℝ) (lo hi : Option Threshold) :
    truncateAny (.float d) lo hi = (truncate d lo hi).map .float := by
  unfold truncateAny truncate truncateIn
  rcases lo with _ | lo <;> rcases hi with _ | hi <;>
    simp only [Mem.alloc, Mem.read, bind, Except.bind, pure, Except.pure, List.getD_cons_zero, List.cons_append, List.nil_append,
      List.length_cons, List.length_nil, Nat.zero_add, List.getD_cons_succ, Mem.write, EvArray.setWhere, raiseTo, lowerTo]
  · rfl
  · cases hi.toFloat "ev_max must be real-valued." <;> rfl
  · cases lo.toFloat "ev_min must be real-valued." <;> rfl
  · cases lo.toFloat "ev_min must be real-valued." <;> cases hi.toFloat "ev_max must be real-valued." <;> rfl

open Classical in
/-- **C81, complex numbers.**  An entry whose real part is strictly between the thresholds is kept, imaginary part included; any other becomes
the real number that clamping its real part gives. -/
theorem C81_complex (l : List ℂ) (lo hi : Option ℝ) :
    ∃ r : List ℂ, truncateAny (.complex l) (lo.map .real) (hi.map .real) = .ok (.complex r) ∧ r.length = l.length ∧
      ∀ (i : Nat) (z w : ℂ), l[i]? = some z → r[i]? = some w →
        w.re = Spec.clamp lo hi z.re ∧
        w = if (∀ a ∈ lo, a < z.re) ∧ ∀ b ∈ hi, z.re < b then z else (Spec.clamp lo hi z.re : ℂ) := by
  have fin : ∀ (r : List ℂ), (∃ g : ℂ → ℂ, r = l.map g ∧ ∀ z, (g z).re = Spec.clamp lo hi z.re ∧
      g z = if (∀ a ∈ lo, a < z.re) ∧ ∀ b ∈ hi, z.re < b then z else (Spec.clamp lo hi z.re : ℂ)) → r.length = l.length ∧
      ∀ (i : Nat) (z w : ℂ), l[i]? = some z → r[i]? = some w →
        w.re = Spec.clamp lo hi z.re ∧
        w = if (∀ a ∈ lo, a < z.re) ∧ ∀ b ∈ hi, z.re < b then z else (Spec.clamp lo hi z.re : ℂ) := by
    rintro r ⟨g, rfl, hg⟩
    refine ⟨List.length_map .., fun i z w hz hw => ?_⟩
    rw [List.getElem?_map, hz] at hw
    cases hw
    exact hg z
  rcases lo with _ | a <;> rcases hi with _ | b
  · refine ⟨l, rfl, fin l ⟨id, by simp, fun z => ?_⟩⟩
    simp [Spec.clamp]
  · refine ⟨_, rfl, fin _ ⟨_, rfl, fun z => ?_⟩⟩
    by_cases h : z.re < b
    · simp [Spec.clamp, h, not_le.mpr h, h.le]
    · simp [Spec.clamp, h, not_lt.mp h]
  · refine ⟨_, rfl, fin _ ⟨_, rfl, fun z => ?_⟩⟩
    by_cases h : a < z.re
    · simp [Spec.clamp, h, not_le.mpr h, h.le]
    · simp [Spec.clamp, h, not_lt.mp h]
  · refine ⟨_, rfl, fin _ ⟨_, by rw [List.map_map], fun z => ?_⟩⟩
    by_cases h : a < z.re
    · by_cases h' : z.re < b
      · simp [Spec.clamp, h, not_le.mpr h, h.le, h', not_le.mpr h', h'.le]
      · simp [Spec.clamp, h, not_le.mpr h, h.le, h', not_lt.mp h']
    · by_cases h' : a < b
      · simp [Spec.clamp, h, not_lt.mp h, not_le.mpr h', h'.le]
      · simp [Spec.clamp, h, not_lt.mp h, not_lt.mp h']

theorem truncToZero_int (k : ℤ) : truncToZero (k : ℝ) = k := by unfold truncToZero; split <;> simp

/-- **C81, integer thresholds.**  Truncating an integer array at integer thresholds is clamping. -/
theorem C81_int_exact (l : List ℤ) (a b : ℤ) (ha : FitsInt64 a) (hb : FitsInt64 b) :
    truncateAny (.int l) (some (.real a)) (some (.real b)) = .ok (.int (l.map fun k => min (max k a) b)) := by
  simp only [truncateAny, bind, Except.bind, Threshold.toFloat, EvArray.setWhere, ha, hb, true_or, if_true, List.map_map, truncToZero_int,
    Except.ok.injEq, EvArray.int.injEq]
  refine List.map_congr_left fun k _ => ?_
  simp only [Function.comp_apply, ge_iff_le, Int.cast_le]
  by_cases h : k ≤ a
  · rw [if_pos h, max_eq_right h]
    by_cases h' : b ≤ a
    · rw [if_pos h', min_eq_right h']
    · rw [if_neg h', min_eq_left (by omega)]
  · rw [if_neg h, max_eq_left (by omega)]
    by_cases h' : b ≤ k
    · rw [if_pos h', min_eq_right h']
    · rw [if_neg h', min_eq_left (by omega)]

theorem le_truncToZero {t : ℝ} : t ≤ truncToZero t ↔ t < 0 ∨ ∃ k : ℤ, t = k := by
  unfold truncToZero
  split
  · next h =>
    constructor
    · intro h'
      exact .inr ⟨⌊t⌋, le_antisymm h' (Int.floor_le t)⟩
    · rintro (h' | ⟨k, rfl⟩)
      · exact absurd h (not_le.mpr h')
      · simp
  · next h => exact ⟨fun _ => .inl (not_le.mp h), fun _ => Int.le_ceil t⟩

theorem truncToZero_le {t : ℝ} : (truncToZero t : ℝ) ≤ t ↔ 0 ≤ t ∨ ∃ k : ℤ, t = k := by
  unfold truncToZero
  split
  · next h => exact ⟨fun _ => .inl h, fun _ => Int.floor_le t⟩
  · next h =>
    constructor
    · intro h'
      exact .inr ⟨⌈t⌉, le_antisymm (Int.le_ceil t) h'⟩
    · rintro (h' | ⟨k, rfl⟩)
      · exact absurd h' h
      · simp

/-- **C81, the lower threshold on integers.**  Entries above the threshold are kept, the others become the threshold rounded towards zero.  So
the result respects the threshold exactly if nothing had to be truncated, or the threshold is negative or an integer; it is never off by
one or more. -/
theorem C81_int_lower (l : List ℤ) {t : ℝ} (ht : FitsInt64 t) :
    ∃ r : List ℤ, truncateAny (.int l) (some (.real t)) none = .ok (.int r) ∧
      (∀ (i : Nat) (k : ℤ), l[i]? = some k → ∃ m, r[i]? = some m ∧ (t < k → m = k) ∧ ((k : ℝ) ≤ t → m = truncToZero t)) ∧
      ((∀ m ∈ r, t ≤ (m : ℝ)) ↔ (∀ k ∈ l, t < (k : ℝ)) ∨ t < 0 ∨ ∃ k : ℤ, t = k) ∧ ∀ m ∈ r, t - 1 < (m : ℝ) := by
  classical
  have e : truncateAny (.int l) (some (.real t)) none = .ok (.int (l.map fun k : ℤ => if (k : ℝ) ≤ t then truncToZero t else k)) := by
    simp [truncateAny, bind, Except.bind, Threshold.toFloat, EvArray.setWhere, ht, pure, Except.pure]
  have hgt : t - 1 < (truncToZero t : ℝ) := by
    unfold truncToZero
    split
    · exact Int.sub_one_lt_floor t
    · linarith [Int.le_ceil t]
  refine ⟨_, e, fun i k hk => ⟨if (k : ℝ) ≤ t then truncToZero t else k, by simp [hk], fun h => by simp [not_le.mpr h], fun h => by simp [h]⟩,
    ?_, ?_⟩
  · constructor
    · intro h
      by_contra hn
      push Not at hn
      obtain ⟨⟨k, hk, hkt⟩, h0, hi⟩ := hn
      have := h (truncToZero t) (List.mem_map.mpr ⟨k, hk, by simp [hkt]⟩)
      rcases le_truncToZero.mp this with h' | ⟨k, h'⟩
      · linarith
      · exact hi k h'
    · rintro h m hm
      obtain ⟨k, hk, rfl⟩ := List.mem_map.mp hm
      split
      · next hkt =>
        rcases h with h | h
        · exact absurd hkt (not_le.mpr (h k hk))
        · exact le_truncToZero.mpr h
      · next hkt => exact (not_le.mp hkt).le
  · intro m hm
    obtain ⟨k, hk, rfl⟩ := List.mem_map.mp hm
    split
    · exact hgt
    · next hkt => linarith [not_le.mp hkt]

/-- **C81, the upper threshold on integers.**  The mirror image: rounding towards zero goes the wrong way if the threshold is negative. -/
theorem C81_int_upper (l : List ℤ) {t : ℝ} (ht : FitsInt64 t) :
    ∃ r : List ℤ, truncateAny (.int l) none (some (.real t)) = .ok (.int r) ∧
      (∀ (i : Nat) (k : ℤ), l[i]? = some k → ∃ m, r[i]? = some m ∧ ((k : ℝ) < t → m = k) ∧ (t ≤ (k : ℝ) → m = truncToZero t)) ∧
      ((∀ m ∈ r, (m : ℝ) ≤ t) ↔ (∀ k ∈ l, (k : ℝ) < t) ∨ 0 ≤ t ∨ ∃ k : ℤ, t = k) ∧ ∀ m ∈ r, (m : ℝ) < t + 1 := by
  classical
  have e : truncateAny (.int l) none (some (.real t)) = .ok (.int (l.map fun k : ℤ => if (k : ℝ) ≥ t then truncToZero t else k)) := by
    simp [truncateAny, bind, Except.bind, Threshold.toFloat, EvArray.setWhere, ht, pure, Except.pure]
  have hlt : (truncToZero t : ℝ) < t + 1 := by
    unfold truncToZero
    split
    · linarith [Int.floor_le t]
    · exact Int.ceil_lt_add_one t
  refine ⟨_, e, fun i k hk => ⟨if (k : ℝ) ≥ t then truncToZero t else k, by simp [hk], fun h => by simp [not_le.mpr h], fun h => by simp [h]⟩,
    ?_, ?_⟩
  · constructor
    · intro h
      by_contra hn
      push Not at hn
      obtain ⟨⟨k, hk, hkt⟩, h0, hi⟩ := hn
      have := h (truncToZero t) (List.mem_map.mpr ⟨k, hk, by simp [hkt]⟩)
      rcases truncToZero_le.mp this with h' | ⟨k, h'⟩
      · linarith
      · exact hi k h'
    · rintro h m hm
      obtain ⟨k, hk, rfl⟩ := List.mem_map.mp hm
      split
      · next hkt =>
        rcases h with h | h
        · exact absurd hkt (not_le.mpr (h k hk))
        · exact truncToZero_le.mpr h
      · next hkt => exact (not_le.mp hkt).le
  · intro m hm
    obtain ⟨k, hk, rfl⟩ := List.mem_map.mp hm
    split
    · exact hlt
    · next hkt => linarith [not_le.mp hkt]

/-- The eigenvalues `[1, 2, 3]` with `ev_min=1.5`: nothing changes, and the first one stays below the threshold. -/
example : truncateAny (.int [1, 2, 3]) (some (.real 1.5)) none = .ok (.int [1, 2, 3]) ∧ FitsInt64 1.5 := by
  have hf : FitsInt64 1.5 := by constructor <;> norm_num
  refine ⟨?_, hf⟩
  have ht : truncToZero 1.5 = 1 := by
    unfold truncToZero
    rw [if_pos (by norm_num), Int.floor_eq_iff]; norm_num
  simp only [truncateAny, bind, Except.bind, Threshold.toFloat, EvArray.setWhere, hf, true_or, if_true, pure, Except.pure, ht, List.map_cons,
    List.map_nil]
  norm_num

/-- A complex eigenvalue that is cut loses its imaginary part, one that is kept does not. -/
example : truncateAny (.complex [⟨-1, 2⟩, ⟨3, 5⟩]) (some (.real 0)) (some (.real 4)) = .ok (.complex [0, ⟨3, 5⟩]) := by
  simp only [truncateAny, bind, Except.bind, Threshold.toFloat, EvArray.setWhere, List.map_cons, List.map_nil]
  norm_num

end Paragami
