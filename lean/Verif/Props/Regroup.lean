import Verif.Proofs.Regroup
import Verif.Proofs.Built

/-! # Arrays of arrays (C75) -/

set_option linter.unusedSimpArgs false

namespace Paragami
open NDArray Pattern

theorem mkArray_eq {s : List Nat} {base p : Pattern} {fd} (h : mkArray s base fd = .ok p) :
    p = .array s base fd ∧ base.isDict = false ∧ s ≠ [] := by
  unfold mkArray at h
  split at h
  · simp at h
  · next hd =>
    split at h
    · simp at h
    · next hs => exact ⟨by simpa using h.symm, by simpa using hd, hs⟩

theorem mkNumeric_eq {c s lb ub dv fd} {p : Pattern} (h : mkNumeric c s lb ub dv fd = .ok p) :
    p = .numeric c s lb ub dv fd := by
  simp only [mkNumeric, bind, Except.bind, throw, throwThe, MonadExceptOf.throw, pure, Except.pure] at h
  repeat' (split at h <;> try (simp at h; done))
  all_goals simpa using h.symm

theorem mkSimplex_eq {k s dv fd} {p : Pattern} (h : mkSimplex k s dv fd = .ok p) : p = .simplex k.toNat s dv fd := by
  unfold mkSimplex at h
  split at h
  · simp at h
  · simpa using h.symm

/-- **C75, arrays of arrays.**  `PatternArray(s, PatternArray(t, base))` and `PatternArray(s + t, base)` cannot be told
apart by folding, flattening, validating, flat positions, lengths or the empty value. -/
theorem C75_array_of_arrays {base inner outer flat : Pattern} {s t : List Nat} {fd1 fd2 fd3 : Option Bool} (hb : Built base)
    (h1 : mkArray t base fd1 = .ok inner) (h2 : mkArray s inner fd2 = .ok outer)
    (h3 : mkArray (s ++ t) base fd3 = .ok flat) : Spec.SameApi outer flat := by
  obtain ⟨rfl, hd, ht⟩ := mkArray_eq h1
  obtain ⟨rfl, _, hs⟩ := mkArray_eq h2
  obtain ⟨rfl, _, _⟩ := mkArray_eq h3
  exact sameApi_array hb.wf hd hs ht

/-- Two rows of three 2x2 matrices, nested and at once. -/
example : Spec.SameApi (.array [2] (.array [3] (.psd 2 (.int 1) true none) none) none)
    (.array [2, 3] (.psd 2 (.int 1) true none) none) :=
  C75_array_of_arrays (base := .psd 2 (.int 1) true none) (s := [2]) (t := [3]) (fd1 := none) (fd2 := none) (fd3 := none)
    (Pattern.WF.built _ (by simp [Pattern.WF, PyNum.toFlt, Flt.lt])) rfl rfl rfl

/-- **C75, arrays of numeric arrays.**  A non-empty `PatternArray(s, NumericArrayPattern(t, ...))` is
`NumericArrayPattern(s + t, ...)`. -/
theorem C75_array_of_numeric {inner outer flat : Pattern} {s t : List Nat} {lb ub : PyNum} {dv : Bool}
    {fd1 fd2 fd3 : Option Bool} (h1 : mkNumericArray t lb ub dv fd1 = .ok inner) (h2 : mkArray s inner fd2 = .ok outer)
    (h3 : mkNumericArray (s ++ t) lb ub dv fd3 = .ok flat) (h0 : 0 ∉ s) : Spec.SameApi outer flat := by
  have w2 := (Built.array (.numericArray h1) h2).wf
  have w3 := (Built.numericArray h3).wf
  obtain rfl := mkNumeric_eq h1
  obtain rfl := mkNumeric_eq h3
  obtain ⟨rfl, _, hs⟩ := mkArray_eq h2
  exact sameApi_numeric w2 w3 (Nat.pos_of_ne_zero fun h => h0 (List.prod_eq_zero_iff.mp h))

/-- Two rows of three positive numbers. -/
example : Spec.SameApi (.array [2] (.numeric .array [3] (.int 0) (.flt .pinf) true none) none)
    (.numeric .array [2, 3] (.int 0) (.flt .pinf) true none) :=
  C75_array_of_numeric (s := [2]) (t := [3]) (lb := .int 0) (ub := .flt .pinf) (dv := true) (fd1 := none) (fd3 := none)
    (mkNumeric_ok.mpr ⟨rfl, by simp [PyNum.toFlt, Flt.lt]⟩) rfl
    (mkNumeric_ok.mpr ⟨rfl, by simp [PyNum.toFlt, Flt.lt]⟩) (by simp)

/-- **C75, arrays of simplexes.**  A non-empty `PatternArray(s, SimplexArrayPattern(k, t))` is
`SimplexArrayPattern(k, s + t)`; in particular `t = ()` gives the array of single simplexes. -/
theorem C75_array_of_simplexes {inner outer flat : Pattern} {s t : List Nat} {k : ℤ} {dv : Bool}
    {fd1 fd2 fd3 : Option Bool} (h1 : mkSimplex k t dv fd1 = .ok inner) (h2 : mkArray s inner fd2 = .ok outer)
    (h3 : mkSimplex k (s ++ t) dv fd3 = .ok flat) (h0 : 0 ∉ s) : Spec.SameApi outer flat := by
  have w2 := (Built.array (.simplex h1) h2).wf
  have w3 := (Built.simplex h3).wf
  obtain rfl := mkSimplex_eq h1
  obtain rfl := mkSimplex_eq h3
  obtain ⟨rfl, _, hs⟩ := mkArray_eq h2
  exact sameApi_simplex w2 w3 (Nat.pos_of_ne_zero fun h => h0 (List.prod_eq_zero_iff.mp h))

/-- Two simplexes of three. -/
example : Spec.SameApi (.array [2] (.simplex 3 [] true none) none) (.simplex 3 [2] true none) :=
  C75_array_of_simplexes (k := 3) (s := [2]) (t := []) (dv := true) (fd1 := none) (fd2 := none) (fd3 := none)
    rfl rfl rfl (by simp)

/-- **C75, empty arrays.**  The exception: an array of patterns with a zero dimension never flattens, while the numeric or
simplex pattern of the same shape does. -/
theorem C75_zero_dimension {base outer : Pattern} {s : List Nat} {fd : Option Bool} (hb : Built base)
    (h : mkArray s base fd = .ok outer) (h0 : 0 ∈ s) (v : Val Flt) (hv : v.WF) (free : Bool) (vv : Option Bool) :
    ∃ e, outer.flatten v (some free) vv = .error e := by
  have hw := (Built.array hb h).wf
  obtain ⟨rfl, hd, _⟩ := mkArray_eq h
  have hp : s.prod = 0 := List.prod_eq_zero h0
  cases hr : (Pattern.array s base fd).flatten v (some free) vv with
  | error e => exact ⟨e, rfl⟩
  | ok x =>
    exfalso
    cases free
    · simp only [Pattern.flatten, freeWithDefault, bind, Except.bind, Bool.false_eq_true, if_false] at hr
      rw [flattenNF_iff hw rfl hv] at hr
      have := hr.2.1
      simp only [NoEmpty, hp] at this
      omega
    · simp only [Pattern.flatten, freeWithDefault, bind, Except.bind, if_true] at hr
      rw [flattenFree_array_iff hb.wf hv] at hr
      omega

/-- No rows of three numbers: the array refuses to flatten its only value; the numeric pattern returns the empty vector. -/
example : (∃ e, (Pattern.array [0] (.numeric .array [3] (.int 0) (.flt .pinf) true none) none).flatten
      (.arr ⟨[0, 3], []⟩) (some true) = .error e) ∧
    (Pattern.numeric .array [0, 3] (.int 0) (.flt .pinf) true none).flatten (.arr ⟨[0, 3], []⟩) (some true) =
      .ok (vec []) :=
  ⟨C75_zero_dimension (base := .numeric .array [3] (.int 0) (.flt .pinf) true none) (s := [0]) (fd := none)
      (Pattern.WF.built _ (by simp [Pattern.WF, PyNum.toFlt, Flt.lt])) rfl (by simp) _
      (by simp [Val.WF, NDArray.WF]) _ _, by
    simp only [Pattern.flatten, freeWithDefault, bind, Except.bind, if_true]
    rw [numeric_flattenFree_iff, acc_numeric]
    exact ⟨⟨_, rfl, rfl, by simp⟩, _, rfl, rfl⟩⟩

end Paragami
