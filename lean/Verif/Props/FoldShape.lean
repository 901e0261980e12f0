import Verif.Props.RoundTrip

/-! # C97: folding arrays of any dimension -/

namespace Paragami
open Pattern NDArray

/-- **C97, arrays without axes.**  For every pattern that is not itself a `SimplexArrayPattern`, `fold` of a number or an array without axes is
`fold` of the vector with this one entry. -/
theorem C97_scalar {p : Pattern} (hns : ∀ k s dv fd, p ≠ .simplex k s dv fd) (a : Flt) (b : Bool) (vv : Option Bool) :
    p.fold ⟨[], [a]⟩ (some b) vv = p.fold (vec [a]) (some b) vv := by
  cases b
  · rw [fold_false, fold_false]
    cases p with
    | simplex k s dv fd => exact absurd rfl (hns k s dv fd)
    | numeric c s lb ub dv fd => rfl
    | psd n lb dv fd => rfl
    | array s base fd => rw [foldNF_array_unfold, foldNF_array_unfold]; rfl
    | dict es lk fd => rw [foldNF_dict_unfold, foldNF_dict_unfold]; rfl
  · rw [fold_true, fold_true]
    cases p with
    | simplex k s dv fd => exact absurd rfl (hns k s dv fd)
    | numeric c s lb ub dv fd => rfl
    | psd n lb dv fd => rfl
    | array s base fd => rw [foldFree_array_unfold, foldFree_array_unfold]; rfl
    | dict es lk fd => rw [foldFree_dict_unfold, foldFree_dict_unfold]; rfl

/-- **C97, two axes or more.**  For these patterns an array with two or more axes raises `ValueError`, so that only vectors and numbers are ever
folded, and the result depends on the entries alone. -/
theorem C97_axes {p : Pattern} (hns : ∀ k s dv fd, p ≠ .simplex k s dv fd) {x : NDArray Flt} (hx : x.WF) (b : Bool) (vv : Option Bool) :
    (x.ndim ≤ 1 ∧ p.fold x (some b) vv = p.fold (vec x.data) (some b) vv) ∨ (2 ≤ x.ndim ∧ ∃ msg, p.fold x (some b) vv = .error (.valueError msg)) := by
  obtain ⟨shape, data⟩ := x
  rcases shape with _ | ⟨n, _ | ⟨m, rest⟩⟩
  · left
    have : data.length = 1 := by simpa [NDArray.WF] using hx
    obtain ⟨a, rfl⟩ := List.length_eq_one_iff.1 this
    exact ⟨by simp [ndim], C97_scalar hns a b vv⟩
  · left
    have : data.length = n := by simpa [NDArray.WF] using hx
    subst this
    exact ⟨by simp [ndim], rfl⟩
  · exact .inr ⟨by simp [ndim], C08_fold_rejects_nd_partial hns (by simp [ndim]) b vv⟩

/-- **C97, simplexes.**  `fold` of a `SimplexArrayPattern` raises `TypeError` for an array without axes; an array whose first axis has as many entries as
the array is treated as the vector of its entries; every other array raises `ValueError`. -/
theorem C97_simplex (k : Nat) (s : List Nat) (dv : Bool) (fd : Option Bool) (x : NDArray Flt) (b : Bool) (vv : Option Bool) :
    (x.shape = [] → (Pattern.simplex k s dv fd).fold x (some b) vv = .error .typeError) ∧
    (x.shape.head? = some x.data.length → (Pattern.simplex k s dv fd).fold x (some b) vv = (Pattern.simplex k s dv fd).fold (vec x.data) (some b) vv) ∧
    (x.shape ≠ [] → x.shape.head? ≠ some x.data.length → ∃ msg, (Pattern.simplex k s dv fd).fold x (some b) vv = .error (.valueError msg)) := by
  obtain ⟨shape, data⟩ := x
  cases shape with
  | nil =>
    refine ⟨fun _ => ?_, fun h => by simp at h, fun h => absurd rfl h⟩
    cases b
    · rw [fold_false]; rfl
    · rw [fold_true]; rfl
  | cons n rest =>
    refine ⟨fun h => by simp at h, fun h => ?_, fun _ h => ?_⟩
    · obtain rfl : n = data.length := by simpa using h
      cases b
      · simp only [fold_false, foldNF, Simplex.foldNF, NDArray.len, vec, reshape]
      · simp only [fold_true, foldFree, Simplex.foldFree, NDArray.len, vec, reshape]
    · have hn : n ≠ data.length := by simpa using h
      cases b
      · rw [fold_false]
        by_cases h1 : n = (s ++ [k]).prod
        · have : data.length ≠ (s ++ [k]).prod := fun e => hn (h1.trans e.symm)
          simp only [foldNF, Simplex.foldNF, NDArray.len, reshape, bind, Except.bind, h1, ne_eq, not_true_eq_false, if_false, if_neg this]
          exact ⟨_, rfl⟩
        · simp only [foldNF, Simplex.foldNF, NDArray.len, bind, Except.bind, h1, ne_eq, not_false_eq_true, if_true, throw, throwThe, MonadExceptOf.throw]
          exact ⟨_, rfl⟩
      · rw [fold_true]
        by_cases h1 : n = (s ++ [k - 1]).prod
        · have : data.length ≠ (s ++ [k - 1]).prod := fun e => hn (h1.trans e.symm)
          simp only [foldFree, Simplex.foldFree, NDArray.len, reshape, bind, Except.bind, h1, ne_eq, not_true_eq_false, if_false, if_neg this]
          exact ⟨_, rfl⟩
        · simp only [foldFree, Simplex.foldFree, NDArray.len, bind, Except.bind, h1, ne_eq, not_false_eq_true, if_true, throw, throwThe, MonadExceptOf.throw]
          exact ⟨_, rfl⟩

/-- Non-vacuity: an array of shape `(2, 1)`, one of shape `(1, 2)` and one without axes, for a simplex of size three; a number for a scalar. -/
example :
    (⟨[2, 1], [.fin 0, .fin 1]⟩ : NDArray Flt).shape.head? = some 2 ∧ (⟨[1, 2], [.fin 0, .fin 1]⟩ : NDArray Flt).shape.head? ≠ some 2 ∧
    (Pattern.simplex 3 [] true none).fold ⟨[], [.fin 0]⟩ (some true) none = .error .typeError ∧
    ∀ a : Flt, (Pattern.numeric .scalar [1] (.flt .ninf) (.flt .pinf) true none).fold ⟨[], [a]⟩ (some false) (some false) = .ok (.arr ⟨[1], [a]⟩) := by
  refine ⟨rfl, by simp, (C97_simplex 3 [] true none _ true none).1 rfl, fun a => ?_⟩
  rw [C97_scalar (fun _ _ _ _ => by simp), fold_false]
  rfl

end Paragami
