import Verif.Proofs.User

/-! # C04–C11: round trips, lengths and argument checking for pattern trees of any shape and depth -/

set_option linter.unusedSimpArgs false

namespace Paragami
open Pattern NDArray

/-! ### A running example: a dictionary with a numeric vector, an array of simplexes and a nested dictionary -/

/-- The inner dictionary: one 2×2 matrix and one scalar bounded below. -/
noncomputable def exInner : Pattern :=
  .dict (.cons "m" (.psd 2 (.flt (.fin (1/2))) true none)
    (.cons "s" (.numeric .scalar [1] (.int 0) (.flt .pinf) true none) .nil)) true none
/-- The outer dictionary. -/
noncomputable def exPat : Pattern :=
  .dict (.cons "v" (.numeric .vector [3] (.flt .ninf) (.flt .pinf) true (some false))
    (.cons "a" (.array [2] (.simplex 3 [] true none) none) (.cons "d" exInner .nil))) false (some true)

theorem exPat_wf : exPat.WF := by
  simp [exPat, exInner, Pattern.WF, WFEs, Entries.keys, Entries.toList, lock, isDict, PyNum.toFlt, Flt.lt]

theorem exPat_built : Built exPat := WF.built _ exPat_wf

theorem exPat_noEmpty : exPat.NoEmpty := by
  simp [exPat, exInner, NoEmpty, NoEmptyEs]

theorem exPat_finiteLb : exPat.FiniteLb := by
  simp [exPat, exInner, FiniteLb, FiniteLbEs, PyNum.toFlt]

theorem exPat_lengths : exPat.flatLength (some true) = .ok 11 ∧ exPat.flatLength (some false) = .ok 14 := by
  simp [exPat, exInner, flatLength_some, flatLen, flatLenEs]

/-- **C04.**  For every pattern obtainable through the API, of any nesting depth: if `flatten(v, free=False)` succeeds
then `fold` of the result with `free=False` and the same `validate_value` succeeds and returns `v` restricted to what
the pattern describes (`Spec.canon`: the pattern's keys in the pattern's order, numpy scalars as length-one arrays). -/
theorem C04_nonfree_value {p : Pattern} (hp : Built p) {v : Val Flt} (hv : v.WF) {vv : Option Bool} {x : NDArray Flt}
    (h : p.flatten v (some false) vv = .ok x) : p.fold x (some false) vv = .ok (Spec.canon p v) := by
  rw [flatten_false] at h
  rw [fold_false]
  obtain ⟨hacc, hne⟩ := flattenNF_ok_imp p hp.wf v vv x hv h
  rw [flattenNF_eq p hp.wf v vv hv hne hacc] at h
  cases h
  have hu := unflat_flat p hp.wf v vv hv hacc
  rw [← hu]
  apply foldNF_eq p hp.wf _ vv (length_flat p hp.wf v vv hv hacc)
  rw [hu]
  exact acc_canon p hp.wf v vv hacc

/-- There is a value of the example pattern that flattens in both modes. -/
theorem exPat_value : ∃ (v : Val Flt) (x y : NDArray Flt), v.WF ∧ Spec.Interior exPat v ∧
    exPat.flatten v (some false) none = .ok x ∧ exPat.flatten v (some true) none = .ok y := by
  obtain ⟨v, h1, h2, h3, _, h5⟩ := free_vec exPat exPat_wf exPat_finiteLb (List.replicate 11 0)
    (by simp [exPat, exInner, flatLen, flatLenEs])
  exact ⟨v, _, _, h3, h2, by
    rw [flatten_false]
    exact flattenNF_eq exPat exPat_wf v none h3 exPat_noEmpty (acc_of_interior _ exPat_wf exPat_finiteLb v none h2), by
    rw [flatten_true]; exact h5 exPat_noEmpty none⟩

/-- C04 is not vacuous: the nested example has a value that flattens. -/
example : ∃ (v : Val Flt) (x : NDArray Flt), v.WF ∧ exPat.flatten v (some false) none = .ok x := by
  obtain ⟨v, x, _, h1, _, h2, _⟩ := exPat_value; exact ⟨v, x, h1, h2⟩

/-- **C05.**  For every pattern without an empty container inside: if `fold(x, free=False)` succeeds on a vector `x`
then `flatten` of the result with `free=False` and the same `validate_value` returns exactly `x`. -/
theorem C05_nonfree_vector {p : Pattern} (hp : Built p) (hne : p.NoEmpty) {l : List Flt} {vv : Option Bool} {v : Val Flt}
    (h : p.fold (vec l) (some false) vv = .ok v) : p.flatten v (some false) vv = .ok (vec l) := by
  rw [fold_false] at h
  rw [flatten_false]
  obtain ⟨h1, h2, h3⟩ := foldNF_ok_imp p hp.wf _ vv v h
  rw [vec_data] at h1 h2
  subst h2
  rw [flattenNF_eq p hp.wf _ vv (unflat_wf p hp.wf l h1) hne h3, flat_unflat p hp.wf l h1]

/-- C05 is not vacuous. -/
example : ∃ (l : List Flt) (v : Val Flt), l.length = 14 ∧ exPat.fold (vec l) (some false) none = .ok v := by
  obtain ⟨v, x, _, h1, _, h2, _⟩ := exPat_value
  have h3 := C04_nonfree_value exPat_built h1 h2
  rw [fold_false] at h3
  have h4 := (foldNF_ok_imp exPat exPat_wf _ _ _ h3).1
  have h5 := exPat_lengths.2
  rw [flatLength_some] at h5; injection h5 with h5
  rw [flatten_false] at h2
  obtain ⟨hacc, hne⟩ := flattenNF_ok_imp exPat exPat_wf v none x h1 h2
  rw [flattenNF_eq exPat exPat_wf v none h1 hne hacc] at h2
  cases h2
  exact ⟨_, _, by rw [← h5]; exact h4, by rw [fold_false]; exact h3⟩

/-- **C06.**  Whenever `flatten(v, free)` succeeds, for any way of resolving `free`, `flat_length(free)` is defined and
the result is a one-dimensional array of exactly that length. -/
theorem C06_flatten_length {p : Pattern} (hp : Built p) {v : Val Flt} (hv : v.WF) {free vv : Option Bool}
    {x : NDArray Flt} (h : p.flatten v free vv = .ok x) :
    ∃ n, p.flatLength free = .ok n ∧ x.shape = [n] ∧ x.data.length = n := by
  rcases freeWithDefault_cases p.freeDefault free with ⟨b, _, hb⟩ | ⟨h1, rfl⟩
  · obtain ⟨_, e2, e3⟩ := hb p rfl (vec []) v vv
    rw [e3, flatLength_some]
    rw [e2] at h
    refine ⟨_, rfl, ?_⟩
    cases b
    · rw [flatten_false] at h
      obtain ⟨hacc, hne⟩ := flattenNF_ok_imp p hp.wf v vv x hv h
      rw [flattenNF_eq p hp.wf v vv hv hne hacc] at h
      cases h
      have := length_flat p hp.wf v vv hv hacc
      simp [vec, this]
    · rw [flatten_true] at h
      obtain ⟨_, e, hl⟩ := flattenFree_ok_len p hp.wf v vv x hv h
      rw [e]; simp [vec, hl]
  · simp [Pattern.flatten, freeWithDefault, h1, bind, Except.bind] at h

/-- C06 is not vacuous, in both modes. -/
example : ∃ (v : Val Flt) (x y : NDArray Flt), v.WF ∧ exPat.flatten v (some false) none = .ok x ∧
    exPat.flatten v none none = .ok y := by
  obtain ⟨v, x, y, h1, _, h2, h3⟩ := exPat_value
  exact ⟨v, x, y, h1, h2, h3⟩

/-- **C06, containers.**  The flat length of a dictionary is the sum of its members' flat lengths, and the flat length
of a pattern array is the number of elements times the base pattern's flat length. -/
theorem C06_container_lengths (b : Bool) :
    (∀ es l fd ns, List.Forall₂ (fun (kp : String × Pattern) n => kp.2.flatLength (some b) = .ok n) es.toList ns →
      (Pattern.dict es l fd).flatLength (some b) = .ok ns.sum) ∧
    (∀ s base fd n, base.flatLength (some b) = .ok n →
      (Pattern.array s base fd).flatLength (some b) = .ok (s.prod * n)) := by
  refine ⟨fun es l fd ns h => ?_, fun s base fd n h => ?_⟩
  · rw [flatLength_some, flatLen]
    congr 1
    induction ns generalizing es with
    | nil =>
      cases es with
      | nil => rfl
      | cons k p r => cases h
    | cons n ns ih =>
      cases es with
      | nil => cases h
      | cons k p r =>
        simp only [Entries.toList, List.forall₂_cons] at h
        rw [flatLenEs, ih r h.2, List.sum_cons]
        have := h.1; rw [flatLength_some] at this; injection this with this
        rw [this]
  · rw [flatLength_some] at h ⊢; injection h with h
    rw [flatLen, h]

/-- C06_container_lengths is not vacuous: the example's members have these lengths. -/
example : List.Forall₂ (fun (kp : String × Pattern) n => kp.2.flatLength (some true) = .ok n)
    (Entries.cons "v" (.numeric .vector [3] (.flt .ninf) (.flt .pinf) true none)
      (.cons "a" (.array [2] (.simplex 3 [] true none) none) .nil)).toList [3, 4] := by
  simp [Entries.toList, flatLength_some, flatLen]

/-- **C07.**  `fold` of a one-dimensional vector whose length differs from `flat_length(free)` raises `ValueError`, for
every pattern, every way of giving `free`, and every `validate_value`. -/
theorem C07_fold_rejects_wrong_size {p : Pattern} {free vv : Option Bool} {n : Nat}
    (hn : p.flatLength free = .ok n) {l : List Flt} (hl : l.length ≠ n) :
    ∃ msg, p.fold (vec l) free vv = .error (.valueError msg) := by
  rcases freeWithDefault_cases p.freeDefault free with ⟨b, _, hb⟩ | ⟨h1, rfl⟩
  · obtain ⟨e1, _, e3⟩ := hb p rfl (vec l) (.dict []) vv
    rw [e3, flatLength_some] at hn
    injection hn with hn
    rw [e1]
    subst hn
    cases b
    · rw [fold_false]
      cases p with
      | numeric c s lb ub dv fd =>
        simp only [flatLen] at hl
        simp [foldNF, Numeric.foldNF, hl, bind, Except.bind, throw, throwThe, MonadExceptOf.throw]
      | simplex k s dv fd =>
        simp only [flatLen, Bool.false_eq_true, if_false] at hl
        simp only [foldNF, Simplex.foldNF, bind, Except.bind, throw, throwThe, MonadExceptOf.throw, NDArray.len, vec, ne_eq,
          hl, not_false_eq_true, if_true]
        exact ⟨_, rfl⟩
      | psd n lb dv fd =>
        simp only [flatLen, Bool.false_eq_true, if_false] at hl
        simp [foldNF, PSD.foldNF, hl, bind, Except.bind, throw, throwThe, MonadExceptOf.throw]
      | array s base fd =>
        obtain ⟨m, hm⟩ := checkFlat_err (x := vec l) (n := s.prod * base.flatLen false) (by simpa [flatLen] using hl)
        rw [foldNF_array_unfold, hm]; exact ⟨m, rfl⟩
      | dict es lk fd =>
        obtain ⟨m, hm⟩ := checkFlat_err (x := vec l) (n := flatLenEs es false) (by simpa [flatLen] using hl)
        rw [foldNF_dict_unfold, hm]; exact ⟨m, rfl⟩
    · rw [fold_true]
      cases p with
      | numeric c s lb ub dv fd =>
        simp only [flatLen] at hl
        simp [foldFree, Numeric.foldFree, hl, bind, Except.bind, throw, throwThe, MonadExceptOf.throw]
      | simplex k s dv fd =>
        simp only [flatLen, if_true] at hl
        simp only [foldFree, Simplex.foldFree, bind, Except.bind, throw, throwThe, MonadExceptOf.throw, NDArray.len, vec,
          ne_eq, hl, not_false_eq_true, if_true]
        exact ⟨_, rfl⟩
      | psd n lb dv fd =>
        simp only [flatLen, if_true] at hl
        simp [foldFree, PSD.foldFree, hl, bind, Except.bind, throw, throwThe, MonadExceptOf.throw]
      | array s base fd =>
        obtain ⟨m, hm⟩ := checkFlat_err (x := vec l) (n := s.prod * base.flatLen true) (by simpa [flatLen] using hl)
        rw [foldFree_array_unfold, hm]; exact ⟨m, rfl⟩
      | dict es lk fd =>
        obtain ⟨m, hm⟩ := checkFlat_err (x := vec l) (n := flatLenEs es true) (by simpa [flatLen] using hl)
        rw [foldFree_dict_unfold, hm]; exact ⟨m, rfl⟩
  · simp [flatLength, freeWithDefault, h1, bind, Except.bind] at hn

/-- C07 is not vacuous: ten numbers for a pattern of free length eleven. -/
example : exPat.flatLength none = .ok 11 ∧ (List.replicate 10 (Flt.fin 0)).length ≠ 11 :=
  ⟨exPat_lengths.1, by simp⟩

/-- The full claim of C08: folding anything with two or more dimensions raises. -/
def Spec.C08Claim : Prop :=
  ∀ p, Built p → ∀ (x : NDArray Flt) (b : Bool) (vv : Option Bool), x.WF → 2 ≤ x.ndim →
    ∃ e, p.fold x (some b) vv = .error e

/-- **C08, partial.**  For every pattern that is not itself a `SimplexArrayPattern`, `fold` of an array with two or
more dimensions raises `ValueError`, whatever the arguments.  (Missing, because false: simplex patterns.) -/
theorem C08_fold_rejects_nd_partial {p : Pattern} (hns : ∀ k s dv fd, p ≠ .simplex k s dv fd) {x : NDArray Flt}
    (hx : 2 ≤ x.ndim) (b : Bool) (vv : Option Bool) : ∃ msg, p.fold x (some b) vv = .error (.valueError msg) := by
  have h1 : x.atleast1d.ndim ≠ 1 := by
    have : x.shape ≠ [] := by intro h; simp [ndim, h] at hx
    rw [atleast1d_of_ne this]; omega
  cases b
  · rw [fold_false]
    cases p with
    | numeric c s lb ub dv fd =>
      simp [foldNF, Numeric.foldNF, h1, bind, Except.bind, throw, throwThe, MonadExceptOf.throw]
    | simplex k s dv fd => exact absurd rfl (hns k s dv fd)
    | psd n lb dv fd =>
      simp [foldNF, PSD.foldNF, h1, bind, Except.bind, throw, throwThe, MonadExceptOf.throw]
    | array s base fd =>
      obtain ⟨m, hm⟩ := checkFlat_err_ndim (x := x) (n := s.prod * base.flatLen false) h1
      rw [foldNF_array_unfold, hm]; exact ⟨m, rfl⟩
    | dict es lk fd =>
      obtain ⟨m, hm⟩ := checkFlat_err_ndim (x := x) (n := flatLenEs es false) h1
      rw [foldNF_dict_unfold, hm]; exact ⟨m, rfl⟩
  · rw [fold_true]
    cases p with
    | numeric c s lb ub dv fd =>
      simp [foldFree, Numeric.foldFree, h1, bind, Except.bind, throw, throwThe, MonadExceptOf.throw]
    | simplex k s dv fd => exact absurd rfl (hns k s dv fd)
    | psd n lb dv fd =>
      simp [foldFree, PSD.foldFree, h1, bind, Except.bind, throw, throwThe, MonadExceptOf.throw]
    | array s base fd =>
      obtain ⟨m, hm⟩ := checkFlat_err_ndim (x := x) (n := s.prod * base.flatLen true) h1
      rw [foldFree_array_unfold, hm]; exact ⟨m, rfl⟩
    | dict es lk fd =>
      obtain ⟨m, hm⟩ := checkFlat_err_ndim (x := x) (n := flatLenEs es true) h1
      rw [foldFree_dict_unfold, hm]; exact ⟨m, rfl⟩

/-- C08_fold_rejects_nd_partial is not vacuous. -/
example : (∀ k s dv fd, exPat ≠ .simplex k s dv fd) ∧
    2 ≤ (⟨[11, 1], List.replicate 11 (Flt.fin 0)⟩ : NDArray Flt).ndim := by
  simp [exPat, ndim]

/-- **C08, the failure.**  A `SimplexArrayPattern` treats an `(N, 1, ..., 1)` array exactly like the vector of its
entries. -/
theorem C08_simplex_accepts_columns (k s dv fd) (l : List Flt) (m : Nat) (b : Bool) (vv : Option Bool) :
    (Pattern.simplex k s dv fd).fold ⟨l.length :: List.replicate m 1, l⟩ (some b) vv =
      (Pattern.simplex k s dv fd).fold (vec l) (some b) vv := by
  cases b
  · simp only [fold_false, foldNF, Simplex.foldNF, NDArray.len, vec, reshape]
  · simp only [fold_true, foldFree, Simplex.foldFree, NDArray.len, vec, reshape]

/-- **C08, simplex patterns.**  The only accepted inputs are one-dimensional or `(N, d2, ..., dn)` with all trailing
dimensions one (or an empty array). -/
theorem C08_simplex_accepts_only_columns {k s dv fd} {x : NDArray Flt} (hx : x.WF) {b : Bool} {vv : Option Bool}
    {v : Val Flt} (h : (Pattern.simplex k s dv fd).fold x (some b) vv = .ok v) :
    ∃ n rest, x.shape = n :: rest ∧ (n = 0 ∨ ∀ d ∈ rest, d = 1) := by
  have key : ∃ n, x.len = .ok n ∧ x.data.length = n := by
    cases b
    · rw [fold_false, foldNF] at h
      obtain ⟨a, h1, _⟩ := bind_ok h
      rw [simplex_foldNF_ok] at h1
      exact ⟨_, h1.1, h1.2.1⟩
    · rw [fold_true, foldFree] at h
      obtain ⟨a, h1, _⟩ := bind_ok h
      rw [Simplex.foldFree_ok] at h1
      exact ⟨_, h1.1, h1.2.1⟩
  obtain ⟨n, h1, h2⟩ := key
  unfold NDArray.len at h1
  split at h1
  · simp at h1
  · next n' rest hs =>
    simp only [Except.ok.injEq] at h1; subst h1
    refine ⟨n', rest, hs, ?_⟩
    rcases Nat.eq_zero_or_pos n' with h0 | h0
    · exact .inl h0
    · right
      rw [hx, hs, List.prod_cons] at h2
      have h3 : rest.prod = 1 := Nat.eq_of_mul_eq_mul_left h0 (by omega)
      intro d hd
      exact Nat.dvd_one.mp (h3 ▸ List.dvd_prod hd)

/-- The claim of C08 is false for the code as written. -/
theorem C08_claim_false : ¬ Spec.C08Claim := by
  intro h
  have hw : (Pattern.simplex 2 [] true none).WF := by simp [Pattern.WF]
  have hb : Built (.simplex 2 [] true none) := WF.built _ hw
  obtain ⟨d, h1, _⟩ := simplex_free_vec hw (r := [0]) (by simp)
  obtain ⟨e, he⟩ := h _ hb ⟨[1, 1], [.fin 0]⟩ true none (by simp [NDArray.WF]) (by simp [ndim])
  have := C08_simplex_accepts_columns 2 [] true none [.fin 0] 1 true none
  simp only [List.length_singleton, List.replicate_one] at this
  rw [this, fold_true] at he
  simp only [List.map_cons, List.map_nil] at h1
  rw [h1] at he
  simp at he

/-- **C09.**  For every pattern (finite diagonal bounds) and every vector of finite numbers of length
`flat_length(free=True)`, `fold(free=True)` succeeds, its result lies strictly inside the constraint set, and
`validate_folded` accepts it, with or without value checking. -/
theorem C09_free_fold_valid {p : Pattern} (hp : Built p) (hf : p.FiniteLb) {r : List ℝ}
    (hr : p.flatLength (some true) = .ok r.length) (vv : Option Bool) :
    ∃ v, p.fold (vec (r.map .fin)) (some true) vv = .ok v ∧ Spec.Interior p v ∧
      ∀ vv', ∃ msg, p.validate v vv' = .ok (true, msg) := by
  rw [flatLength_some] at hr; injection hr with hr
  obtain ⟨v, h1, h2, _⟩ := free_vec p hp.wf hf r hr.symm
  exact ⟨v, by rw [fold_true]; exact h1, h2, fun vv' => acc_of_interior p hp.wf hf v vv' h2⟩

/-- C09 is not vacuous. -/
example : exPat.FiniteLb ∧ exPat.flatLength (some true) = .ok (List.replicate 11 (7 : ℝ)).length :=
  ⟨exPat_finiteLb, by simpa using exPat_lengths.1⟩

/-- **C09, random.**  `random()` returns a valid value whatever numbers the generator draws. -/
theorem C09_random_valid {p : Pattern} (hp : Built p) (hf : p.FiniteLb) {draw : List ℝ}
    (hr : p.flatLength (some true) = .ok draw.length) :
    ∃ v, p.random (draw.map .fin) = .ok v ∧ ∃ msg, p.validate v (some true) = .ok (true, msg) := by
  obtain ⟨v, h1, _, h3⟩ := C09_free_fold_valid hp hf hr none
  exact ⟨v, h1, h3 (some true)⟩

/-- **C10.**  For every pattern without an empty container and every vector of finite numbers of the right length,
`flatten(fold(x, free=True), free=True)` is exactly `x` (exact real arithmetic), whatever the validation settings. -/
theorem C10_free_vector {p : Pattern} (hp : Built p) (hf : p.FiniteLb) (hne : p.NoEmpty) {r : List ℝ}
    (hr : p.flatLength (some true) = .ok r.length) (vv vv' : Option Bool) :
    ∃ v, p.fold (vec (r.map .fin)) (some true) vv = .ok v ∧
      p.flatten v (some true) vv' = .ok (vec (r.map .fin)) := by
  rw [flatLength_some] at hr; injection hr with hr
  obtain ⟨v, h1, _, _, _, h5⟩ := free_vec p hp.wf hf r hr.symm
  exact ⟨v, by rw [fold_true]; exact h1, by rw [flatten_true]; exact h5 hne vv'⟩

/-- C10 is not vacuous. -/
example : Built exPat ∧ exPat.FiniteLb ∧ exPat.NoEmpty ∧
    exPat.flatLength (some true) = .ok (List.replicate 11 (7 : ℝ)).length :=
  ⟨exPat_built, exPat_finiteLb, exPat_noEmpty, by simpa using exPat_lengths.1⟩

/-- **C11.**  For every pattern without an empty container and every value strictly inside its constraint set,
`flatten(free=True)` succeeds with a vector of finite numbers and `fold(free=True)` of it is the value itself (on the
part the pattern describes). -/
theorem C11_free_value {p : Pattern} (hp : Built p) (hf : p.FiniteLb) (hne : p.NoEmpty) {v : Val Flt}
    (hv : Spec.Interior p v) : ∃ r : List ℝ, p.flatLength (some true) = .ok r.length ∧
      ∀ vv vv', p.flatten v (some true) vv = .ok (vec (r.map .fin)) ∧
        p.fold (vec (r.map .fin)) (some true) vv' = .ok (Spec.canon p v) := by
  obtain ⟨r, h1, h2, h3⟩ := free_val p hp.wf hf v hv hne
  exact ⟨r, by rw [flatLength_some, h1], fun vv vv' => ⟨h2 vv, by rw [fold_true]; exact h3⟩⟩

/-- C11 is not vacuous. -/
example : ∃ v, Spec.Interior exPat v := by
  obtain ⟨v, _, _, _, h, _⟩ := exPat_value; exact ⟨v, h⟩

end Paragami
