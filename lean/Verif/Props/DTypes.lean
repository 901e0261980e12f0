import Verif.Proofs.DTypesFree
import Verif.Proofs.Binary64Sane
import Verif.Props.RoundTrip

/-! # Data types of arrays -/

set_option linter.unusedSimpArgs false

namespace Paragami
open NDArray Pattern Spec Memory

namespace Arith

theorem int_machine64 {n : ℤ} (h : |n| ≤ 2 ^ 53) : binary64.Machine (.fin n) := by
  have := rnd64_fix (m := n) (e := 0) h (by norm_num) (by norm_num)
  simpa [Machine, binary64, Arith.round] using this

theorem odd_not_machine64 {n : ℤ} (ho : Odd n) (h : 2 ^ 53 < |n|) : ¬ binary64.Machine (.fin n) := by
  intro hm
  have hr : rndReal (n : ℝ) = n := rndReal_of_machine hm
  obtain ⟨m, e, h1, _, h3⟩ := rndReal_form (n : ℝ)
  rw [hr] at h3
  rcases le_or_gt e 0 with he | he
  · have h4 : (2 : ℝ) ^ e ≤ 1 := zpow_le_one_of_nonpos₀ (by norm_num) he
    have h5 : |(n : ℝ)| ≤ |(m : ℝ)| := by
      rw [h3, abs_mul, abs_of_pos (two_zpow_pos e)]
      exact mul_le_of_le_one_right (abs_nonneg _) h4
    have h6 : |n| ≤ |m| := by exact_mod_cast h5
    omega
  · obtain ⟨k, rfl⟩ : ∃ k : ℕ, e = k + 1 := ⟨(e - 1).toNat, by omega⟩
    have h4 : n = m * 2 ^ (k + 1) := by
      have : (n : ℝ) = ((m * 2 ^ (k + 1) : ℤ) : ℝ) := by rw [h3]; push_cast; norm_cast
      exact_mod_cast this
    rw [h4, pow_succ] at ho
    have : Even (m * (2 ^ k * 2)) := ⟨m * 2 ^ k, by ring⟩
    exact (Int.not_even_iff_odd.mpr ho) this

end Arith

/-! ### Flattening -/

variable {A : Arith}

/-- **C120.**  `flatten(v, free=False)` gives the entries, in the same order, in the largest data type among the arrays that the pattern names; it fails
exactly if flattening the bare numbers fails, with the same error. -/
theorem C120_flatten (hA : A.Sane) {p : Pattern} (hp : Built p) {v : TVal} (hv : v.erase.WF) (ht : WellTyped v) {vv : Option Bool} :
    (∀ e, flattenT A p v vv = .error e ↔ p.flattenNF v.erase vv = .error e) ∧
      ∀ x, flattenT A p v vv = .ok x → Largest p v x.1 ∧ ∃ y, p.flattenNF v.erase vv = .ok y ∧ x.2 = y.map (Num.cast A x.1) := by
  have h := flattenT_eq hA p hp.wf v hv ht vv
  cases hr : p.flattenNF v.erase vv with
  | error e =>
    rw [hr] at h
    simp only [Except.map] at h
    rw [h]
    simp
  | ok y =>
    rw [hr] at h
    simp only [Except.map] at h
    rw [h]
    refine ⟨by simp, fun x hx => ?_⟩
    cases hx
    obtain ⟨hacc, hne⟩ := flattenNF_ok_imp p hp.wf v.erase vv y hv hr
    exact ⟨top_largest p v vv hne hacc, y, rfl, rfl⟩

/-- **C120.**  `fold(x, free=False)` of a vector with a data type succeeds exactly if folding the bare numbers does, and gives these numbers.  The arrays
have the type of the vector, except that arrays of patterns without items are float arrays. -/
theorem C120_fold {p : Pattern} (hp : Built p) {x : DType × NDArray Num} {vv : Option Bool} :
    (∀ e, foldT p x vv = .error e ↔ p.foldNF x.2 vv = .error e) ∧
      ∀ w, foldT p x vv = .ok w → p.foldNF x.2 vv = .ok w.erase ∧ FoldedTypes x.1 p w := by
  simp only [foldT]
  cases h : p.foldNF x.2 vv with
  | error e => simp [bind, Except.bind]
  | ok v =>
    obtain ⟨_, hv, _⟩ := foldNF_ok_imp p hp.wf _ vv v h
    subst hv
    refine ⟨by simp [bind, Except.bind, pure, Except.pure], fun w hw => ?_⟩
    cases hw
    exact ⟨by rw [erase_withType], withType_folded _ _ _⟩

/-- **C120.**  If `flatten(v, free=False)` succeeds, so does `fold` of the result, with the same `validate_value`: all arrays of the result have the data
type of the vector, and their entries are those of `v`, converted to it. -/
theorem C120_trip (hA : A.Sane) {p : Pattern} (hp : Built p) (hb : MachineBounds A p) {v : TVal} (hv : v.erase.WF) (ht : WellTyped v)
    {vv : Option Bool} {x : DType × NDArray Num} (h : flattenT A p v vv = .ok x) :
    ∃ w, foldT p x vv = .ok w ∧ AllOfType x.1 w ∧ w.erase = canon p (v.erase.map (Num.cast A x.1)) := by
  have h' := flattenT_eq hA p hp.wf v hv ht vv
  rw [h] at h'
  cases hr : p.flattenNF v.erase vv with
  | error e => simp [hr, Except.map] at h'
  | ok y =>
    rw [hr] at h'
    simp only [Except.map, Except.ok.injEq] at h'
    subst h'
    obtain ⟨hacc, hne⟩ := flattenNF_ok_imp p hp.wf v.erase vv y hv hr
    rw [flattenNF_eq p hp.wf _ vv hv hne hacc] at hr
    cases hr
    have hacc' := acc_cast hA p hb hp.wf v vv hv ht (DType.sup_idem (top p v)) hacc
    have hv' := val_map_wf (Num.cast A (top p v)) _ hv
    have hu := unflat_flat p hp.wf _ vv hv' hacc'
    have hf : p.foldNF (vec (p.flat (v.erase.map (Num.cast A (top p v))))) vv = .ok (p.unflat (p.flat (v.erase.map (Num.cast A (top p v))))) := by
      apply foldNF_eq p hp.wf _ vv (length_flat p hp.wf _ vv hv' hacc')
      rw [hu]
      exact acc_canon p hp.wf _ vv hacc'
    have hx : (vec (p.flat v.erase)).map (Num.cast A (top p v)) = vec (p.flat (v.erase.map (Num.cast A (top p v)))) := by
      rw [flat_map]; simp [NDArray.map, vec]
    refine ⟨_, ?_, withType_all _ p hne (p.flat (v.erase.map (Num.cast A (top p v)))), ?_⟩
    · simp only [foldT, hx, hf, bind, Except.bind, pure, Except.pure]
    · rw [erase_withType, hu]

/-- **C120.**  The round trip gives the same numbers if and only if no array is a float array, or all the integers are floating point numbers. -/
theorem C120_exact (hA : A.Sane) {p : Pattern} (hp : Built p) (hb : MachineBounds A p) {v : TVal} (hv : v.erase.WF) (ht : WellTyped v)
    {vv : Option Bool} {x : DType × NDArray Num} (h : flattenT A p v vv = .ok x) {w : TVal} (hw : foldT p x vv = .ok w) :
    w.erase.map Num.toFlt = (canon p v.erase).map Num.toFlt ↔
      ¬ Occurs .float p v ∨ ∀ n : ℤ, Num.i n ∈ leaves (canon p v.erase) → A.Machine (.fin n) := by
  obtain ⟨w', h1, _, h2⟩ := C120_trip hA hp hb hv ht h
  rw [hw] at h1
  cases h1
  obtain ⟨hl, _⟩ := (C120_flatten hA hp hv ht (vv := vv)).2 x h
  rw [h2, canon_map, val_map_map]
  have hcast : ∀ e : Num, (Num.cast A x.1 e).toFlt = e.toFlt ↔ (x.1 = .float → ∀ n, e = Num.i n → A.Machine (.fin n)) := by
    intro e
    cases e with
    | b v => cases x.1 <;> simp [Num.cast, Num.toFlt]
    | f y => cases x.1 <;> simp [Num.cast, Num.toFlt]
    | i n => cases x.1 <;> simp [Num.cast, Num.toFlt, Arith.Machine]
  have hfl : Occurs .float p v ↔ x.1 = .float := by
    constructor
    · intro ho
      have := hl.sup _ ho
      revert this
      cases x.1 <;> simp [DType.sup]
    · intro ho
      rw [← ho]; exact hl.occurs
  rw [hfl]
  constructor
  · intro he
    by_cases hd : x.1 = .float
    · exact Or.inr fun n hn => (hcast _).mp (val_map_inj _ he _ hn) hd n rfl
    · exact Or.inl hd
  · intro hor
    apply val_map_congr
    intro e he
    rw [hcast]
    rintro hd n rfl
    rcases hor with h | h
    · exact absurd hd h
    · exact h n he

/-- **C120.**  `flatten(v, free=True)` gives the largest data type among: the types of the arrays of unbounded numeric patterns, and float for all other
arrays.  Its numbers, converted to floats, are those of `flatten` for the value converted to floats. -/
theorem C120_free (hA : A.Sane) {p : Pattern} (hp : Built p) (hb : MachineBounds A p) {v : TVal} (hv : v.erase.WF) (ht : WellTyped v)
    {vv : Option Bool} {x : DType × NDArray Num} (h : flattenFreeT A p v vv = .ok x) :
    LargestFree p v x.1 ∧ p.flattenFree (asFloats A v.erase) vv = .ok (x.2.map fun e => (e.cast A .float).toFlt) := by
  obtain ⟨h1, h2⟩ := flattenFreeT_ok hA p hb hp.wf v hv ht vv x h
  exact ⟨h1 ▸ topF_largest p v vv (flattenFree_noEmpty p _ vv _ h2) (flattenFreeT_acc h), h2⟩

/-! ### In double precision -/

/-- **C120.**  In double precision, integers up to 2**53 in size survive the round trip, beside arrays of any types. -/
theorem C120_small {p : Pattern} (hp : Built p) (hb : MachineBounds binary64 p) {v : TVal} (hv : v.erase.WF) (ht : WellTyped v)
    {vv : Option Bool} {x : DType × NDArray Num} (h : flattenT binary64 p v vv = .ok x)
    (hs : ∀ n : ℤ, Num.i n ∈ leaves (canon p v.erase) → |n| ≤ 2 ^ 53) :
    ∃ w, foldT p x vv = .ok w ∧ w.erase.map Num.toFlt = (canon p v.erase).map Num.toFlt := by
  obtain ⟨w, h1, _⟩ := C120_trip binary64_sane hp hb hv ht h
  exact ⟨w, h1, (C120_exact binary64_sane hp hb hv ht h h1).mpr (Or.inr fun n hn => Arith.int_machine64 (hs n hn))⟩

theorem occurs_num {d d' : DType} {c s lb ub dv fd} {a : NDArray Num} : Occurs d (.numeric c s lb ub dv fd) (.arr d' a) ↔ d' = d := by
  simp [Occurs]

theorem occurs_dict {d : DType} {es l fd vs} : Occurs d (.dict es l fd) (.dict vs) ↔ OccursEs d es vs := by
  simp [Occurs]

theorem occursEs_cons {d : DType} {k p r vs v} (h : vs.lookup k = some v) : OccursEs d (.cons k p r) vs ↔ Occurs d p v ∨ OccursEs d r vs := by
  simp [OccursEs, h]

theorem occursEs_nil {d : DType} {vs} : ¬ OccursEs d .nil vs := by
  simp [OccursEs]

/-- A dictionary with one integer and a vector. -/
def exMix (m : ℕ) : Pattern :=
  .dict (.cons "n" (.numeric .array [1] (.flt .ninf) (.flt .pinf) true (some false))
    (.cons "x" (.numeric .array [m] (.flt .ninf) (.flt .pinf) true (some false)) .nil)) false (some false)

theorem exMix_wf (m : ℕ) : (exMix m).WF := by
  simp [exMix, Pattern.WF, WFEs, Pattern.lock, Entries.keys, Entries.toList, PyNum.toFlt, Flt.lt, Flt.ge, Flt.le, Flt.eq, Flt.NotNaN]

theorem exMix_built (m : ℕ) : Built (exMix m) := WF.built _ (exMix_wf m)

theorem exMix_bounds (m : ℕ) : MachineBounds binary64 (exMix m) := by
  simp [exMix, MachineBounds, MachineBoundsEs, PyNum.toFlt, Arith.Machine, Arith.round]

/-- The value with the integer `n` and the vector `l`. -/
def exMixVal (n : ℤ) (d : DType) (l : List Num) : TVal :=
  .dict [("n", .arr .int ⟨[1], [.i n]⟩), ("x", .arr d ⟨[l.length], l⟩)]

theorem exMixVal_wf (n : ℤ) (d : DType) (l : List Num) : (exMixVal n d l).erase.WF := by
  simp [exMixVal, TVal.erase, TVal.eraseEs, Val.WF, Val.WFEs, NDArray.WF]

theorem exMixVal_typed {n : ℤ} {d : DType} {l : List Num} (h : ∀ e ∈ l, Num.dtype e = d) : WellTyped (exMixVal n d l) := by
  simpa [exMixVal, WellTyped, WellTypedEs, Num.dtype] using h

theorem exMix_flatten (n : ℤ) {d : DType} {l : List Num} (h : ∀ e ∈ l, Num.dtype e = d) :
    ∃ x, flattenT binary64 (exMix l.length) (exMixVal n d l) none = .ok x := by
  have h1 := flattenT_eq binary64_sane (exMix l.length) (exMix_wf _) _ (exMixVal_wf n d l) (exMixVal_typed h) none
  have hacc : Acc (exMix l.length) (exMixVal n d l).erase none := by
    simp only [exMix, exMixVal, TVal.erase, TVal.eraseEs]
    rw [acc_dict]
    refine ⟨_, rfl, ?_⟩
    have hno : ∀ y : Flt, y.lt .ninf = false ∧ y.gt .pinf = false := fun y => by cases y <;> simp [Flt.lt, Flt.gt]
    simp only [AccEs, and_true]
    refine ⟨⟨_, by simp [List.lookup]; rfl, ?_⟩, _, by simp [List.lookup]; rfl, ?_⟩
    · rw [acc_numeric]; exact ⟨_, rfl, rfl, fun _ y _ => hno _⟩
    · rw [acc_numeric]; exact ⟨_, rfl, rfl, fun _ y _ => hno _⟩
  rw [flattenNF_eq _ (exMix_wf _) _ none (exMixVal_wf n d l) (by simp [exMix, NoEmpty, NoEmptyEs]) hacc] at h1
  exact ⟨_, h1⟩

theorem exMix_occurs {n : ℤ} {d d' : DType} {l : List Num} : Occurs d' (exMix l.length) (exMixVal n d l) ↔ d' = .int ∨ d' = d := by
  unfold exMix exMixVal
  rw [occurs_dict, occursEs_cons (v := .arr .int ⟨[1], [.i n]⟩) rfl, occursEs_cons (v := .arr d ⟨[l.length], l⟩) rfl, occurs_num, occurs_num]
  simp [occursEs_nil, eq_comm]

/-- **C120.**  In double precision: an odd integer beyond 2**53 in one array of a dictionary does not survive the round trip if another array of the
dictionary is a float array, not even if that array is empty. -/
theorem C120_lost {n : ℤ} (ho : Odd n) (hn : 2 ^ 53 < |n|) {l : List Num} (hl : ∀ e ∈ l, Num.dtype e = .float) :
    ∃ x w, flattenT binary64 (exMix l.length) (exMixVal n .float l) none = .ok x ∧ foldT (exMix l.length) x none = .ok w ∧
      AllOfType .float w ∧ w.erase.map Num.toFlt ≠ (exMixVal n .float l).erase.map Num.toFlt := by
  obtain ⟨x, hx⟩ := exMix_flatten n hl
  obtain ⟨w, h1, h2, h3⟩ := C120_trip binary64_sane (exMix_built _) (exMix_bounds _) (exMixVal_wf n .float l) (exMixVal_typed hl) hx
  have hocc : Occurs .float (exMix l.length) (exMixVal n .float l) :=
    exMix_occurs.mpr (Or.inr rfl)
  have hcan : canon (exMix l.length) (exMixVal n .float l).erase = (exMixVal n .float l).erase := by
    simp [exMix, exMixVal, TVal.erase, TVal.eraseEs, canon, canonEs, List.lookup, NDArray.atleast1d]
  have hxf : x.1 = .float := by
    have := ((C120_flatten binary64_sane (exMix_built _) (exMixVal_wf n .float l) (exMixVal_typed hl)).2 x hx).1.sup _ hocc
    revert this
    cases x.1 <;> simp [DType.sup]
  refine ⟨x, w, hx, h1, hxf ▸ h2, fun he => ?_⟩
  have := (C120_exact binary64_sane (exMix_built _) (exMix_bounds _) (exMixVal_wf n .float l) (exMixVal_typed hl) hx h1).mp (by rw [hcan]; exact he)
  rcases this with h | h
  · exact h hocc
  · refine Arith.odd_not_machine64 ho hn (h n ?_)
    rw [hcan]
    simp [exMixVal, TVal.erase, TVal.eraseEs, leaves, leavesEs]

/-- C120 applies to a dictionary with an integer and a float array, and 2**53 + 1 is such an integer. -/
example : ∃ x w, flattenT binary64 (exMix 0) (exMixVal (2 ^ 53 + 1) .float []) none = .ok x ∧ foldT (exMix 0) x none = .ok w ∧
    AllOfType .float w ∧ w.erase.map Num.toFlt ≠ (exMixVal (2 ^ 53 + 1) .float []).erase.map Num.toFlt :=
  C120_lost (n := 2 ^ 53 + 1) ⟨2 ^ 52, by norm_num⟩ (by norm_num) (l := []) (by simp)

/-- Beside an integer array it survives. -/
example : ∃ x w, flattenT binary64 (exMix 1) (exMixVal (2 ^ 53 + 1) .int [.i 3]) none = .ok x ∧ foldT (exMix 1) x none = .ok w ∧
    w.erase.map Num.toFlt = (canon (exMix 1) (exMixVal (2 ^ 53 + 1) .int [.i 3]).erase).map Num.toFlt := by
  have ht : ∀ e ∈ [Num.i 3], Num.dtype e = .int := by simp [Num.dtype]
  obtain ⟨x, hx⟩ := exMix_flatten (2 ^ 53 + 1) ht
  obtain ⟨w, h1, _⟩ := C120_trip binary64_sane (exMix_built _) (exMix_bounds _) (exMixVal_wf _ _ _) (exMixVal_typed ht) hx
  refine ⟨x, w, hx, h1, ?_⟩
  refine (C120_exact binary64_sane (exMix_built _) (exMix_bounds _) (exMixVal_wf _ _ _) (exMixVal_typed ht) hx h1).mpr ?_
  exact Or.inl fun h => by simpa using exMix_occurs.mp h

/-- Integers up to 2**53 survive beside a float array. -/
example : ∃ x w, flattenT binary64 (exMix 1) (exMixVal (2 ^ 53) .float [.f (.fin 3)]) none = .ok x ∧ foldT (exMix 1) x none = .ok w ∧
    w.erase.map Num.toFlt = (canon (exMix 1) (exMixVal (2 ^ 53) .float [.f (.fin 3)]).erase).map Num.toFlt := by
  have ht : ∀ e ∈ [Num.f (.fin 3)], Num.dtype e = .float := by simp [Num.dtype]
  obtain ⟨x, hx⟩ := exMix_flatten (2 ^ 53) ht
  obtain ⟨w, h1, _⟩ := C120_trip binary64_sane (exMix_built _) (exMix_bounds _) (exMixVal_wf _ _ _) (exMixVal_typed ht) hx
  refine ⟨x, w, hx, h1, ?_⟩
  refine (C120_exact binary64_sane (exMix_built _) (exMix_bounds _) (exMixVal_wf _ _ _) (exMixVal_typed ht) hx h1).mpr ?_
  right
  intro n hn
  simp [exMix, exMixVal, TVal.erase, TVal.eraseEs, canon, canonEs, List.lookup, NDArray.atleast1d, leaves, leavesEs] at hn
  subst hn
  exact Arith.int_machine64 (by norm_num)

/-- C120 for free vectors applies: an integer array without bounds stays one. -/
example : ∃ x, flattenFreeT binary64 (exMix 1) (exMixVal 7 .int [.i 3]) none = .ok x ∧ x.1 = .int := by
  have h : flattenFreeT binary64 (exMix 1) (exMixVal 7 .int [.i 3]) none = .ok (.int, vec [.i 7, .i 3]) := by
    simp [flattenFreeT, flattenFreeTEs, flattenArrFree, exMix, exMixVal, TVal.asDict, TVal.asArr, TVal.erase, TVal.eraseEs, bind, Except.bind,
      validate, validateEs, Val.asDict, Val.asArr, List.lookup, Pattern.requireValid, Numeric.validate, Numeric.validateShape, NDArray.atleast1d,
      PyNum.toFlt, Flt.lt, Flt.gt, Elem.toFlt, Num.toFlt, copies, Flt.eq, flattenNF, Numeric.flattenNF, NDArray.flatten, pure, Except.pure,
      hstackT, DType.sup, NDArray.hstack, NDArray.map, Num.cast, vec]
  exact ⟨_, h, rfl⟩

/-- C120 for folds applies to a vector of integers. -/
example : ∃ w, foldT (exMix 1) (.int, vec [.i 7, .i 3]) none = .ok w ∧ FoldedTypes .int (exMix 1) w := by
  obtain ⟨x, hx⟩ := exMix_flatten (l := [.i 3]) (d := .int) 7 (by simp [Num.dtype])
  have ht : ∀ e ∈ [Num.i 3], Num.dtype e = .int := by simp [Num.dtype]
  obtain ⟨w, h1, _⟩ := C120_trip binary64_sane (exMix_built _) (exMix_bounds _) (exMixVal_wf _ _ _) (exMixVal_typed ht) hx
  have hx' : x = (.int, vec [.i 7, .i 3]) := by
    have h3 : flattenT binary64 (exMix 1) (exMixVal 7 .int [.i 3]) none = .ok (.int, vec [.i 7, .i 3]) := by
      simp [flattenT, flattenTEs, flattenArr, exMix, exMixVal, TVal.asDict, TVal.asArr, TVal.erase, TVal.eraseEs, bind, Except.bind,
        validate, validateEs, Val.asDict, Val.asArr, List.lookup, Pattern.requireValid, Numeric.validate, Numeric.validateShape, NDArray.atleast1d,
        PyNum.toFlt, Flt.lt, Flt.gt, Elem.toFlt, Num.toFlt, Flt.eq, flattenNF, Numeric.flattenNF, NDArray.flatten, pure, Except.pure,
        hstackT, DType.sup, NDArray.hstack, NDArray.map, Num.cast, vec]
    have := hx.symm.trans h3
    simpa using this
  subst hx'
  exact ⟨w, h1, ((C120_fold (exMix_built 1)).2 w h1).2⟩

end Paragami
