import Verif.Props.Validation
import Verif.Props.Regroup

/-! # How validation rejects (C80) -/

set_option linter.unusedSimpArgs false

namespace Paragami
open NDArray Pattern

/-- **C80, leaves.**  A wrong shape makes a simplex or matrix pattern raise `ValueError`, whether or not values are checked; a
numeric pattern returns false.  With the right shape none of them raises. -/
theorem C80_leaf_wrong_shape (a : NDArray Flt) (vv : Option Bool) :
    (∀ {k s dv fd p}, mkSimplex k s dv fd = .ok p →
      ((∃ e, p.validate (.arr a) vv = .error e) ↔ a.shape ≠ s ++ [k.toNat]) ∧
      ∀ e, p.validate (.arr a) vv = .error e → ∃ m, e = .valueError m) ∧
    (∀ {n lb dv fd p}, mkPSD n lb dv fd = .ok p →
      ((∃ e, p.validate (.arr a) vv = .error e) ↔ a.shape ≠ [n, n]) ∧
      ∀ e, p.validate (.arr a) vv = .error e → ∃ m, e = .valueError m) ∧
    (∀ {c s lb ub dv fd p}, mkNumeric c s lb ub dv fd = .ok p →
      (∃ b m, p.validate (.arr a) vv = .ok (b, m)) ∧
      (a.atleast1d.shape ≠ s → ∃ m, p.validate (.arr a) vv = .ok (false, m))) := by
  refine ⟨?_, ?_, ?_⟩
  · intro k s dv fd p hp
    obtain rfl := mkSimplex_eq hp
    simp only [validate, Val.asArr, bind, Except.bind, Simplex.validate, Simplex.validateShape]
    by_cases h : a.shape = s ++ [k.toNat]
    · simp only [h, if_true, Bool.not_true, Bool.false_eq_true, if_false, ne_eq, not_true_eq_false, iff_false, not_exists]
      constructor
      · intro e he; split at he <;> (try split at he) <;> (try split at he) <;> cases he
      · intro e he; split at he <;> (try split at he) <;> (try split at he) <;> cases he
    · simp only [h, if_false, Bool.not_false, if_true, ne_eq, not_false_eq_true, iff_true]
      exact ⟨⟨_, rfl⟩, fun e he => by cases he; exact ⟨_, rfl⟩⟩
  · intro n lb dv fd p hp
    have hp' : p = .psd n lb dv fd := by
      unfold mkPSD at hp; split at hp
      · cases hp
      · cases hp; rfl
    subst hp'
    simp only [validate, Val.asArr, bind, Except.bind, PSD.validate, PSD.validateShape]
    by_cases h : a.shape = [n, n]
    · simp only [h, if_true, Bool.not_true, Bool.false_eq_true, if_false, ne_eq, not_true_eq_false, iff_false, not_exists]
      constructor
      · intro e he; split at he <;> (try split at he) <;> (try split at he) <;> cases he
      · intro e he; split at he <;> (try split at he) <;> (try split at he) <;> cases he
    · simp only [h, if_false, Bool.not_false, if_true, ne_eq, not_false_eq_true, iff_true]
      exact ⟨⟨_, rfl⟩, fun e he => by cases he; exact ⟨_, rfl⟩⟩
  · intro c s lb ub dv fd p hp
    obtain rfl := mkNumeric_eq hp
    simp only [validate, Val.asArr, bind, Except.bind, pure, Except.pure, Except.ok.injEq]
    refine ⟨⟨_, _, rfl⟩, fun h => ?_⟩
    generalize hv : Numeric.validate s lb.toFlt ub.toFlt dv a vv = r
    obtain ⟨b, m⟩ := r
    cases b with
    | false => exact ⟨m, rfl⟩
    | true => exact absurd (numeric_validate_true.mp hv).2.1 h

/-- A vector given to a pattern of one 2x2 matrix. -/
example : ∃ e, (Pattern.psd 2 (.int 0) true none).validate (.arr (vec [.fin 1, .fin 2]) : Val Flt) (some false) = .error e :=
  (((C80_leaf_wrong_shape (vec [.fin 1, .fin 2]) (some false)).2.1 (n := 2) (lb := .int 0) (dv := true) (fd := none)
    (by simp [mkPSD, PyNum.toFlt, Flt.lt])).1).mpr (by simp [vec])

theorem validate_chunk_ok {α : Type} [Elem α] (p : Pattern) (hd : p.isDict = false) (hw : p.WF) :
    ∀ (a : NDArray α) (vv : Option Bool), a.WF → a.shape = p.shape → ∃ r, p.validate (.arr a) vv = .ok r := by
  revert hd hw
  induction p using Pattern.ind (Q := fun _ => True) with
  | hnum c s lb ub dv fd => intro _ _ a vv _ _; exact ⟨_, rfl⟩
  | hsim k s dv fd =>
    intro _ _ a vv _ h
    simp only [Pattern.shape] at h
    simp only [validate, Val.asArr, bind, Except.bind, Simplex.validate, Simplex.validateShape, h, if_true, Bool.not_true,
      Bool.false_eq_true, if_false]
    split <;> (try split) <;> (try split) <;> exact ⟨_, rfl⟩
  | hpsd n lb dv fd =>
    intro _ _ a vv _ h
    simp only [Pattern.shape] at h
    simp only [validate, Val.asArr, bind, Except.bind, PSD.validate, PSD.validateShape, h, if_true, Bool.not_true,
      Bool.false_eq_true, if_false]
    split <;> (try split) <;> (try split) <;> exact ⟨_, rfl⟩
  | harr s b fd ih =>
    intro _ hw a vv ha h
    simp only [Pattern.WF] at hw
    simp only [Pattern.shape] at h
    obtain ⟨sh, d⟩ := a
    simp only at h
    subst h
    have h1 : (⟨s ++ b.shape, d⟩ : NDArray α).ndim = (s ++ b.shape).length := rfl
    simp only [validate, Val.asArr, bind, Except.bind, pure, Except.pure, h1, ne_eq, not_true_eq_false, if_false]
    have hitems : ∀ items : List (List Nat), (∀ it ∈ items, it ∈ productRanges s) →
        ∃ r, validateItems (fun sub => b.validate (.arr sub) vv) (⟨s ++ b.shape, d⟩ : NDArray α) items = .ok r := by
      intro items
      induction items with
      | nil => intro _; exact ⟨_, rfl⟩
      | cons it items ihi =>
        intro hin
        obtain ⟨r', hr'⟩ := ihi fun x hx => hin x (List.mem_cons_of_mem _ hx)
        have hmem := hin it (List.mem_cons_self ..)
        have hget := getItem_eq (a := (⟨s ++ b.shape, d⟩ : NDArray α)) (s := s) (rest := b.shape) rfl hmem
        have hlen : d.length = s.prod * b.shape.prod := by
          have := ha; simp only [NDArray.WF, List.prod_append] at this; exact this
        obtain ⟨⟨ok, m⟩, hr⟩ := ih hw.2.1 hw.2.2 ⟨b.shape, chunk b.shape.prod d (ravel s it)⟩ vv
          (by simp only [NDArray.WF]; exact length_chunk hlen (List.mem_range.mp (by rw [← map_ravel_productRanges]; exact List.mem_map_of_mem hmem))) rfl
        simp only [validateItems, hget, bind, Except.bind, hr, hr']
        cases ok
        · exact ⟨_, rfl⟩
        · exact ⟨_, rfl⟩
    exact hitems _ fun _ h => h
  | hdict es l fd ih => intro hd; simp [isDict] at hd
  | hnil => trivial
  | hcons => trivial

/-- **C80, arrays.**  `PatternArray.validate_folded` never raises, whatever the array and the base pattern. -/
theorem C80_array_never_raises {s : List Nat} {base p : Pattern} {fd : Option Bool} (hb : Built base)
    (hp : mkArray s base fd = .ok p) (a : NDArray Flt) (ha : a.WF) (vv : Option Bool) :
    ∃ b m, p.validate (.arr a) vv = .ok (b, m) := by
  have hw := (Built.array hb hp).wf
  obtain ⟨rfl, _, _⟩ := mkArray_eq hp
  by_cases h : a.shape = s ++ base.shape
  · obtain ⟨⟨b, m⟩, hr⟩ := validate_chunk_ok (.array s base fd) rfl hw a vv ha h
    exact ⟨b, m, hr⟩
  · simp only [validate, Val.asArr, bind, Except.bind, pure, Except.pure, ne_eq, h, not_false_eq_true, if_true]
    split
    · exact ⟨_, _, rfl⟩
    · exact ⟨_, _, rfl⟩

/-- An array of two matrices, offered two rows. -/
example : ∃ b m, (Pattern.array [2] (.psd 2 (.int 0) true none) none).validate
    (.arr ⟨[2, 2], [.fin 1, .fin 2, .fin 3, .fin 4]⟩ : Val Flt) (some true) = .ok (b, m) :=
  C80_array_never_raises (s := [2]) (base := .psd 2 (.int 0) true none) (fd := none)
    (Pattern.WF.built _ (by simp [Pattern.WF, PyNum.toFlt, Flt.lt])) rfl _ (by simp [NDArray.WF]) _

theorem validateEs_error {es : Entries} {vs : List (String × Val Flt)} {vv : Option Bool} {e : Err} :
    validateEs es vs vv = .error e ↔
      ∃ pre k q post v, es.toList = pre ++ (k, q) :: post ∧
        (∀ kp ∈ pre, ∃ w m, vs.lookup kp.1 = some w ∧ kp.2.validate w vv = .ok (true, m)) ∧
        vs.lookup k = some v ∧ q.validate v vv = .error e := by
  induction es using Entries.rec (motive_1 := fun _ => True) with
  | nil => simp [validateEs, Entries.toList]
  | cons k p r _ ih =>
    simp only [validateEs, Entries.toList]
    cases hl : vs.lookup k with
    | none =>
      simp only [reduceCtorEq, false_iff, not_exists, not_and]
      intro pre k' q post v heq hpre hk'
      cases pre with
      | nil =>
        simp only [List.nil_append, List.cons.injEq, Prod.mk.injEq] at heq
        rw [← heq.1.1, hl] at hk'; cases hk'
      | cons x pre =>
        simp only [List.cons_append, List.cons.injEq] at heq
        obtain ⟨w, m, h1, _⟩ := hpre x (List.mem_cons_self ..)
        rw [← heq.1] at h1
        simp only [hl] at h1; cases h1
    | some v =>
      simp only [bind, Except.bind]
      cases hv : p.validate v vv with
      | error e' =>
        simp only [Except.error.injEq]
        constructor
        · rintro rfl
          exact ⟨[], k, p, r.toList, v, rfl, by simp, hl, hv⟩
        · rintro ⟨pre, k', q, post, v', heq, hpre, hk', hq⟩
          cases pre with
          | nil =>
            simp only [List.nil_append, List.cons.injEq, Prod.mk.injEq] at heq
            obtain ⟨⟨rfl, rfl⟩, _⟩ := heq
            rw [hl] at hk'; cases hk'
            rw [hv] at hq; cases hq; rfl
          | cons x pre =>
            simp only [List.cons_append, List.cons.injEq] at heq
            obtain ⟨w, m, h1, h2⟩ := hpre x (List.mem_cons_self ..)
            rw [← heq.1] at h1 h2
            simp only [hl, Option.some.injEq] at h1
            subst h1
            simp only [hv] at h2; cases h2
      | ok r' =>
        obtain ⟨ok, m⟩ := r'
        cases ok with
        | false =>
          simp only [Bool.not_false, if_true, pure, Except.pure, reduceCtorEq, false_iff, not_exists, not_and]
          intro pre k' q post v' heq hpre hk' hq
          cases pre with
          | nil =>
            simp only [List.nil_append, List.cons.injEq, Prod.mk.injEq] at heq
            obtain ⟨⟨rfl, rfl⟩, _⟩ := heq
            rw [hl] at hk'; cases hk'
            rw [hv] at hq; cases hq
          | cons x pre =>
            simp only [List.cons_append, List.cons.injEq] at heq
            obtain ⟨w, m', h1, h2⟩ := hpre x (List.mem_cons_self ..)
            rw [← heq.1] at h1 h2
            simp only [hl, Option.some.injEq] at h1
            subst h1
            simp only [hv, Except.ok.injEq, Prod.mk.injEq, Bool.false_eq_true, false_and] at h2
        | true =>
          simp only [Bool.not_true, Bool.false_eq_true, if_false]
          rw [ih]
          constructor
          · rintro ⟨pre, k', q, post, v', heq, hpre, hk', hq⟩
            refine ⟨(k, p) :: pre, k', q, post, v', by rw [heq]; rfl, ?_, hk', hq⟩
            intro kp hkp
            rcases List.mem_cons.mp hkp with rfl | hkp
            · exact ⟨v, m, hl, hv⟩
            · exact hpre kp hkp
          · rintro ⟨pre, k', q, post, v', heq, hpre, hk', hq⟩
            cases pre with
            | nil =>
              simp only [List.nil_append, List.cons.injEq, Prod.mk.injEq] at heq
              obtain ⟨⟨rfl, rfl⟩, _⟩ := heq
              rw [hl] at hk'; cases hk'
              rw [hv] at hq; cases hq
            | cons x pre =>
              simp only [List.cons_append, List.cons.injEq] at heq
              exact ⟨pre, k', q, post, v', heq.2, fun kp hkp => hpre kp (List.mem_cons_of_mem _ hkp), hk', hq⟩
  | _ => trivial

/-- **C80, dictionaries.**  `PatternDict.validate_folded` raises exactly when a member raises and every earlier member is
present and accepted; an earlier member that is missing or refused hides the exception. -/
theorem C80_dict_raises_iff {es : Entries} {ld : Bool} {fd : Option Bool} (vs : List (String × Val Flt)) (vv : Option Bool)
    (e : Err) :
    (Pattern.dict es ld fd).validate (.dict vs) vv = .error e ↔
      ∃ pre k q post v, es.toList = pre ++ (k, q) :: post ∧
        (∀ kp ∈ pre, ∃ w m, vs.lookup kp.1 = some w ∧ kp.2.validate w vv = .ok (true, m)) ∧
        vs.lookup k = some v ∧ q.validate v vv = .error e := by
  rw [← validateEs_error]
  simp only [validate, Val.asDict, bind, Except.bind]

/-- A number that fits and a matrix of the wrong shape. -/
example : ∃ e, (Pattern.dict (.cons "x" (.numeric .array [1] (.int 0) (.int 1) true none) (.cons "m" (.psd 2 (.int 0) true none) .nil))
    false none).validate (.dict [("m", .arr (vec [.fin 1])), ("x", .arr (vec [.fin 1]))] : Val Flt) (some true) = .error e := by
  obtain ⟨e, he⟩ := (((C80_leaf_wrong_shape (vec [.fin 1]) (some true)).2.1 (n := 2) (lb := .int 0) (dv := true) (fd := none)
    (p := .psd 2 (.int 0) true none) (by simp [mkPSD, PyNum.toFlt, Flt.lt])).1).mpr (by simp [vec])
  refine ⟨e, (C80_dict_raises_iff _ _ _).mpr ⟨[("x", _)], "m", _, [], _, rfl, ?_, rfl, he⟩⟩
  intro kp hkp
  obtain rfl := List.mem_singleton.mp hkp
  exact ⟨.arr (vec [.fin 1]), "", rfl, by
    simp [validate, Val.asArr, bind, Except.bind, pure, Except.pure, Numeric.validate, Numeric.validateShape, vec, atleast1d,
      PyNum.toFlt, Elem.toFlt, Flt.lt, Flt.gt]⟩

end Paragami
