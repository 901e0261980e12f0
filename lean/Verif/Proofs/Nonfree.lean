import Verif.Proofs.Basic
import Verif.Spec.WellFormed

/-!
# The non-free representation

`Acc p v vv`: validation accepts.  `unflat p l` and `flat p v` are the plain reshapes that `foldNF` and `flattenNF`
turn out to compute.
-/

set_option linter.unusedSimpArgs false
set_option linter.unusedSectionVars false

namespace Paragami

namespace Pattern
open NDArray

section
variable {α : Type} [Elem α]

/-- Validation accepts `v`. -/
def Acc (p : Pattern) (v : Val α) (vv : Option Bool) : Prop := ∃ m, p.validate v vv = .ok (true, m)

omit [Elem α] in
theorem asArr_ok {v : Val α} {a : NDArray α} : v.asArr = .ok a ↔ v = .arr a := by
  cases v <;> simp [Val.asArr]

/-! #### Leaf acceptance -/

theorem numeric_validate_true {s : List Nat} {lb ub : Flt} {dv : Bool} {a : NDArray α} {vv : Option Bool} {m} :
    Numeric.validate s lb ub dv a vv = (true, m) ↔
      m = "" ∧ a.atleast1d.shape = s ∧
        (vv.getD dv = true → ∀ x ∈ a.data, (Elem.toFlt x).lt lb = false ∧ (Elem.toFlt x).gt ub = false) := by
  unfold Numeric.validate Numeric.validateShape
  by_cases hs : a.atleast1d.shape = s
  · by_cases hv : vv.getD dv = true
    · simp only [hs, hv, if_true, Bool.not_true, Bool.false_eq_true, if_false, true_implies, true_and,
        atleast1d_data]
      by_cases h1 : (a.data.any fun x => (Elem.toFlt x).lt lb) = true
      · simp only [h1, if_true, Prod.mk.injEq, Bool.false_eq_true, false_and, false_iff, not_and]
        intro _ hall
        obtain ⟨x, hx, hx'⟩ := List.any_eq_true.mp h1
        rw [(hall x hx).1] at hx'; cases hx'
      · by_cases h2 : (a.data.any fun x => (Elem.toFlt x).gt ub) = true
        · simp only [h1, h2, if_true, Bool.false_eq_true, if_false, Prod.mk.injEq, false_and, false_iff, not_and]
          intro _ hall
          obtain ⟨x, hx, hx'⟩ := List.any_eq_true.mp h2
          rw [(hall x hx).2] at hx'; cases hx'
        · simp only [h1, h2, Bool.false_eq_true, if_false, Prod.mk.injEq, true_and]
          simp only [Bool.not_eq_true, List.any_eq_false] at h1 h2
          constructor
          · rintro rfl
            exact ⟨rfl, fun x hx => ⟨by simpa using h1 x hx, by simpa using h2 x hx⟩⟩
          · exact fun h => h.1.symm
    · simp only [hs, hv, if_true, if_false, Bool.not_true, Bool.false_eq_true, Prod.mk.injEq, true_and, false_implies, and_true]; exact eq_comm
  · simp [hs]

theorem simplex_validate_true {k : Nat} {s : List Nat} {dv : Bool} {a : NDArray α} {vv : Option Bool} {m} :
    Simplex.validate k s dv a vv = .ok (true, m) ↔
      m = "" ∧ a.shape = s ++ [k] ∧
        (vv.getD dv = true → (∀ x ∈ a.data, (Elem.toFlt x).lt 0 = false) ∧
          ∀ i < s.prod,
            ((Flt.sum ((chunk k a.data i).map Elem.toFlt) - 1).abs.gt (Flt.fin (1 / 10 ^ 12))) = false) := by
  unfold Simplex.validate Simplex.validateShape
  by_cases hs : a.shape = s ++ [k]
  · by_cases hv : vv.getD dv = true
    · simp only [hs, hv, if_true, Bool.not_true, Bool.false_eq_true, if_false, true_implies, true_and]
      split
      · next h1 =>
        simp only [Except.ok.injEq, Prod.mk.injEq, Bool.false_eq_true, false_and, false_iff, not_and]
        intro _ hall
        simp only [List.any_map, List.any_eq_true, Function.comp] at h1
        obtain ⟨x, hx, hx'⟩ := h1
        rw [hall x hx] at hx'; cases hx'
      · next h1 =>
        split
        · next h2 =>
          simp only [Except.ok.injEq, Prod.mk.injEq, Bool.false_eq_true, false_and, false_iff, not_and]
          intro _ _ hall
          rw [rows_eq] at h2
          simp only [List.any_map, List.any_eq_true, Function.comp, List.mem_range] at h2
          obtain ⟨x, hx, hx'⟩ := h2
          have := hall x hx
          rw [map_chunk] at this
          rw [this] at hx'; cases hx'
        · next h2 =>
          simp only [Except.ok.injEq, Prod.mk.injEq, true_and]
          rw [rows_eq] at h2
          simp only [List.any_map, Bool.not_eq_true, List.any_eq_false, Function.comp, List.mem_range] at h1 h2
          constructor
          · rintro rfl
            refine ⟨rfl, fun x hx => by simpa using h1 x hx, fun i hi => ?_⟩
            rw [map_chunk]
            simpa using h2 i hi
          · exact fun h => h.1.symm
    · simp only [hs, hv, if_true, if_false, Bool.not_true, Bool.false_eq_true, Prod.mk.injEq, true_and, false_implies, and_true, Except.ok.injEq]; exact eq_comm
  · simp [hs]

theorem psd_validate_true {n : Nat} {lb : Flt} {dv : Bool} {a : NDArray α} {vv : Option Bool} {m} :
    PSD.validate n lb dv a vv = .ok (true, m) ↔
      m = "" ∧ a.shape = [n, n] ∧
        (vv.getD dv = true →
          (∀ i < n, (entry n (a.data.map Elem.toFlt) i i).lt lb = false) ∧
          ∀ i < n, ∀ j < n,
            (entry n (a.data.map Elem.toFlt) j i).eq (entry n (a.data.map Elem.toFlt) i j) = true) := by
  unfold PSD.validate PSD.validateShape
  by_cases hs : a.shape = [n, n]
  · by_cases hv : vv.getD dv = true
    · simp only [hs, hv, if_true, Bool.not_true, Bool.false_eq_true, if_false, true_implies, true_and]
      split
      · next h1 =>
        simp only [Except.ok.injEq, Prod.mk.injEq, Bool.false_eq_true, false_and, false_iff, not_and]
        intro _ hall
        simp only [List.any_eq_true, List.mem_range] at h1
        obtain ⟨x, hx, hx'⟩ := h1
        rw [hall x hx] at hx'; cases hx'
      · next h1 =>
        split
        · next h2 =>
          simp only [Except.ok.injEq, Prod.mk.injEq, Bool.false_eq_true, false_and, false_iff, not_and]
          intro _ _ hall
          simp only [Bool.not_eq_eq_eq_not, Bool.not_true, List.all_eq_false, List.mem_range] at h2
          obtain ⟨x, hx, hx'⟩ := h2
          apply hx'
          rw [List.all_eq_true]
          exact fun j hj => hall x hx j (List.mem_range.mp hj)
        · next h2 =>
          simp only [Except.ok.injEq, Prod.mk.injEq, true_and]
          simp only [Bool.not_eq_true, List.any_eq_false, List.mem_range] at h1
          simp only [Bool.not_eq_eq_eq_not, Bool.not_true, Bool.not_eq_false, List.all_eq_true, List.mem_range] at h2
          constructor
          · rintro rfl
            exact ⟨rfl, fun x hx => by simpa using h1 x hx, h2⟩
          · exact fun h => h.1.symm
    · simp only [hs, hv, if_true, if_false, Bool.not_true, Bool.false_eq_true, Prod.mk.injEq, true_and, false_implies, and_true, Except.ok.injEq]; exact eq_comm
  · simp [hs]

theorem acc_numeric {c s lb ub dv fd} {v : Val α} {vv} :
    Acc (.numeric c s lb ub dv fd) v vv ↔ ∃ a, v = .arr a ∧ a.atleast1d.shape = s ∧
      (vv.getD dv = true → ∀ x ∈ a.data, (Elem.toFlt x).lt lb.toFlt = false ∧ (Elem.toFlt x).gt ub.toFlt = false) := by
  cases v with
  | arr a =>
    simp only [Acc, validate, Val.asArr, bind, Except.bind, pure, Except.pure, Except.ok.injEq, numeric_validate_true,
      Val.arr.injEq, exists_eq_left']
    simp
  | dict d => simp [Acc, validate, Val.asArr, bind, Except.bind]

theorem acc_simplex {k s dv fd} {v : Val α} {vv} :
    Acc (.simplex k s dv fd) v vv ↔ ∃ a, v = .arr a ∧ a.shape = s ++ [k] ∧
        (vv.getD dv = true → (∀ x ∈ a.data, (Elem.toFlt x).lt 0 = false) ∧
          ∀ i < s.prod,
            ((Flt.sum ((chunk k a.data i).map Elem.toFlt) - 1).abs.gt (Flt.fin (1 / 10 ^ 12))) = false) := by
  cases v with
  | arr a =>
    simp only [Acc, validate, Val.asArr, bind, Except.bind, simplex_validate_true,
      Val.arr.injEq, exists_eq_left']
    simp
  | dict d => simp [Acc, validate, Val.asArr, bind, Except.bind]

theorem acc_psd {n lb dv fd} {v : Val α} {vv} :
    Acc (.psd n lb dv fd) v vv ↔ ∃ a, v = .arr a ∧ a.shape = [n, n] ∧
        (vv.getD dv = true →
          (∀ i < n, (entry n (a.data.map Elem.toFlt) i i).lt lb.toFlt = false) ∧
          ∀ i < n, ∀ j < n,
            (entry n (a.data.map Elem.toFlt) j i).eq (entry n (a.data.map Elem.toFlt) i j) = true) := by
  cases v with
  | arr a =>
    simp only [Acc, validate, Val.asArr, bind, Except.bind, psd_validate_true,
      Val.arr.injEq, exists_eq_left']
    simp
  | dict d => simp [Acc, validate, Val.asArr, bind, Except.bind]

/-! #### Container acceptance -/

omit [Elem α] in
theorem validateItems_true {f : NDArray α → Except Err (Bool × String)} {a : NDArray α} {s rest : List Nat}
    (ha : a.shape = s ++ rest) {items : List (List Nat)} (hi : ∀ it ∈ items, it ∈ productRanges s) :
    (∃ m, validateItems f a items = .ok (true, m)) ↔
      ∀ it ∈ items, ∃ m, f ⟨rest, chunk rest.prod a.data (ravel s it)⟩ = .ok (true, m) := by
  induction items with
  | nil => simp [validateItems]
  | cons it items ih =>
    have hit := getItem_eq ha (hi it (by simp))
    have ih := ih (fun i h => hi i (by simp [h]))
    simp only [validateItems, hit, bind, Except.bind, List.mem_cons, forall_eq_or_imp]
    rcases hf : f ⟨rest, chunk rest.prod a.data (ravel s it)⟩ with e | ⟨b, m⟩
    · simp
    · cases b
      · simp [pure, Except.pure]
      · simp [ih]

theorem acc_array {s : List Nat} {base : Pattern} {fd} {v : Val α} {vv} :
    Acc (.array s base fd) v vv ↔ ∃ a, v = .arr a ∧ a.shape = s ++ base.shape ∧
      ∀ i < s.prod, Acc base (.arr ⟨base.shape, chunk base.shape.prod a.data i⟩) vv := by
  cases v with
  | dict d => simp [Acc, validate, Val.asArr, bind, Except.bind]
  | arr a =>
    simp only [Val.arr.injEq, exists_eq_left']
    by_cases hs : a.shape = s ++ base.shape
    · have hn : a.ndim = (s ++ base.shape).length := by simp [ndim, hs]
      have key := validateItems_true (f := fun sub => base.validate (.arr sub) vv) hs
        (items := productRanges s) (fun _ h => h)
      have : Acc (.array s base fd) (.arr a) vv ↔
          ∃ m, validateItems (fun sub => base.validate (.arr sub) vv) a (productRanges s) = .ok (true, m) := by
        simp [Acc, validate, Val.asArr, bind, Except.bind, hn, hs]
      rw [this, key]
      simp only [hs, true_and, Acc]
      constructor
      · intro h i hi
        rw [← List.mem_range, ← map_ravel_productRanges, List.mem_map] at hi
        obtain ⟨it, hit, rfl⟩ := hi
        exact h it hit
      · intro h it hit
        apply h
        rw [← List.mem_range, ← map_ravel_productRanges]
        exact List.mem_map_of_mem hit
    · simp only [hs, false_and, iff_false]
      rintro ⟨m, hm⟩
      simp only [validate, Val.asArr, bind, Except.bind] at hm
      split at hm
      · simp [pure, Except.pure] at hm
      · simp [pure, Except.pure] at hm

/-- Acceptance of every member. -/
def AccEs : Entries → List (String × Val α) → Option Bool → Prop
  | .nil, _, _ => True
  | .cons k p r, vs, vv => (∃ v, vs.lookup k = some v ∧ Acc p v vv) ∧ AccEs r vs vv

theorem validateEs_true {es : Entries} {vs : List (String × Val α)} {vv} :
    (∃ m, validateEs es vs vv = .ok (true, m)) ↔ AccEs es vs vv := by
  match es with
  | .nil => simp [validateEs, AccEs]
  | .cons k p r =>
    have ih := validateEs_true (es := r) (vs := vs) (vv := vv)
    simp only [validateEs, AccEs]
    cases hl : vs.lookup k with
    | none => simp
    | some v =>
      simp only [Option.some.injEq, exists_eq_left', bind, Except.bind, Acc]
      rcases hp : p.validate v vv with e | ⟨b, m⟩
      · simp
      · cases b
        · simp [pure, Except.pure]
        · simp [ih]

theorem acc_dict {es l fd} {v : Val α} {vv} :
    Acc (.dict es l fd) v vv ↔ ∃ vs, v = .dict vs ∧ AccEs es vs vv := by
  cases v with
  | arr a => simp [Acc, validate, Val.asDict, bind, Except.bind]
  | dict d => simp [Acc, validate, Val.asDict, bind, Except.bind, validateEs_true]

end

end Pattern

end Paragami
