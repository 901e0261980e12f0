import Verif.Proofs.NonfreeTrip

/-! # The simplex transforms are softmax and its inverse -/

set_option linter.unusedSimpArgs false

namespace Paragami
open NDArray

theorem Flt.foldl_add_fin (l : List ℝ) (c : ℝ) :
    (l.map Flt.fin).foldl (· + ·) (Flt.fin c) = Flt.fin (c + l.sum) := by
  induction l generalizing c with
  | nil => simp
  | cons a l ih => simp only [List.map_cons, List.foldl_cons, Flt.add_fin, ih, List.sum_cons]; ring_nf

/-- Summing finite floats is summing reals. -/
theorem Flt.sum_fin (l : List ℝ) : Flt.sum (l.map Flt.fin) = Flt.fin l.sum := by
  have := Flt.foldl_add_fin l 0
  simpa [Flt.sum] using this

theorem Flt.max2_fin (a b : ℝ) : Flt.max2 (.fin a) (.fin b) = .fin (max a b) := by
  simp only [Flt.max2, Flt.lt_fin, decide_eq_true_eq]
  split
  · next h => rw [max_eq_right h.le]
  · next h => rw [max_eq_left (not_lt.mp h)]

/-- The maximum of finite floats is a finite float. -/
theorem Flt.maxOf_fin (a : ℝ) (l : List ℝ) : Flt.maxOf (.fin a) (l.map .fin) = .fin (l.foldl max a) := by
  induction l generalizing a with
  | nil => rfl
  | cons b l ih =>
    have := ih (max a b)
    simp only [Flt.maxOf, List.map_cons, List.foldl_cons, Flt.max2_fin] at this ⊢
    exact this

theorem sum_exp_pos (a : ℝ) (l : List ℝ) : 0 < ((a :: l).map Real.exp).sum := by
  rw [List.map_cons, List.sum_cons]
  have : 0 ≤ (l.map Real.exp).sum := List.sum_nonneg (by simp; intro x _; positivity)
  have := Real.exp_pos a
  linarith

/-- `logsumexp` of finite numbers is `log Σ exp`. -/
theorem logsumexp1_fin (a : ℝ) (l : List ℝ) :
    logsumexp1 (.fin a) (l.map .fin) = .fin (Real.log ((a :: l).map Real.exp).sum) := by
  simp only [logsumexp1, lseSum, lseShift, List.map_map, Flt.maxOf_fin]
  set M := l.foldl max a
  have e1 : ((Flt.fin a :: l.map Flt.fin).map (Flt.exp ∘ fun x => x - Flt.fin M)) =
      ((a :: l).map fun x => Real.exp (x - M)).map Flt.fin := by
    simp [Function.comp_def]
  have e2 : ((a :: l).map fun x => Real.exp (x - M)).sum = ((a :: l).map Real.exp).sum * Real.exp (-M) := by
    rw [← List.sum_map_mul_right]
    congr 1
    apply List.map_congr_left
    intro x _
    rw [sub_eq_add_neg, Real.exp_add]
  have hp := sum_exp_pos a l
  rw [e1, Flt.sum_fin, e2, Flt.log_fin (mul_pos hp (Real.exp_pos _)), Flt.add_fin,
    Real.log_mul hp.ne' (Real.exp_pos _).ne', Real.log_exp]
  congr 1; ring

/-- The softmax of a real vector. -/
noncomputable def softmax (l : List ℝ) : List ℝ := l.map fun x => Real.exp x / (l.map Real.exp).sum

theorem constrainSimplexRow_fin (r : List ℝ) :
    constrainSimplexRow (r.map .fin) = (softmax (0 :: r)).map .fin := by
  have h := logsumexp1_fin 0 r
  have h0 : (0 : Flt) = Flt.fin 0 := by simp
  simp only [constrainSimplexRow, h0, h]
  have hp := sum_exp_pos 0 r
  rw [show Flt.fin 0 :: r.map Flt.fin = ((0 : ℝ) :: r).map Flt.fin from rfl]
  simp only [softmax, List.map_map]
  apply List.map_congr_left
  intro x _
  simp only [Function.comp, Flt.sub_fin, Flt.exp_fin, Real.exp_sub, Real.exp_log hp]

theorem softmax_pos {l : List ℝ} {x : ℝ} (hx : x ∈ softmax l) : 0 < x := by
  cases l with
  | nil => simp [softmax] at hx
  | cons a l =>
    simp only [softmax, List.mem_map] at hx
    obtain ⟨y, _, rfl⟩ := hx
    exact div_pos (Real.exp_pos _) (sum_exp_pos a l)

theorem softmax_sum (a : ℝ) (l : List ℝ) : (softmax (a :: l)).sum = 1 := by
  have hp := sum_exp_pos a l
  have : softmax (a :: l) = ((a :: l).map Real.exp).map fun e => e * ((a :: l).map Real.exp).sum⁻¹ := by
    simp only [softmax, List.map_map]
    apply List.map_congr_left
    intro x _; simp [div_eq_mul_inv]
  rw [this, List.sum_map_mul_right, List.map_id', mul_inv_cancel₀ hp.ne']

@[simp] theorem length_softmax (l : List ℝ) : (softmax l).length = l.length := by simp [softmax]

/-- Freeing a softmax gives the free parameters back. -/
theorem unconstrainSimplexRow_softmax (r : List ℝ) :
    unconstrainSimplexRow ((softmax (0 :: r)).map .fin) = r.map .fin := by
  have hp := sum_exp_pos 0 r
  set Z := (((0 : ℝ) :: r).map Real.exp).sum
  have : softmax (0 :: r) = (Real.exp 0 / Z) :: r.map fun x => Real.exp x / Z := rfl
  rw [this]
  simp only [List.map_cons, unconstrainSimplexRow, List.map_map]
  apply List.map_congr_left
  intro x _
  have h1 : 0 < Real.exp x / Z := div_pos (Real.exp_pos _) hp
  have h2 : 0 < Real.exp 0 / Z := div_pos (Real.exp_pos _) hp
  simp only [Function.comp, Flt.log_fin h1, Flt.log_fin h2, Flt.sub_fin]
  rw [Real.log_div (Real.exp_pos _).ne' hp.ne', Real.log_div (Real.exp_pos _).ne' hp.ne']
  simp

/-- Freeing a positive vector and un-freeing the result normalizes it. -/
theorem constrain_unconstrain_simplex {x0 : ℝ} {xs : List ℝ} (h0 : 0 < x0) (hs : ∀ x ∈ xs, 0 < x) :
    ∃ r : List ℝ, r.length = xs.length ∧ unconstrainSimplexRow ((x0 :: xs).map .fin) = r.map .fin ∧
      constrainSimplexRow (r.map .fin) = ((x0 :: xs).map fun x => x / (x0 :: xs).sum).map .fin := by
  refine ⟨xs.map fun x => Real.log x - Real.log x0, by simp, ?_, ?_⟩
  · simp only [List.map_cons, unconstrainSimplexRow, List.map_map]
    apply List.map_congr_left
    intro x hx
    simp [Function.comp, Flt.log_fin h0, Flt.log_fin (hs x hx)]
  · rw [constrainSimplexRow_fin]
    congr 1
    have e1 : ((0 : ℝ) :: xs.map fun x => Real.log x - Real.log x0).map Real.exp =
        (x0 :: xs).map fun x => x * x0⁻¹ := by
      simp only [List.map_cons, List.map_map, Real.exp_zero, mul_inv_cancel₀ h0.ne']
      congr 1
      apply List.map_congr_left
      intro x hx
      simp [Function.comp, Real.exp_sub, Real.exp_log h0, Real.exp_log (hs x hx), div_eq_mul_inv]
    have e2 : (((0 : ℝ) :: xs.map fun x => Real.log x - Real.log x0).map Real.exp).sum =
        (x0 :: xs).sum * x0⁻¹ := by
      rw [e1, List.sum_map_mul_right, List.map_id']
    have e3 : softmax ((0 : ℝ) :: xs.map fun x => Real.log x - Real.log x0) =
        (((0 : ℝ) :: xs.map fun x => Real.log x - Real.log x0).map Real.exp).map
          (fun e => e / ((x0 :: xs).sum * x0⁻¹)) := by
      rw [softmax, e2, List.map_map]; rfl
    rw [e3, e1, List.map_map]
    apply List.map_congr_left
    intro x hx
    simp only [Function.comp]
    rw [mul_div_mul_right _ _ (inv_ne_zero h0.ne')]

namespace Simplex

theorem foldFree_ok {k : Nat} {s : List Nat} {x a : NDArray Flt} :
    foldFree k s x = .ok a ↔ x.len = .ok (s ++ [k - 1]).prod ∧ x.data.length = (s ++ [k - 1]).prod ∧
      a = ⟨s ++ [k], (List.range s.prod).flatMap fun i => constrainSimplexRow (chunk (k - 1) x.data i)⟩ := by
  simp only [foldFree, bind, Except.bind, throw, throwThe, MonadExceptOf.throw, pure, Except.pure]
  cases hlen : x.len with
  | error e => simp
  | ok n =>
    simp only [Except.ok.injEq]
    by_cases hn : n = (s ++ [k - 1]).prod
    · by_cases hd : x.data.length = (s ++ [k - 1]).prod
      · have h3 : x.reshape (s ++ [k - 1]) = .ok ⟨s ++ [k - 1], x.data⟩ := by rw [Pattern.reshape_ok]; simp [hd]
        simp only [h3, hn, hd, ne_eq, not_true_eq_false, if_false, true_and, Except.ok.injEq, rows_eq,
          List.flatMap_map]
        exact eq_comm
      · have h3 : x.reshape (s ++ [k - 1]) = .error (.valueError "cannot reshape array") := by
          unfold reshape; simp only [hd, if_false]
        simp only [h3, hn, hd, ne_eq, not_true_eq_false, if_false, reduceCtorEq, false_and, and_false]
    · simp only [hn, ne_eq, not_false_eq_true, if_true, reduceCtorEq, false_and]

theorem flattenFree_ok {k : Nat} {s : List Nat} {dv : Bool} {a x : NDArray Flt} {vv} :
    flattenFree k s dv a vv = .ok x ↔ validate k s dv a vv = .ok (true, "") ∧
      x = vec ((List.range s.prod).flatMap fun i => unconstrainSimplexRow (chunk k a.data i)) := by
  simp only [flattenFree, bind, Except.bind, throw, throwThe, MonadExceptOf.throw, pure, Except.pure]
  rcases hv : validate k s dv a vv with e | ⟨b, m⟩
  · simp
  cases b
  · simp
  · have hm : m = "" := (Pattern.simplex_validate_true.mp hv).1
    subst hm
    simp only [Bool.not_true, Bool.false_eq_true, if_false, Except.ok.injEq, rows_eq, List.flatMap_map, true_and]
    exact eq_comm

end Simplex

end Paragami
