import Verif.Proofs.User
import Verif.Props.Validation

/-! # C14–C17: simplexes -/

set_option linter.unusedSimpArgs false

namespace Paragami
open NDArray

/-! ### C17: `logsumexp` -/

theorem foldl_max_ge (l : List ℝ) (a : ℝ) : a ≤ l.foldl max a ∧ ∀ x ∈ l, x ≤ l.foldl max a := by
  induction l generalizing a with
  | nil => simp
  | cons b l ih =>
    obtain ⟨h1, h2⟩ := ih (max a b)
    simp only [List.foldl_cons, List.mem_cons, forall_eq_or_imp]
    exact ⟨le_trans (le_max_left _ _) h1, le_trans (le_max_right _ _) h1, h2⟩

theorem foldl_max_mem (l : List ℝ) (a : ℝ) : l.foldl max a ∈ a :: l := by
  induction l generalizing a with
  | nil => simp
  | cons b l ih =>
    have := ih (max a b)
    rcases List.mem_cons.mp this with h | h
    · rw [List.foldl_cons, h]
      rcases max_choice a b with h | h <;> simp [h]
    · simp [h]

theorem list_sum_le_length {l : List ℝ} (h : ∀ x ∈ l, x ≤ 1) : l.sum ≤ l.length := by
  induction l with
  | nil => simp
  | cons a l ih =>
    have := ih (fun x hx => h x (by simp [hx]))
    have := h a (by simp)
    simp only [List.sum_cons, List.length_cons]; push_cast; linarith

theorem le_list_sum_of_mem {l : List ℝ} (h : ∀ x ∈ l, 0 ≤ x) {y : ℝ} (hy : y ∈ l) : y ≤ l.sum := by
  induction l with
  | nil => simp at hy
  | cons a l ih =>
    simp only [List.sum_cons]
    have h0 := h a (by simp)
    have h1 : 0 ≤ l.sum := List.sum_nonneg fun x hx => h x (by simp [hx])
    rcases List.mem_cons.mp hy with rfl | hy
    · linarith
    · have := ih (fun x hx => h x (by simp [hx])) hy; linarith

/-- **C17, safety.**  On a slice of finite numbers no positive number is exponentiated, and the sum whose log is taken
lies between one and the length of the slice. -/
theorem C17_logsumexp_safe (a : ℝ) (l : List ℝ) :
    (∀ x ∈ lseShift (.fin a) (l.map .fin), ∃ r : ℝ, x = .fin r ∧ r ≤ 0) ∧
      ∃ S : ℝ, lseSum (.fin a) (l.map .fin) = .fin S ∧ 1 ≤ S ∧ S ≤ (l.length + 1 : ℝ) := by
  have e1 : lseShift (.fin a) (l.map .fin) = ((a :: l).map fun x => x - l.foldl max a).map .fin := by
    simp [lseShift, Flt.maxOf_fin, Function.comp_def]
  have hle : ∀ y ∈ (a :: l).map fun x => x - l.foldl max a, y ≤ 0 := by
    intro y hy
    obtain ⟨x, hx, rfl⟩ := List.mem_map.mp hy
    obtain ⟨h1, h2⟩ := foldl_max_ge l a
    rcases List.mem_cons.mp hx with rfl | hx
    · simpa using h1
    · simpa using h2 x hx
  constructor
  · rw [e1]
    intro x hx
    obtain ⟨y, hy, rfl⟩ := List.mem_map.mp hx
    exact ⟨y, rfl, hle y hy⟩
  · refine ⟨(((a :: l).map fun x => x - l.foldl max a).map Real.exp).sum, ?_, ?_, ?_⟩
    · rw [lseSum, e1, ← Flt.sum_fin]
      simp [Function.comp_def]
    · apply le_list_sum_of_mem
      · intro x hx
        obtain ⟨y, _, rfl⟩ := List.mem_map.mp hx
        exact (Real.exp_pos _).le
      · rw [List.mem_map]
        exact ⟨0, List.mem_map.mpr ⟨_, foldl_max_mem l a, sub_self _⟩, Real.exp_zero⟩
    · have : (((a :: l).map fun x => x - l.foldl max a).map Real.exp).length = l.length + 1 := by simp
      have h2 := list_sum_le_length (l := ((a :: l).map fun x => x - l.foldl max a).map Real.exp) (by
        intro x hx
        obtain ⟨y, hy, rfl⟩ := List.mem_map.mp hx
        exact Real.exp_le_one_iff.mpr (hle y hy))
      rw [this] at h2
      exact_mod_cast h2

/-- **C17, exactness.**  For every finite array and every axis of positive length, counted from the front or from the
end, `logsumexp` keeps the axis with length one, and each entry is `log Σ_j exp` over the corresponding slice. -/
theorem C17_logsumexp_exact (pre post : List Nat) (k : Nat) (hk : 0 < k) (r : List ℝ)
    (hr : r.length = (pre ++ k :: post).prod) (axis : Int)
    (hax : axis = pre.length ∨ axis = -((post.length : Int) + 1)) :
    ∃ d : List Flt, logsumexp ⟨pre ++ k :: post, r.map .fin⟩ axis = .ok ⟨pre ++ 1 :: post, d⟩ ∧
      d.length = pre.prod * post.prod ∧
      ∀ o < pre.prod, ∀ i < post.prod, d[o * post.prod + i]? =
        some (.fin (Real.log (∑ j ∈ Finset.range k, Real.exp (r.getD ((o * k + j) * post.prod + i) 0)))) := by
  have hax' : (if axis < 0 then axis + ((pre ++ k :: post).length : Int) else axis) = pre.length := by
    rcases hax with rfl | rfl
    · rw [if_neg (by omega)]
    · rw [if_pos (by omega)]; simp; ring
  have hcell : ∀ o < pre.prod, ∀ i < post.prod,
      (match (List.range k).map fun j => (r.map Flt.fin).getD ((o * k + j) * post.prod + i) .nan with
        | [] => (.error (.valueError "zero-size array to reduction operation maximum") : Except Err Flt)
        | a :: l => .ok (logsumexp1 a l)) =
      .ok (.fin (Real.log (∑ j ∈ Finset.range k, Real.exp (r.getD ((o * k + j) * post.prod + i) 0)))) := by
    intro o ho i hi
    have e1 : ((List.range k).map fun j => (r.map Flt.fin).getD ((o * k + j) * post.prod + i) .nan) =
        ((List.range k).map fun j => r.getD ((o * k + j) * post.prod + i) 0).map .fin := by
      rw [List.map_map]
      apply List.map_congr_left
      intro j hj
      have hj' : j < k := List.mem_range.mp hj
      apply getD_map_fin
      rw [hr, List.prod_append, List.prod_cons]
      have h1 : o * k + j < pre.prod * k := by
        calc o * k + j < o * k + k := by omega
          _ = (o + 1) * k := by ring
          _ ≤ pre.prod * k := Nat.mul_le_mul_right _ ho
      calc (o * k + j) * post.prod + i < (o * k + j) * post.prod + post.prod := by omega
        _ = (o * k + j + 1) * post.prod := by ring
        _ ≤ pre.prod * k * post.prod := Nat.mul_le_mul_right _ h1
        _ = pre.prod * (k * post.prod) := by ring
    rw [e1]
    have e2 := sum_map_range k (fun j => Real.exp (r.getD ((o * k + j) * post.prod + i) 0))
    rw [← e2]
    obtain ⟨k', rfl⟩ := Nat.exists_eq_succ_of_ne_zero hk.ne'
    simp only [List.range_succ_eq_map, List.map_cons]
    rw [logsumexp1_fin]
    simp [Function.comp_def]
  refine ⟨((List.range pre.prod).map fun o => (List.range post.prod).map fun i =>
      Flt.fin (Real.log (∑ j ∈ Finset.range k, Real.exp (r.getD ((o * k + j) * post.prod + i) 0)))).flatten, ?_, ?_, ?_⟩
  · simp only [logsumexp, hax', bind, Except.bind, throw, throwThe, MonadExceptOf.throw, pure, Except.pure]
    rw [if_neg (by simp)]
    have h1 : (pre ++ k :: post).take ((pre.length : Int)).toNat = pre := by simp
    have h2 : (pre ++ k :: post).getD ((pre.length : Int)).toNat 0 = k := by simp
    have h3 : (pre ++ k :: post).drop (((pre.length : Int)).toNat + 1) = post := by
      simp [List.drop_append]
    rw [h1, h2, h3, mapE_ok_of (g := fun o => (List.range post.prod).map fun i =>
      Flt.fin (Real.log (∑ j ∈ Finset.range k, Real.exp (r.getD ((o * k + j) * post.prod + i) 0))))]
    intro o ho
    rw [mapE_ok_of (g := fun i =>
      Flt.fin (Real.log (∑ j ∈ Finset.range k, Real.exp (r.getD ((o * k + j) * post.prod + i) 0))))]
    intro i hi
    exact hcell o (List.mem_range.mp ho) i (List.mem_range.mp hi)
  · rw [← List.flatMap_def]
    exact length_flatMap_range _ (by simp)
  · intro o ho i hi
    rw [getElem?_of_chunk hi, ← List.flatMap_def, chunk_of_flatMap _ (by simp) ho]
    simp [hi]

/-- C17_logsumexp_exact is not vacuous: the middle axis of a 2 × 3 × 2 array. -/
example : (0 : Nat) < 3 ∧ (List.replicate 12 (1 : ℝ)).length = ([2] ++ 3 :: [2]).prod ∧
    ((1 : Int) = ([2] : List Nat).length ∨ (1 : Int) = -((([2] : List Nat).length : Int) + 1)) := by
  refine ⟨by norm_num, by simp, .inl rfl⟩

/-! ### Rows: constraining what unconstraining produced, zeros allowed -/

/-- `exp` of a number that is real or `-inf`, as a real. -/
noncomputable def expR : Flt → ℝ
  | .fin a => Real.exp a
  | _ => 0

/-- The number is real or `-inf`. -/
def NoTop : Flt → Prop
  | .fin _ => True
  | .ninf => True
  | _ => False

theorem maxOf_noTop (l : List Flt) (h : ∀ x ∈ l, NoTop x) (a : ℝ) : ∃ M : ℝ, Flt.maxOf (.fin a) l = .fin M := by
  induction l generalizing a with
  | nil => exact ⟨a, rfl⟩
  | cons b l ih =>
    have hb := h b (by simp)
    have ih := fun a => ih (fun x hx => h x (by simp [hx])) a
    cases b with
    | fin b => obtain ⟨M, hM⟩ := ih (max a b); exact ⟨M, by rw [← hM, ← Flt.max2_fin]; rfl⟩
    | ninf => obtain ⟨M, hM⟩ := ih a; exact ⟨M, by rw [← hM]; rfl⟩
    | pinf => simp [NoTop] at hb
    | nan => simp [NoTop] at hb

theorem exp_sub_noTop {x : Flt} (h : NoTop x) (M : ℝ) : (x - .fin M).exp = .fin (expR x * Real.exp (-M)) := by
  cases x with
  | fin b => simp [expR, ← Real.exp_add, sub_eq_add_neg]
  | ninf =>
    have : Flt.ninf - Flt.fin M = Flt.ninf := rfl
    rw [this]; simp [expR]
  | pinf => simp [NoTop] at h
  | nan => simp [NoTop] at h

theorem logsumexp1_noTop (a : ℝ) (l : List Flt) (h : ∀ x ∈ l, NoTop x) :
    logsumexp1 (.fin a) l = .fin (Real.log (Real.exp a + (l.map expR).sum)) := by
  obtain ⟨M, hM⟩ := maxOf_noTop l h a
  have e1 : ((Flt.fin a :: l).map fun x => (x - Flt.fin M).exp) =
      ((Flt.fin a :: l).map fun x => expR x * Real.exp (-M)).map Flt.fin := by
    rw [List.map_map]
    apply List.map_congr_left
    intro x hx
    apply exp_sub_noTop
    rcases List.mem_cons.mp hx with rfl | hx
    · trivial
    · exact h x hx
  have e2 : ((Flt.fin a :: l).map fun x => expR x * Real.exp (-M)).sum =
      (Real.exp a + (l.map expR).sum) * Real.exp (-M) := by
    rw [List.sum_map_mul_right]; rfl
  have hp : 0 < Real.exp a + (l.map expR).sum := by
    have : 0 ≤ (l.map expR).sum := List.sum_nonneg (by
      intro x hx
      obtain ⟨y, _, rfl⟩ := List.mem_map.mp hx
      cases y <;> simp [expR, (Real.exp_pos _).le])
    have := Real.exp_pos a
    linarith
  simp only [logsumexp1, lseSum, lseShift, List.map_map, hM, Function.comp_def]
  rw [e1, Flt.sum_fin, e2, Flt.log_fin (mul_pos hp (Real.exp_pos _)), Flt.add_fin,
    Real.log_mul hp.ne' (Real.exp_pos _).ne', Real.log_exp]
  congr 1; ring

/-- Freeing a non-negative vector with positive first entry and un-freeing the result normalizes it. -/
theorem constrain_unconstrain_nonneg {x0 : ℝ} {xs : List ℝ} (h0 : 0 < x0) (hs : ∀ x ∈ xs, 0 ≤ x) :
    constrainSimplexRow (unconstrainSimplexRow ((x0 :: xs).map .fin)) =
      ((x0 :: xs).map fun x => x / (x0 :: xs).sum).map .fin := by
  set u : ℝ → Flt := fun x => (Flt.fin x).log - (Flt.fin x0).log with hu
  have hu1 : ∀ x ∈ xs, NoTop (u x) ∧ expR (u x) = x * x0⁻¹ := by
    intro x hx
    rcases (hs x hx).eq_or_lt with h | h
    · subst h
      have : u 0 = Flt.ninf := by
        simp only [hu, Flt.log_fin h0]; simp [Flt.log]; rfl
      rw [this]; simp [NoTop, expR]
    · have : u x = Flt.fin (Real.log x - Real.log x0) := by
        simp only [hu, Flt.log_fin h0, Flt.log_fin h, Flt.sub_fin]
      rw [this]; simp [NoTop, expR, Real.exp_sub, Real.exp_log h0, Real.exp_log h, div_eq_mul_inv]
  have e0 : unconstrainSimplexRow ((x0 :: xs).map .fin) = xs.map u := by
    simp only [List.map_cons, unconstrainSimplexRow, List.map_map]; rfl
  have hno : ∀ y ∈ xs.map u, NoTop y := by
    intro y hy
    obtain ⟨x, hx, rfl⟩ := List.mem_map.mp hy
    exact (hu1 x hx).1
  have hsum : ((xs.map u).map expR).sum = xs.sum * x0⁻¹ := by
    rw [List.map_map, List.map_congr_left (f := expR ∘ u) (g := fun x => x * x0⁻¹) (fun x hx => (hu1 x hx).2), List.sum_map_mul_right,
      List.map_id']
  have hxs : 0 ≤ xs.sum := List.sum_nonneg hs
  set S := (x0 :: xs).sum with hS
  have hS' : S = x0 + xs.sum := by simp [hS]
  have hSp : 0 < S := by linarith
  have e3 : Real.exp 0 + ((xs.map u).map expR).sum = S * x0⁻¹ := by
    rw [hsum, hS', Real.exp_zero]; field_simp
  have hlse : logsumexp1 (.fin 0) (xs.map u) = .fin (Real.log (S * x0⁻¹)) := by
    rw [logsumexp1_noTop 0 _ hno, e3]
  have hpos : 0 < S * x0⁻¹ := by positivity
  rw [e0]
  have hz : (0 : Flt) = Flt.fin 0 := by simp
  simp only [constrainSimplexRow, hz, hlse]
  have hexp : ∀ y, NoTop y → (y - .fin (Real.log (S * x0⁻¹))).exp = .fin (expR y / (S * x0⁻¹)) := by
    intro y hy
    rw [exp_sub_noTop hy, Real.exp_neg, Real.exp_log hpos, div_eq_mul_inv]
  simp only [List.map_cons, List.map_map]
  congr 1
  · rw [hexp (Flt.fin 0) trivial]
    congr 1
    simp only [expR, Real.exp_zero]
    field_simp
  · apply List.map_congr_left
    intro x hx
    simp only [Function.comp]
    rw [hexp _ (hu1 x hx).1, (hu1 x hx).2]
    congr 1
    field_simp

theorem foldl_max2_top (l : List Flt) (c : Flt) (hc : c = .pinf ∨ c = .nan) : l.foldl Flt.max2 c = .pinf ∨
    l.foldl Flt.max2 c = .nan := by
  induction l generalizing c with
  | nil => exact hc
  | cons b l ih =>
    apply ih
    rcases hc with rfl | rfl <;> cases b <;> simp [Flt.max2, Flt.lt]

/-- A free simplex row with an entry that is `inf` or NaN constrains to NaN throughout. -/
theorem constrainSimplexRow_top {l : List Flt} {x : Flt} (hx : x ∈ l) (hx' : x = .pinf ∨ x = .nan) :
    constrainSimplexRow l = List.replicate (l.length + 1) .nan := by
  have hm : Flt.maxOf 0 l = .pinf ∨ Flt.maxOf 0 l = .nan := by
    obtain ⟨l1, l2, rfl⟩ := List.append_of_mem hx
    simp only [Flt.maxOf, List.foldl_append, List.foldl_cons]
    apply foldl_max2_top
    generalize List.foldl Flt.max2 0 l1 = c
    rcases hx' with rfl | rfl <;> cases c <;> simp [Flt.max2, Flt.lt]
  have hlse : logsumexp1 0 l = .nan := by
    have : Flt.nan ∈ (lseShift 0 l).map Flt.exp := by
      rw [List.mem_map]
      refine ⟨.nan, ?_, rfl⟩
      rw [lseShift, List.mem_map]
      refine ⟨x, by simp [hx], ?_⟩
      rcases hx' with rfl | rfl <;> rcases hm with h | h <;> rw [h] <;> rfl
    rw [logsumexp1, lseSum, Flt.sum_nan this]
    rcases hm with h | h <;> rw [h] <;> rfl
  simp only [constrainSimplexRow, hlse]
  rw [List.eq_replicate_iff]
  refine ⟨by simp, ?_⟩
  intro b hb
  obtain ⟨y, _, rfl⟩ := List.mem_map.mp hb
  cases y <;> rfl

/-- A row whose first entry is zero un-frees to NaN throughout. -/
theorem constrain_unconstrain_zero {xs : List ℝ} (hne : xs ≠ []) (hs : ∀ x ∈ xs, 0 ≤ x) :
    constrainSimplexRow (unconstrainSimplexRow ((0 :: xs).map .fin)) = List.replicate (xs.length + 1) .nan := by
  obtain ⟨y, ys, rfl⟩ := List.exists_cons_of_ne_nil hne
  have e0 : unconstrainSimplexRow ((0 :: y :: ys).map .fin) =
      (y :: ys).map fun x => (Flt.fin x).log - (Flt.fin 0).log := by
    simp only [List.map_cons, unconstrainSimplexRow, List.map_map]; rfl
  have h0 : (Flt.fin 0).log = Flt.ninf := by simp [Flt.log]
  rw [e0, constrainSimplexRow_top (x := (Flt.fin y).log - (Flt.fin 0).log) (by simp)]
  · simp
  · rw [h0]
    rcases (hs y (by simp)).eq_or_lt with h | h
    · subst h; rw [h0]; right; rfl
    · rw [Flt.log_fin h]; left; rfl

/-! ### C14: folding -/

/-- **C14.**  For every simplex pattern and every finite free vector, the fold has the pattern's shape; its `i`-th
simplex is `exp(a_k) / Σ_j exp(a_j)` where `a` is `0` followed by the `i`-th block of the free vector; its entries are
strictly positive and sum to exactly one. -/
theorem C14_simplex_fold_softmax {k s dv fd} (hp : Pattern.Built (.simplex k s dv fd)) (r : List ℝ)
    (hr : r.length = s.prod * (k - 1)) (vv : Option Bool) :
    ∃ d : List Flt, (Pattern.simplex k s dv fd).fold (vec (r.map .fin)) (some true) vv = .ok (.arr ⟨s ++ [k], d⟩) ∧
      d.length = s.prod * k ∧
      ∀ i < s.prod, ∃ q : List ℝ, Spec.block k d i = q.map .fin ∧
        q = ((0 : ℝ) :: Spec.block (k - 1) r i).map (fun a => Real.exp a /
          (((0 : ℝ) :: Spec.block (k - 1) r i).map Real.exp).sum) ∧
        q.length = k ∧ (∀ x ∈ q, 0 < x) ∧ q.sum = 1 := by
  have hk : 2 ≤ k := hp.wf
  have hr' : r.length = (s ++ [k - 1]).prod := by rw [hr, List.prod_append]; simp
  have hlen : ∀ i < s.prod, (chunk (k - 1) r i).length = k - 1 := fun i hi => length_chunk hr hi
  have hrow : ∀ i < s.prod, (constrainSimplexRow (chunk (k - 1) (r.map .fin) i)).length = k := by
    intro i hi
    rw [Pattern.map_fin_chunk, constrainSimplexRow_fin]; simp [hlen i hi]; omega
  refine ⟨(List.range s.prod).flatMap fun i => constrainSimplexRow (chunk (k - 1) (r.map .fin) i), ?_, ?_, ?_⟩
  · rw [Pattern.fold_true]
    have : Simplex.foldFree k s (vec (r.map .fin)) = .ok ⟨s ++ [k],
        (List.range s.prod).flatMap fun i => constrainSimplexRow (chunk (k - 1) (r.map .fin) i)⟩ := by
      rw [Simplex.foldFree_ok]
      refine ⟨by simp [vec, len, hr'], by simp [vec, hr'], rfl⟩
    simp only [Pattern.foldFree, this, bind, Except.bind, pure, Except.pure]
  · exact length_flatMap_range _ hrow
  · intro i hi
    refine ⟨softmax (0 :: chunk (k - 1) r i), ?_, rfl, ?_, fun x hx => softmax_pos hx, softmax_sum _ _⟩
    · change chunk k _ i = _
      rw [chunk_of_flatMap _ hrow hi, Pattern.map_fin_chunk, constrainSimplexRow_fin]
    · simp [hlen i hi]; omega

/-- C14 is not vacuous: a 2-array of 3-simplexes and a free vector of length 4. -/
example : Pattern.Built (.simplex 3 [2] true none) ∧ ([1, -2, 0, 5] : List ℝ).length = ([2] : List Nat).prod * (3 - 1) :=
  ⟨Pattern.WF.built _ (by simp [Pattern.WF]), rfl⟩

/-! ### C15, C16: flattening and folding back -/

theorem simplex_flatten_some {k s dv fd} {a : NDArray Flt} {vv} (h : Pattern.Acc (.simplex k s dv fd) (.arr a) vv) :
    ∃ x, (Pattern.simplex k s dv fd).flatten (.arr a) (some true) vv = .ok x := by
  obtain ⟨m, hm⟩ := h
  have hm' : Simplex.validate k s dv a vv = .ok (true, m) := hm
  have := (Pattern.simplex_validate_true.mp hm').1
  subst this
  refine ⟨vec ((List.range s.prod).flatMap fun i => unconstrainSimplexRow (chunk k a.data i)), ?_⟩
  rw [Pattern.flatten_true]
  simp only [Pattern.flattenFree, Val.asArr, bind, Except.bind]
  rw [Simplex.flattenFree_ok]
  exact ⟨hm', rfl⟩

/-- The common shape of C15 and C16: `fold(flatten(a))` exists and each of its simplexes is the row transform of the
corresponding simplex of `a`. -/
theorem fold_flatten_rows {k s dv fd} (hp : Pattern.Built (.simplex k s dv fd)) {r : List ℝ} {vv x}
    (hr : r.length = s.prod * k)
    (h : (Pattern.simplex k s dv fd).flatten (.arr ⟨s ++ [k], r.map .fin⟩) (some true) vv = .ok x) (vv' : Option Bool) :
    ∃ d : List Flt, (Pattern.simplex k s dv fd).fold x (some true) vv' = .ok (.arr ⟨s ++ [k], d⟩) ∧
      d.length = s.prod * k ∧
      ∀ i < s.prod, Spec.block k d i = constrainSimplexRow (unconstrainSimplexRow ((Spec.block k r i).map .fin)) := by
  have hk : 2 ≤ k := hp.wf
  rw [Pattern.flatten_true] at h
  simp only [Pattern.flattenFree, Val.asArr, bind, Except.bind] at h
  rw [Simplex.flattenFree_ok] at h
  obtain ⟨_, rfl⟩ := h
  have hlen : ∀ i < s.prod, (chunk k r i).length = k := fun i hi => length_chunk hr hi
  have hu : ∀ i < s.prod, (unconstrainSimplexRow (chunk k (r.map .fin) i)).length = k - 1 := by
    intro i hi; rw [Pattern.map_fin_chunk, Pattern.length_unconstrainSimplexRow]; simp [hlen i hi]
  have hc : ∀ i < s.prod, (constrainSimplexRow (chunk (k - 1) ((List.range s.prod).flatMap fun i =>
      unconstrainSimplexRow (chunk k (r.map .fin) i)) i)).length = k := by
    intro i hi
    rw [chunk_of_flatMap _ hu hi]
    simp [constrainSimplexRow, hu i hi]; omega
  have hul := length_flatMap_range (n := s.prod) _ hu
  refine ⟨(List.range s.prod).flatMap fun i => constrainSimplexRow (chunk (k - 1) ((List.range s.prod).flatMap fun i =>
      unconstrainSimplexRow (chunk k (r.map .fin) i)) i), ?_, length_flatMap_range _ hc, ?_⟩
  · rw [Pattern.fold_true]
    have : Simplex.foldFree k s (vec ((List.range s.prod).flatMap fun i =>
        unconstrainSimplexRow (chunk k (r.map .fin) i))) = .ok ⟨s ++ [k], (List.range s.prod).flatMap fun i =>
          constrainSimplexRow (chunk (k - 1) ((List.range s.prod).flatMap fun i =>
            unconstrainSimplexRow (chunk k (r.map .fin) i)) i)⟩ := by
      rw [Simplex.foldFree_ok]
      have e : (s ++ [k - 1]).prod = s.prod * (k - 1) := by rw [List.prod_append]; simp
      refine ⟨by rw [e, ← hul]; rfl, by rw [e, ← hul]; rfl, rfl⟩
    simp only [Pattern.foldFree, this, bind, Except.bind, pure, Except.pure]
  · intro i hi
    change chunk k _ i = _
    rw [chunk_of_flatMap _ hc hi, chunk_of_flatMap _ hu hi, Pattern.map_fin_chunk]; rfl

theorem block_cons {k : Nat} (hk : 2 ≤ k) {m : Nat} {r : List ℝ} (hr : r.length = m * k) {i : Nat} (hi : i < m) :
    ∃ x0 xs, Spec.block k r i = x0 :: xs ∧ xs ≠ [] ∧ r[i * k]? = some x0 := by
  have hl : (chunk k r i).length = k := length_chunk hr hi
  have h0 : r[i * k + 0]? = (chunk k r i)[0]? := getElem?_of_chunk (by omega)
  change ∃ x0 xs, chunk k r i = _ ∧ _
  match h : chunk k r i, hl, h0 with
  | [], hl, _ => simp at hl; omega
  | [_], hl, _ => simp at hl; omega
  | x0 :: y :: xs, _, h0 => exact ⟨x0, y :: xs, rfl, by simp, by simpa using h0⟩

/-- **C16 (zeros), partial.**  If every simplex of an accepted value has non-negative entries and a positive *first*
entry, folding the flattened value gives back each simplex divided by its sum: zeros come back as zeros.  (Missing,
because false: simplexes whose first entry is zero, see `C16_first_zero_gives_nan`.) -/
theorem C16_zeros_survive_partial {k s dv fd} (hp : Pattern.Built (.simplex k s dv fd)) {r : List ℝ} {vv x}
    (hr : r.length = s.prod * k) (hnn : ∀ y ∈ r, 0 ≤ y) (hfst : ∀ i < s.prod, ∃ y, r[i * k]? = some y ∧ 0 < y)
    (h : (Pattern.simplex k s dv fd).flatten (.arr ⟨s ++ [k], r.map .fin⟩) (some true) vv = .ok x) (vv' : Option Bool) :
    ∃ d : List Flt, (Pattern.simplex k s dv fd).fold x (some true) vv' = .ok (.arr ⟨s ++ [k], d⟩) ∧
      d.length = s.prod * k ∧
      ∀ i < s.prod, Spec.block k d i = (Spec.block k r i).map fun y => Flt.fin (y / (Spec.block k r i).sum) := by
  obtain ⟨d, h1, h2, h3⟩ := fold_flatten_rows hp hr h vv'
  refine ⟨d, h1, h2, fun i hi => ?_⟩
  rw [h3 i hi]
  obtain ⟨x0, xs, he, _, h0⟩ := block_cons hp.wf hr hi
  obtain ⟨y, hy, hpos⟩ := hfst i hi
  rw [h0] at hy; cases hy
  rw [he, constrain_unconstrain_nonneg hpos, List.map_map]; · rfl
  intro z hz
  apply hnn
  have : z ∈ Spec.block k r i := by rw [he]; simp [hz]
  exact mem_chunk this

/-- C16_zeros_survive_partial is not vacuous: (1/2, 0, 1/2) is accepted. -/
example : ∃ x, (Pattern.simplex 3 [1] true none).flatten (.arr ⟨[1] ++ [3], ([1/2, 0, 1/2] : List ℝ).map .fin⟩)
    (some true) (some true) = .ok x := by
  apply simplex_flatten_some
  exact (valid_iff_acc (.simplex 3 [1] true none) (by simp [Pattern.WF]) trivial
    (.arr ⟨[1] ++ [3], ([1/2, 0, 1/2] : List ℝ).map .fin⟩) (by simp [Val.WF, NDArray.WF]) (by simp [Spec.NoNaN])).mpr (by
      refine ⟨rfl, by intro x hx; simp at hx; rcases hx with rfl | rfl | rfl <;> simp [Flt.le], ?_⟩
      intro i hi
      have : i = 0 := by simp at hi; omega
      subst this
      have e : Spec.block 3 (([1/2, 0, 1/2] : List ℝ).map Flt.fin) 0 = ([1/2, 0, 1/2] : List ℝ).map Flt.fin := rfl
      rw [e, Flt.sum_fin]
      have h1 : (1 : Flt) = Flt.fin 1 := by simp
      rw [h1, Flt.sub_fin]
      simp only [Flt.abs, Flt.le, Flt.lt, Flt.eq]
      norm_num)

/-- **C15.**  For every accepted value of strictly positive entries, folding the flattened value gives the original with
each simplex divided by its own sum. -/
theorem C15_simplex_normalizes {k s dv fd} (hp : Pattern.Built (.simplex k s dv fd)) {r : List ℝ} {vv x}
    (hr : r.length = s.prod * k) (hpos : ∀ y ∈ r, 0 < y)
    (h : (Pattern.simplex k s dv fd).flatten (.arr ⟨s ++ [k], r.map .fin⟩) (some true) vv = .ok x) (vv' : Option Bool) :
    ∃ d : List Flt, (Pattern.simplex k s dv fd).fold x (some true) vv' = .ok (.arr ⟨s ++ [k], d⟩) ∧
      d.length = s.prod * k ∧
      ∀ i < s.prod, Spec.block k d i = (Spec.block k r i).map fun y => Flt.fin (y / (Spec.block k r i).sum) := by
  apply C16_zeros_survive_partial hp hr (fun y hy => (hpos y hy).le) _ h
  intro i hi
  obtain ⟨x0, xs, he, _, h0⟩ := block_cons hp.wf hr hi
  refine ⟨x0, h0, hpos x0 ?_⟩
  have : x0 ∈ Spec.block k r i := by rw [he]; simp
  exact mem_chunk this

/-- **C15, how far a value moves.**  When the value passed validation, every simplex sum is within `1e-12` of one, so each
entry moves by a relative amount of at most `1e-12 / (1 - 1e-12)`; and a simplex is unchanged exactly when its sum is
one. -/
theorem C15_simplex_moves_little {k s dv fd} (hp : Pattern.Built (.simplex k s dv fd)) {r : List ℝ} {x}
    (hr : r.length = s.prod * k) (hpos : ∀ y ∈ r, 0 < y)
    (h : (Pattern.simplex k s dv fd).flatten (.arr ⟨s ++ [k], r.map .fin⟩) (some true) (some true) = .ok x)
    {i : Nat} (hi : i < s.prod) :
    (∀ y ∈ Spec.block k r i, |y / (Spec.block k r i).sum - y| * (1 - 1 / 10 ^ 12) ≤ 1 / 10 ^ 12 * y) ∧
      ((∀ y ∈ Spec.block k r i, y / (Spec.block k r i).sum = y) ↔ (Spec.block k r i).sum = 1) := by
  rw [Pattern.flatten_true] at h
  simp only [Pattern.flattenFree, Val.asArr, bind, Except.bind] at h
  rw [Simplex.flattenFree_ok] at h
  have hacc : Pattern.Acc (.simplex k s dv fd) (.arr (⟨s ++ [k], r.map .fin⟩ : NDArray Flt)) (some true) := ⟨"", h.1⟩
  rw [Pattern.acc_simplex] at hacc
  obtain ⟨_, he, _, hv⟩ := hacc
  cases he
  have hsum := (hv rfl).2 i hi
  have e : ((chunk k (r.map Flt.fin) i).map (Elem.toFlt : Flt → Flt)) = (Spec.block k r i).map Flt.fin := by
    rw [Pattern.map_fin_chunk]; show List.map id _ = _; simp; rfl
  have h1 : (1 : Flt) = Flt.fin 1 := by simp
  rw [e, Flt.sum_fin, h1, Flt.sub_fin] at hsum
  simp only [Flt.abs, Flt.gt, Flt.lt, decide_eq_false_iff_not, not_lt] at hsum
  obtain ⟨x0, xs, hb, _, _⟩ := block_cons hp.wf hr hi
  have hbpos : ∀ y ∈ Spec.block k r i, 0 < y := fun y hy => hpos y (mem_chunk hy)
  set S := (Spec.block k r i).sum
  have hS : 0 < S := by
    show 0 < (Spec.block k r i).sum
    apply List.sum_pos _ hbpos
    rw [hb]; simp
  refine ⟨fun y hy => ?_, ⟨fun hall => ?_, fun h1 y _ => by rw [h1, div_one]⟩⟩
  · have hy0 := hbpos y hy
    have e2 : |y / S - y| = y * |S - 1| / S := by
      have : y / S - y = y * (1 - S) / S := by field_simp
      rw [this, abs_div, abs_mul, abs_of_pos hy0, abs_of_pos hS, abs_sub_comm]
    rw [e2, div_mul_eq_mul_div, div_le_iff₀ hS]
    have hS1 : 1 - 1 / 10 ^ 12 ≤ S := by have := (abs_le.mp hsum).1; linarith
    have : 0 ≤ (1 : ℝ) - 1 / 10 ^ 12 := by norm_num
    calc y * |S - 1| * (1 - 1 / 10 ^ 12) ≤ y * (1 / 10 ^ 12) * S := by
          apply mul_le_mul (mul_le_mul_of_nonneg_left hsum hy0.le) hS1 this (by positivity)
      _ = 1 / 10 ^ 12 * y * S := by ring
  · have hx0 := hall x0 (by rw [hb]; simp)
    have hx0p := hbpos x0 (by rw [hb]; simp)
    rw [div_eq_iff hS.ne'] at hx0
    have : x0 * (S - 1) = 0 := by linarith
    rcases mul_eq_zero.mp this with h | h
    · linarith
    · linarith

/-- **C16, the failure.**  If the first entry of some simplex of an accepted non-negative value is zero, every entry of
that simplex is NaN after flattening and folding back. -/
theorem C16_first_zero_gives_nan {k s dv fd} (hp : Pattern.Built (.simplex k s dv fd)) {r : List ℝ} {vv x}
    (hr : r.length = s.prod * k) (hnn : ∀ y ∈ r, 0 ≤ y) {i : Nat} (hi : i < s.prod) (hfst : r[i * k]? = some 0)
    (h : (Pattern.simplex k s dv fd).flatten (.arr ⟨s ++ [k], r.map .fin⟩) (some true) vv = .ok x) (vv' : Option Bool) :
    ∃ d : List Flt, (Pattern.simplex k s dv fd).fold x (some true) vv' = .ok (.arr ⟨s ++ [k], d⟩) ∧
      Spec.block k d i = List.replicate k .nan := by
  obtain ⟨d, h1, h2, h3⟩ := fold_flatten_rows hp hr h vv'
  refine ⟨d, h1, ?_⟩
  rw [h3 i hi]
  obtain ⟨x0, xs, he, hne, h0⟩ := block_cons hp.wf hr hi
  rw [h0] at hfst; cases hfst
  rw [he, constrain_unconstrain_zero hne]
  · congr 1
    have : (Spec.block k r i).length = k := length_chunk hr hi
    rw [he] at this; simpa using this
  · intro z hz
    apply hnn
    have : z ∈ Spec.block k r i := by rw [he]; simp [hz]
    exact mem_chunk this

/-- The full claim of C16: every accepted simplex value, zeros allowed anywhere, survives flattening and folding back
up to normalization. -/
def Spec.C16Claim : Prop :=
  ∀ k s dv fd, Pattern.Built (.simplex k s dv fd) → ∀ (r : List ℝ) (x : NDArray Flt), r.length = s.prod * k →
    (Pattern.simplex k s dv fd).flatten (.arr ⟨s ++ [k], r.map .fin⟩) (some true) (some true) = .ok x →
    ∃ d : List Flt, (Pattern.simplex k s dv fd).fold x (some true) none = .ok (.arr ⟨s ++ [k], d⟩) ∧
      ∀ i < s.prod, Spec.block k d i = (Spec.block k r i).map fun y => Flt.fin (y / (Spec.block k r i).sum)

/-- (0, 1) is an accepted value of a 2-simplex. -/
theorem flatten_zero_one : ∃ x, (Pattern.simplex 2 [1] true none).flatten
    (.arr ⟨[1] ++ [2], ([0, 1] : List ℝ).map .fin⟩) (some true) (some true) = .ok x := by
  apply simplex_flatten_some
  exact (valid_iff_acc (.simplex 2 [1] true none) (by simp [Pattern.WF]) trivial
    (.arr ⟨[1] ++ [2], ([0, 1] : List ℝ).map .fin⟩) (by simp [Val.WF, NDArray.WF]) (by simp [Spec.NoNaN])).mpr (by
      refine ⟨rfl, by intro x hx; simp at hx; rcases hx with rfl | rfl <;> simp [Flt.le], ?_⟩
      intro i hi
      have : i = 0 := by simp at hi; omega
      subst this
      have e : Spec.block 2 (([0, 1] : List ℝ).map Flt.fin) 0 = ([0, 1] : List ℝ).map Flt.fin := rfl
      rw [e, Flt.sum_fin]
      have h1 : (1 : Flt) = Flt.fin 1 := by simp
      rw [h1, Flt.sub_fin]
      simp only [Flt.abs, Flt.le, Flt.lt, Flt.eq]
      norm_num)

/-- The claim of C16 is false for the code as written. -/
theorem C16_claim_false : ¬ Spec.C16Claim := by
  intro h
  obtain ⟨x, hx⟩ := flatten_zero_one
  have hp : Pattern.Built (.simplex 2 [1] true none) := Pattern.WF.built _ (by simp [Pattern.WF])
  obtain ⟨d, h1, h2⟩ := h 2 [1] true none hp [0, 1] x (by simp) hx
  obtain ⟨d', h3, h4⟩ := C16_first_zero_gives_nan hp (by simp) (by simp) (i := 0) (by simp) (by simp) hx none
  rw [h1] at h3
  cases h3
  have h5 := h2 0 (by simp)
  rw [h4] at h5
  simp [Spec.block, List.replicate] at h5

end Paragami
