import Verif.Proofs.Stacks
import Verif.Props.DerivativeRules

/-! # C87: derivative rules for stacks of matrices -/

namespace Paragami
open NDArray LinAlg Autograd Topology

/-- **C87, broadcasting to the same shape** changes nothing, so that for stacks of one shape `C87_solve_matrix` and `C87_solve_vector` are
about matrix number `q` of every operand. -/
theorem C87_same_shape (s : List Nat) : bshape s s = some s ∧ ∀ q < s.prod, bindex s s q = q := ⟨bshape_self s, fun _ => bindex_self s⟩

/-- **C87, `inv`.**  Along every curve of stacks of matrices that are invertible at time `τ`, the forward rule is the derivative of the stack of
the inverses. -/
theorem C87_inv {s : List Nat} {n : Nat} {A : ℝ → Nat → Matrix (Fin n) (Fin n) ℝ} {G : Nat → Matrix (Fin n) (Fin n) ℝ} {τ : ℝ}
    (h : ∀ q < s.prod, Spec.Velocity (A · q) (G q) τ) (h0 : ∀ q < s.prod, (A τ q).det ≠ 0) :
    ∃ (B : ℝ → Nat → Matrix (Fin n) (Fin n) ℝ) (D : Nat → Matrix (Fin n) (Fin n) ℝ),
      (∀ᶠ t in 𝓝 τ, invAny (stackOf s (A t)) = .ok (stackOf s (B t)) ∧ ∀ q < s.prod, A t q * B t q = 1) ∧
      invJvp (stackOf s G) (stackOf s (B τ)) (stackOf s (A τ)) = .ok (stackOf s D) ∧ ∀ q < s.prod, Spec.Velocity (B · q) (D q) τ := by
  refine ⟨fun t q => (A t q)⁻¹, fun q => -((A τ q)⁻¹ * G q * (A τ q)⁻¹), ?_, ?_, fun q hq => velocity_inv (h q hq) (h0 q hq)⟩
  · have : ∀ᶠ t in 𝓝 τ, ∀ q ∈ Finset.range s.prod, (A t q).det ≠ 0 :=
      (Filter.eventually_all_finset _).mpr fun q hq => eventually_det (h q (Finset.mem_range.mp hq)) (h0 q (Finset.mem_range.mp hq))
    filter_upwards [this] with t ht
    have ht' : ∀ q < s.prod, (A t q).det ≠ 0 := fun q hq => ht q (Finset.mem_range.mpr hq)
    exact ⟨invAny_stackOf _ ht', fun q hq => Matrix.mul_nonsing_inv _ (isUnit_iff_ne_zero.mpr (ht' q hq))⟩
  · rw [invJvp]
    by_cases hs : s = []
    · subst hs
      have hnd : (ofMatrix (A τ 0)⁻¹).ndim = 2 := rfl
      simp only [stackOf_nil, if_pos hnd, bind, Except.bind, matmul_mat, pure, Except.pure, neg_mat]
    · have hnd : ¬ (stackOf s fun q => (A τ q)⁻¹).ndim = 2 := by
        rw [stackOf_ndim]
        have := List.length_pos_iff.mpr hs
        omega
      simp only [if_neg hnd, bind, Except.bind, stackMul_same, pure, Except.pure, neg_stackOf]

section
variable {s u r : List Nat} {n : Nat} {A : ℝ → Nat → Matrix (Fin n) (Fin n) ℝ} {G : Nat → Matrix (Fin n) (Fin n) ℝ} {τ : ℝ}

theorem eventually_stack (h : ∀ q < s.prod, Spec.Velocity (A · q) (G q) τ) (h0 : ∀ q < s.prod, (A τ q).det ≠ 0) :
    ∀ᶠ t in 𝓝 τ, ∀ q < s.prod, (A t q).det ≠ 0 := by
  have : ∀ᶠ t in 𝓝 τ, ∀ q ∈ Finset.range s.prod, (A t q).det ≠ 0 :=
    (Filter.eventually_all_finset _).mpr fun q hq => eventually_det (h q (Finset.mem_range.mp hq)) (h0 q (Finset.mem_range.mp hq))
  filter_upwards [this] with t ht q hq
  exact ht q (Finset.mem_range.mpr hq)

/-- **C87, `solve` with matrices.**  Stacks of leading shapes `s` and `u` that broadcast to `r`, where `u` does not have more axes than `s` (and
not exactly one less, when numpy takes the right-hand side for vectors): near `τ`, `solve` returns the stack of the solutions, and the sum
of the two forward rules is its derivative. -/
theorem C87_solve_matrix {m : Nat} {B : ℝ → Nat → Matrix (Fin n) (Fin m) ℝ} {B' : Nat → Matrix (Fin n) (Fin m) ℝ}
    (hr : bshape s.reverse u.reverse = some r.reverse) (hl : u.length ≤ s.length) (hl' : u.length + 1 ≠ s.length)
    (h : ∀ q < s.prod, Spec.Velocity (A · q) (G q) τ) (hB : ∀ q < u.prod, Spec.Velocity (B · q) (B' q) τ) (h0 : ∀ q < s.prod, (A τ q).det ≠ 0) :
    ∃ (Y : ℝ → Nat → Matrix (Fin n) (Fin m) ℝ) (D E : Nat → Matrix (Fin n) (Fin m) ℝ),
      (∀ᶠ t in 𝓝 τ, solve (stackOf s (A t)) (stackOf u (B t)) = .ok (stackOf r (Y t)) ∧
        ∀ q < r.prod, A t (bindex s.reverse r.reverse q) * Y t q = B t (bindex u.reverse r.reverse q)) ∧
      solveJvpA (stackOf s G) (stackOf r (Y τ)) (stackOf s (A τ)) (stackOf u (B τ)) = .ok (stackOf r D) ∧
      solveJvpB (stackOf u B') (stackOf r (Y τ)) (stackOf s (A τ)) (stackOf u (B τ)) = .ok (stackOf r E) ∧
      ∀ q < r.prod, Spec.Velocity (Y · q) (D q + E q) τ := by
  have hrl : r.length = s.length := by
    have := bshape_length hr
    simp only [List.length_reverse] at this
    omega
  have is : ∀ q < r.prod, bindex s.reverse r.reverse q < s.prod := fun q hq => by
    rw [← List.prod_reverse] at hq ⊢; exact bindex_lt hr hq
  have iu : ∀ q < r.prod, bindex u.reverse r.reverse q < u.prod := fun q hq => by
    rw [← List.prod_reverse] at hq ⊢; rw [bshape_comm] at hr; exact bindex_lt hr hq
  refine ⟨fun t q => (A t (bindex s.reverse r.reverse q))⁻¹ * B t (bindex u.reverse r.reverse q),
    fun q => -((A τ (bindex s.reverse r.reverse q))⁻¹ * G (bindex s.reverse r.reverse q) *
      ((A τ (bindex s.reverse r.reverse q))⁻¹ * B τ (bindex u.reverse r.reverse q))),
    fun q => (A τ (bindex s.reverse r.reverse q))⁻¹ * B' (bindex u.reverse r.reverse q), ?_, ?_, solve_stackOf _ _ hr hl' h0, fun q hq => ?_⟩
  · filter_upwards [eventually_stack h h0] with t ht
    refine ⟨solve_stackOf _ _ hr hl' ht, fun q hq => ?_⟩
    rw [← Matrix.mul_assoc, Matrix.mul_nonsing_inv _ (isUnit_iff_ne_zero.mpr (ht _ (is q hq))), Matrix.one_mul]
  · rw [solveJvpA, solve_stackOf _ _ (bshape_self _) (by omega) h0]
    simp only [bind, Except.bind]
    rw [broadcastMatmul, if_pos (by rw [stackOf_ndim, stackOf_ndim, hrl]), mulAny_stackOf _ _ (bshape_absorb hr)]
    simp only [pure, Except.pure, neg_stackOf]
    congr 1
    refine stackOf_congr fun q hq => ?_
    rw [bindex_self r.reverse (by rwa [List.prod_reverse]), bindex_self s.reverse (by rw [List.prod_reverse]; exact is q hq)]
  · have := velocity_mul (velocity_inv (h _ (is q hq)) (h0 _ (is q hq))) (hB _ (iu q hq))
    rwa [Matrix.neg_mul, Matrix.mul_assoc _ (A τ _)⁻¹ (B τ _)] at this

/-- **C87, `solve` with vectors.**  The same when the right-hand side is a stack of vectors, with one axis less than the matrices. -/
theorem C87_solve_vector {b : ℝ → Nat → Fin n → ℝ} {b' : Nat → Fin n → ℝ}
    (hr : bshape s.reverse u.reverse = some r.reverse) (hl : u.length = s.length)
    (h : ∀ q < s.prod, Spec.Velocity (A · q) (G q) τ) (hb : ∀ q < u.prod, Spec.VelocityVec (b · q) (b' q) τ) (h0 : ∀ q < s.prod, (A τ q).det ≠ 0) :
    ∃ (y : ℝ → Nat → Fin n → ℝ) (d e : Nat → Fin n → ℝ),
      (∀ᶠ t in 𝓝 τ, solve (stackOf s (A t)) (stackVec u (b t)) = .ok (stackVec r (y t)) ∧
        ∀ q < r.prod, (A t (bindex s.reverse r.reverse q)).mulVec (y t q) = b t (bindex u.reverse r.reverse q)) ∧
      solveJvpA (stackOf s G) (stackVec r (y τ)) (stackOf s (A τ)) (stackVec u (b τ)) = .ok (stackVec r d) ∧
      solveJvpB (stackVec u b') (stackVec r (y τ)) (stackOf s (A τ)) (stackVec u (b τ)) = .ok (stackVec r e) ∧
      ∀ q < r.prod, Spec.VelocityVec (y · q) (d q + e q) τ := by
  have hrl : r.length = s.length := by
    have := bshape_length hr
    simp only [List.length_reverse] at this
    omega
  have is : ∀ q < r.prod, bindex s.reverse r.reverse q < s.prod := fun q hq => by
    rw [← List.prod_reverse] at hq ⊢; exact bindex_lt hr hq
  have iu : ∀ q < r.prod, bindex u.reverse r.reverse q < u.prod := fun q hq => by
    rw [← List.prod_reverse] at hq ⊢; rw [bshape_comm] at hr; exact bindex_lt hr hq
  refine ⟨fun t q => (A t (bindex s.reverse r.reverse q))⁻¹.mulVec (b t (bindex u.reverse r.reverse q)),
    fun q => -((A τ (bindex s.reverse r.reverse q))⁻¹ * G (bindex s.reverse r.reverse q)).mulVec
      ((A τ (bindex s.reverse r.reverse q))⁻¹.mulVec (b τ (bindex u.reverse r.reverse q))),
    fun q => (A τ (bindex s.reverse r.reverse q))⁻¹.mulVec (b' (bindex u.reverse r.reverse q)), ?_, ?_, solve_stackVec _ _ hr hl h0, fun q hq => ?_⟩
  · filter_upwards [eventually_stack h h0] with t ht
    refine ⟨solve_stackVec _ _ hr hl ht, fun q hq => ?_⟩
    rw [Matrix.mulVec_mulVec, Matrix.mul_nonsing_inv _ (isUnit_iff_ne_zero.mpr (ht _ (is q hq))), Matrix.one_mulVec]
  · rw [solveJvpA, solve_stackOf _ _ (bshape_self _) (by omega) h0]
    simp only [bind, Except.bind]
    rw [broadcastMatmul, if_neg (by rw [stackOf_ndim, stackVec_ndim, hrl]; omega), newAxis_stackVec, mulAny_stackOf _ _ (bshape_absorb hr)]
    have hcol : ∀ (M : Matrix (Fin n) (Fin n) ℝ) (v : Fin n → ℝ), M * colOf v = colOf (M.mulVec v) := fun M v => rfl
    simp only [bind, Except.bind, hcol, dropAxis_stackOf, pure, Except.pure, neg_stackVec]
    congr 1
    refine stackVec_congr fun q hq => ?_
    rw [bindex_self r.reverse (by rwa [List.prod_reverse]), bindex_self s.reverse (by rw [List.prod_reverse]; exact is q hq)]
  · have hv := velocity_inv (h _ (is q hq)) (h0 _ (is q hq))
    intro i
    have h1 := HasDerivAt.fun_sum (u := Finset.univ) fun j _ => (hv i j).mul (hb _ (iu q hq) j)
    have h2 : ∀ (P H : Matrix (Fin n) (Fin n) ℝ) (v w : Fin n → ℝ), ∑ j, ((-(P * H * P)) i j * v j + P i j * w j) =
        (-(P * H).mulVec (P.mulVec v) + P.mulVec w) i := by
      intro P H v w
      rw [Finset.sum_add_distrib, Matrix.mulVec_mulVec, ← Matrix.neg_mulVec]
      rfl
    exact h1.congr_deriv (h2 _ _ _ _)

end

/-- **C87, more axes on the right.**  When the right-hand side is a stack of matrices with more axes than the matrices (one matrix for several
right-hand sides, say), `solve` works but the forward rule for the matrix does not compute the derivative `-a⁻¹ g y`: with `m ≠ n` columns
it raises `ValueError`. -/
theorem C87_solve_error {s r : List Nat} {n m : Nat} (hmn : m ≠ n) (hl : s.length < r.length) (A G : Nat → Matrix (Fin n) (Fin n) ℝ)
    (Y : Nat → Matrix (Fin n) (Fin m) ℝ) (h0 : ∀ q < s.prod, (A q).det ≠ 0) (b : NDArray ℝ) :
    ∃ msg, solveJvpA (stackOf s G) (stackOf r Y) (stackOf s A) b = .error (.valueError msg) := by
  rw [solveJvpA, solve_stackOf _ _ (bshape_self _) (by omega) h0]
  simp only [bind, Except.bind]
  rw [broadcastMatmul, if_neg (by rw [stackOf_ndim, stackOf_ndim]; omega), mulAny,
    if_neg (by simp only [NDArray.ndim, newAxis, stackOf_shape, List.length_append, List.length_cons, List.length_nil]; omega), stackMul]
  have e : ∀ (s : List Nat) (a b : Nat), (s ++ [a, b]).reverse = b :: a :: s.reverse := fun s a b => by simp
  have e' : (r ++ [n, m] ++ [1]).reverse = 1 :: m :: n :: r.reverse := by simp
  simp only [newAxis, stackOf_shape, e, e', if_neg hmn.symm]
  exact ⟨_, rfl⟩

/-- Row number `p` of a stack of square matrices. -/
def rowOf {n : Nat} (Y : Nat → Matrix (Fin n) (Fin n) ℝ) (p : Nat) : Fin n → ℝ := if h : p % n < n then Y (p / n) ⟨p % n, h⟩ else 0

theorem rowOf_eq {n : Nat} (Y : Nat → Matrix (Fin n) (Fin n) ℝ) (q : Nat) (i : Fin n) : rowOf Y (q * n + i) = Y q i := by
  have hn : 0 < n := i.pos
  have h1 : (q * n + i) % n = i := by rw [Nat.mul_comm, Nat.mul_add_mod, Nat.mod_eq_of_lt i.2]
  have h2 : (q * n + i) / n = q := by rw [Nat.mul_comm, Nat.mul_add_div hn, Nat.div_eq_of_lt i.2, Nat.add_zero]
  rw [rowOf, dif_pos (Nat.mod_lt _ hn)]
  rw [h2]
  congr 1
  exact Fin.ext h1

theorem rows_data {n : Nat} (Y : Nat → Matrix (Fin n) (Fin n) ℝ) : ∀ N : Nat,
    (List.range (N * n)).flatMap (fun p => List.ofFn (rowOf Y p)) = (List.range N).flatMap fun q => (ofMatrix (Y q)).data
  | 0 => by simp
  | N + 1 => by
    rw [Nat.add_mul, Nat.one_mul, List.range_add, List.flatMap_append, rows_data Y N, List.range_succ, List.flatMap_append]
    congr 1
    rw [List.flatMap_cons, List.flatMap_nil, List.append_nil, List.flatMap_map, List.flatMap_def, ofMatrix]
    congr 1
    rw [List.ofFn_eq_map, ← List.map_coe_finRange_eq_range, List.map_map]
    refine List.map_congr_left fun i _ => ?_
    rw [Function.comp_apply, rowOf_eq]

theorem stackOf_rows {r : List Nat} {n : Nat} (Y : Nat → Matrix (Fin n) (Fin n) ℝ) : stackOf r Y = stackVec (r ++ [n]) (rowOf Y) := by
  rw [stackOf, stackVec, List.prod_append, List.prod_singleton, rows_data]
  simp

/-- **C87, more axes on the right, square.**  With as many columns as rows it returns `-y (a⁻¹ g)ᵀ` for each right-hand side. -/
theorem C87_solve_wrong {r : List Nat} {n : Nat} (hr : r ≠ []) {A : Matrix (Fin n) (Fin n) ℝ} (G : Matrix (Fin n) (Fin n) ℝ)
    (Y : Nat → Matrix (Fin n) (Fin n) ℝ) (h0 : A.det ≠ 0) (b : NDArray ℝ) :
    solveJvpA (ofMatrix G) (stackOf r Y) (ofMatrix A) b = .ok (stackOf r fun q => -(Y q * (A⁻¹ * G).transpose)) := by
  have hcol : ∀ (M : Matrix (Fin n) (Fin n) ℝ) (v : Fin n → ℝ), M * colOf v = colOf (M.mulVec v) := fun M v => rfl
  rw [solveJvpA, solve_mat h0]
  simp only [bind, Except.bind]
  have hnd : (stackOf r Y).ndim ≠ (ofMatrix (A⁻¹ * G)).ndim := by
    rw [stackOf_ndim, NDArray.ndim, ofMatrix_shape]
    have := List.length_pos_iff.mpr hr
    simp; omega
  rw [broadcastMatmul, if_neg hnd, stackOf_rows, newAxis_stackVec, ← stackOf_nil (fun _ => A⁻¹ * G),
    mulAny_stackOf (r := r ++ [n]) _ _ (by simp [bshape])]
  simp only [bind, Except.bind, hcol, dropAxis_stackOf, pure, Except.pure, neg_stackVec]
  congr 1
  rw [stackOf_rows]
  refine stackVec_congr fun p hp => ?_
  rw [bindex_self (r ++ [n]).reverse (by rwa [List.prod_reverse])]
  rw [List.prod_append, List.prod_singleton] at hp
  have hn : 0 < n := Nat.pos_of_ne_zero (by rintro rfl; simp at hp)
  obtain ⟨q, i, rfl⟩ : ∃ (q : Nat) (i : Fin n), p = q * n + i := ⟨p / n, ⟨p % n, Nat.mod_lt _ hn⟩, by rw [Nat.mul_comm]; exact (Nat.div_add_mod p n).symm⟩
  rw [rowOf_eq, rowOf_eq]
  funext j
  simp [Matrix.mul_apply, Matrix.mulVec, dotProduct, mul_comm]

/-- **C87, it is not the derivative.**  There is a curve of matrices and a stack of one right-hand side for which `solve` returns a stack of
solutions that has a derivative, and the forward rule returns something else without raising. -/
theorem C87_not_derivative : ∃ (A : ℝ → Matrix (Fin 2) (Fin 2) ℝ) (G : Matrix (Fin 2) (Fin 2) ℝ) (Y : ℝ → Nat → Matrix (Fin 2) (Fin 2) ℝ)
    (B D : Nat → Matrix (Fin 2) (Fin 2) ℝ), Spec.Velocity A G 0 ∧ (A 0).det ≠ 0 ∧
    (∀ᶠ t in 𝓝 0, solve (ofMatrix (A t)) (stackOf [1] B) = .ok (stackOf [1] (Y t)) ∧ A t * Y t 0 = B 0) ∧
    solveJvpA (ofMatrix G) (stackOf [1] (Y 0)) (ofMatrix (A 0)) (stackOf [1] B) = .ok (stackOf [1] D) ∧ ¬ Spec.Velocity (Y · 0) (D 0) 0 := by
  have hA : Spec.Velocity (fun t : ℝ => !![1, t; 0, 1]) !![0, 1; 0, 0] 0 := by
    intro i j
    fin_cases i <;> fin_cases j <;> simp <;> first | exact hasDerivAt_const .. | exact hasDerivAt_id _
  have hdet : ∀ t : ℝ, (!![1, t; 0, 1] : Matrix (Fin 2) (Fin 2) ℝ).det ≠ 0 := fun t => by rw [Matrix.det_fin_two]; simp
  have hinv : ∀ t : ℝ, (!![1, t; 0, 1] : Matrix (Fin 2) (Fin 2) ℝ)⁻¹ = !![1, -t; 0, 1] := fun t => by
    refine Matrix.inv_eq_right_inv ?_
    ext i j; fin_cases i <;> fin_cases j <;> simp
  refine ⟨fun t => !![1, t; 0, 1], !![0, 1; 0, 0], fun t _ => !![-t, 0; 1, 0], fun _ => !![0, 0; 1, 0], _, hA, hdet 0, ?_,
    C87_solve_wrong (by simp) _ _ (hdet 0) _, ?_⟩
  · refine Filter.Eventually.of_forall fun t => ⟨?_, ?_⟩
    · rw [← stackOf_nil (fun _ => (!![1, t; 0, 1] : Matrix (Fin 2) (Fin 2) ℝ)),
        solve_stackOf (r := [1]) _ _ (by simp [bshape]) (by simp) (fun _ _ => hdet t)]
      congr 1
      refine stackOf_congr fun q hq => ?_
      rw [hinv]
      ext i j; fin_cases i <;> fin_cases j <;> simp
    · ext i j; fin_cases i <;> fin_cases j <;> simp
  · intro h
    have h1 := h 0 0
    have h2 : HasDerivAt (fun t : ℝ => -t) (-1) 0 := (hasDerivAt_id (0 : ℝ)).neg
    have h3 := h1.unique h2
    rw [hinv] at h3
    norm_num [Matrix.mul_apply, Fin.sum_univ_two, Matrix.vecMul, dotProduct] at h3

/-- Non-vacuity of C87: leading shapes `(3, 1)` and `(1, 2)` broadcast to `(3, 2)`; the last of the six systems has the third matrix and the second right-hand side. -/
example : bshape [3, 1].reverse [1, 2].reverse = some [3, 2].reverse ∧ bindex [3, 1].reverse [3, 2].reverse 5 = 2 ∧
    bindex [1, 2].reverse [3, 2].reverse 5 = 1 := by decide

/-- Non-vacuity of C87: two matrices moving along curves, both invertible. -/
example : ∀ q : ℕ, q < [2].prod → Spec.Velocity (n := 2) (m := 2) (fun s => !![1, s; s, 2 + (q : ℝ)]) !![0, 1; 1, 0] 1 ∧
    (!![1, 1; 1, 2 + (q : ℝ)] : Matrix (Fin 2) (Fin 2) ℝ).det ≠ 0 := by
  intro q _
  constructor
  · intro i j
    fin_cases i <;> fin_cases j <;> simp <;> first | exact hasDerivAt_const .. | exact hasDerivAt_id _
  · rw [Matrix.det_fin_two]
    have : (0 : ℝ) ≤ q := Nat.cast_nonneg q
    simp only [Matrix.of_apply, Matrix.cons_val', Matrix.cons_val_zero, Matrix.cons_val_one, Matrix.cons_val_fin_one]
    intro h; linarith

end Paragami
