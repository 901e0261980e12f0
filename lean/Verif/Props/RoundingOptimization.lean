import Verif.Proofs.RoundingEigen
import Verif.Proofs.Optimization
import Verif.Props.RoundingJacobian

/-! # C119: preconditioners in floating point -/

namespace Paragami
open NDArray Flt Spec Optimization

variable {A : Arith}

/-! ### Without rounding -/

theorem exact_dot_range (m : ℕ) (f g : ℕ → ℝ) :
    Arith.exact.dot ((List.range m).map fun j => (.fin (f j), .fin (g j))) = .fin (∑ j ∈ Finset.range m, f j * g j) := by
  change Flt.sum (((List.range m).map fun j => (Flt.fin (f j), Flt.fin (g j))).map fun p => p.1 * p.2) = _
  have key : ∀ (l : List ℕ) (a : ℝ), (l.map fun j => Flt.fin (f j) * Flt.fin (g j)).foldl (· + ·) (.fin a) = .fin (a + (l.map fun j => f j * g j).sum) := by
    intro l
    induction l with
    | nil => intro a; simp
    | cons j l ih => intro a; simp only [List.map_cons, List.foldl_cons, mul_fin, add_fin, List.sum_cons] at ih ⊢; rw [ih, add_assoc]
  rw [Flt.sum, List.map_map, ← sum_range_list, Arith.zero_flt]
  have := key (List.range m) 0
  rw [zero_add] at this
  exact this

theorem exact_matvec {n m : ℕ} {U : ℕ → ℕ → ℝ} {v : ℕ → ℝ} :
    matvecA Arith.exact (fmat n m U) (fvec m v) = .ok (fvec n fun i => ∑ j ∈ Finset.range m, U i j * v j) := by
  have hs : (fmat n m U).shape = [n, m] := rfl
  have hs' : (fvec m v).shape = [m] := by simp [fvec, vec]
  simp only [matvecA, hs, hs', if_true]
  refine congrArg _ ?_
  conv_rhs => rw [fvec]
  refine congrArg _ (List.map_congr_left fun i hi => ?_)
  have hi := List.mem_range.mp hi
  rw [← exact_dot_range]
  refine congrArg _ (List.map_congr_left fun j hj => ?_)
  have hj := List.mem_range.mp hj
  rw [fmat_entry hi hj, fvec_getD hj]

/-- **C119, without rounding.** If nothing is rounded, the operator that `transform_eigenspace` returns sends `v` to `v + U @ ((d - 1) * (U.T @ v))`, and so does
the exact model. -/
theorem C119_exact {n k : ℕ} (U : ℕ → ℕ → ℝ) (e v : ℕ → ℝ) (f : ℝ → ℝ) (F : Flt → Flt) (hF : ∀ x, F (.fin x) = .fin (f x)) :
    (∃ op, transformEigenspaceA Arith.exact (fmat n k U) (fvec k e) F = .ok op ∧ op (fvec n v) = .ok (fvec n (stretched n k U (fun j => f (e j)) v))) ∧
    ∃ op, transformEigenspace (LinAlg.ofMatrix (n := n) (m := k) fun i j => U i j) (LinAlg.vecOf fun j : Fin k => e j) (·.map f) = .ok op ∧
      op (LinAlg.vecOf fun i : Fin n => v i) = .ok (LinAlg.vecOf fun i : Fin n => stretched n k U (fun j => f (e j)) v i) := by
  constructor
  · refine ⟨_, transform_ok (d := fun j => f (e j)) fun j _ => hF _, ?_⟩
    rw [exact_matvec, map_fvec (f := fun x => Arith.exact.sub x 1) (g := fun j => f (e j) - 1) fun j _ => by rw [Arith.exact_sub, Arith.one_flt, sub_fin]]
    simp only [bind, Except.bind]
    rw [zip_fvec (g := fun j => (f (e j) - 1) * ∑ l ∈ Finset.range n, U l j * v l) fun j _ => by rw [Arith.exact_mul, mul_fin]]
    simp only [exact_matvec]
    exact zip_fvec fun i _ => by rw [Arith.exact_add, add_fin]; rfl
  · obtain ⟨M, hM⟩ : ∃ M : Matrix (Fin n) (Fin k) ℝ, M = fun (i : Fin n) (j : Fin k) => U i j := ⟨_, rfl⟩
    obtain ⟨op, h1, h2⟩ := transformEigenspace_eq M (fun j => e j) (fun j => f (e j)) (tf := (·.map f)) (by rw [LinAlg.map_vec])
    refine ⟨op, by rw [← hM]; exact h1, ?_⟩
    rw [h2]
    refine congrArg _ (congrArg _ (funext fun i => ?_))
    rw [show eigMat M (fun j => f (e j)) = 1 + M * Matrix.diagonal ((fun j : Fin k => f (e j)) - 1) * M.transpose from rfl, Matrix.add_mulVec, Matrix.one_mulVec,
      ← Matrix.mulVec_mulVec, ← Matrix.mulVec_mulVec, hM]
    simp only [stretched, Finset.sum_range, Pi.add_apply]
    refine congrArg (v i + ·) ?_
    simp only [Matrix.mulVec, dotProduct]
    refine Finset.sum_congr rfl fun j _ => ?_
    simp only [Matrix.diagonal_apply, ite_mul, zero_mul, Finset.sum_ite_eq, Finset.mem_univ, if_true]
    rfl

/-- **C119, one application.** For at most `2 ** 19` rows and columns with entries up to 2, and vectors and new eigenvalues up to `2 ** 200`, the operator returns finite
numbers, and each is off by at most `2 ** -53` times its own size plus `2n + 2k + 4` times the sizes of the terms it is made of. -/
theorem C119_apply (hA : A.Sane) (hB : A.Accurate) (hD : A.DotAccurate) {n k : ℕ} {U : ℕ → ℕ → ℝ} {e d : ℕ → ℝ} {f : Flt → Flt} (hn : n ≤ 2 ^ 19) (hk : k ≤ 2 ^ 19)
    (hU : ∀ i < n, ∀ j < k, A.Machine (.fin (U i j)) ∧ |U i j| ≤ 2) (hf : ∀ j < k, f (.fin (e j)) = .fin (d j)) (hd : Sized A k (2 ^ (200 : ℤ)) d) :
    ∃ op, transformEigenspaceA A (fmat n k U) (fvec k e) f = .ok op ∧ ∀ v, Sized A n (2 ^ (200 : ℤ)) v → ∃ y, op (fvec n v) = .ok (fvec n y) ∧ ∀ i < n,
      A.Machine (.fin (y i)) ∧ |y i - stretched n k U d v i| ≤
        2 ^ (-53 : ℤ) * (|stretched n k U d v i| + (2 * n + 2 * k + 4) * stretchSize n k U d v i) + n * k * 2 ^ (-800 : ℤ) :=
  ⟨_, transform_ok hf, fun _ hv => apply_close hA hB hD hn hk hU hd hv⟩

/-! ### `check_preconditioner` -/

/-- The condition on the tolerance is enough. -/
theorem tolerance {n : ℕ} {C V tol : ℝ} (hn : n ≤ 2 ^ 19) (hC : 0 ≤ C) (hV : 0 ≤ V) (ht : 30 * (n * n) * C * V + 2 ^ (-400 : ℤ) ≤ tol) :
    1.02 * (n * (28 * n * C * V + 2 ^ (-600 : ℤ))) + 2 ^ (-500 : ℤ) ≤ tol := by
  have h1 : (n:ℝ) ≤ 2 ^ (19 : ℤ) := by exact_mod_cast hn
  have h2 := mul_zpow_le (two_zpow_pos _).le h1 (le_refl ((2:ℝ) ^ (-600 : ℤ)))
  have h3 : (2:ℝ) ^ (19 + -600 : ℤ) ≤ 2 ^ (-500 : ℤ) := Arith.small_zpow (by norm_num)
  have h4 : 4 * (2:ℝ) ^ (-500 : ℤ) ≤ 2 ^ (-400 : ℤ) :=
    (mul_zpow_le (two_zpow_pos _).le (show (4:ℝ) ≤ 2 ^ (2 : ℤ) by norm_num) le_rfl).trans (Arith.small_zpow (by norm_num))
  have h5 : 0 ≤ n * n * C * V := by positivity
  have h6 : (0:ℝ) < 2 ^ (-500 : ℤ) := two_zpow_pos _
  generalize (2:ℝ) ^ (-500 : ℤ) = q at *
  generalize (2:ℝ) ^ (-400 : ℤ) = q' at *
  generalize (2:ℝ) ^ (-600 : ℤ) = q'' at *
  generalize (2:ℝ) ^ (19 + -600 : ℤ) = r at *
  linarith

/-- Eigenvalues within `4 ** -p` and `4 ** p`. -/
theorem roots_between (hA : A.Sane) (hB : A.Accurate) {n p : ℕ} (hp : p ≤ 100) {e : ℕ → ℝ} (he : ∀ j < n, 2 ^ (-(2 * p : ℤ)) ≤ e j ∧ e j ≤ 2 ^ (2 * p : ℤ)) :
    ∃ d d' : ℕ → ℝ, ∀ j < n, A.sqrt (.fin (e j)) = .fin (d j) ∧ A.div 1 (A.sqrt (.fin (e j))) = .fin (d' j) ∧ A.Machine (.fin (d j)) ∧ A.Machine (.fin (d' j)) ∧
      2 ^ (-p : ℤ) ≤ d j ∧ d j ≤ 2 ^ (p : ℤ) ∧ 2 ^ (-p : ℤ) ≤ d' j ∧ d' j ≤ 2 ^ (p : ℤ) ∧ |d' j * d j - 1| ≤ Arith.uRound := by
  have key : ∀ j, ∃ d d', j < n → A.sqrt (.fin (e j)) = .fin d ∧ A.div 1 (A.sqrt (.fin (e j))) = .fin d' ∧ A.Machine (.fin d) ∧ A.Machine (.fin d') ∧
      2 ^ (-p : ℤ) ≤ d ∧ d ≤ 2 ^ (p : ℤ) ∧ 2 ^ (-p : ℤ) ≤ d' ∧ d' ≤ 2 ^ (p : ℤ) ∧ |d' * d - 1| ≤ Arith.uRound := by
    intro j
    by_cases hj : j < n
    · obtain ⟨d, h1, h2, h3, h4⟩ := sqrt_between hA hB (p := p) (by omega) (he j hj).1 (he j hj).2
      obtain ⟨d', k1, k2, k3, k4, k5⟩ := inv_between hA hB (p := p) (by omega) h3 h4
      exact ⟨d, d', fun _ => ⟨h1, by rw [h1]; exact k1, h2, k2, h3, h4, k3, k4, k5⟩⟩
    · exact ⟨0, 0, fun h => absurd h hj⟩
  choose d d' h using key
  exact ⟨d, d', h⟩

theorem eps_size {n p : ℕ} {g η V : ℝ} (hn : n ≤ 2 ^ 19) (hp : p ≤ 60) (hg0 : 0 ≤ g) (hg : g ≤ 2 ^ 20) (hη0 : 0 ≤ η) (hη : η ≤ 1) (hV0 : 0 ≤ V) (hV : V ≤ 2 ^ (60 : ℤ)) :
    28 * n * ((1 + g * g * 2 ^ p) * (1 + g * g * 2 ^ p)) * (Arith.uRound + η) * V + 2 ^ (-600 : ℤ) ≤ 2 ^ (300 : ℤ) := by
  have h1 : (n:ℝ) ≤ 2 ^ (19 : ℤ) := by exact_mod_cast hn
  have h2 : g ≤ 2 ^ (20 : ℤ) := by exact_mod_cast hg
  have hm : (2:ℝ) ^ p ≤ 2 ^ (60 : ℤ) := by rw [← zpow_natCast]; exact Arith.small_zpow (by exact_mod_cast hp)
  have hG : 1 + g * g * 2 ^ p ≤ 2 ^ (101 : ℤ) := by
    have h3 := mul_zpow_le (by positivity) (mul_zpow_le hg0 h2 h2) hm
    have h4 := Arith.double_zpow (x := 2 ^ (20 + 20 + 60 : ℤ)) le_rfl (y := 1 + g * g * 2 ^ p) (by
      have := one_le_zpow (e := 20 + 20 + 60) (by norm_num)
      generalize (2:ℝ) ^ (20 + 20 + 60 : ℤ) = q at *
      linarith)
    exact h4.trans (by norm_num)
  have hu0 := Arith.uRound_pos
  have hu : Arith.uRound + η ≤ 2 ^ (1 : ℤ) := by have := Arith.uRound_le; norm_num at this ⊢; linarith
  have a := mul_zpow_le (by positivity) (show (28:ℝ) ≤ 2 ^ (5 : ℤ) by norm_num) h1
  have b := mul_zpow_le (by positivity) a (mul_zpow_le (by positivity) hG hG)
  have c := mul_zpow_le hV0 (mul_zpow_le (by positivity) b hu) hV
  have h5 : (2:ℝ) ^ (-600 : ℤ) ≤ 2 ^ (5 + 19 + (101 + 101) + 1 + 60 : ℤ) := Arith.small_zpow (by norm_num)
  refine Arith.up_zpow (Arith.double_zpow (le_refl ((2:ℝ) ^ (5 + 19 + (101 + 101) + 1 + 60 : ℤ))) ?_) (by norm_num)
  linarith

/-- A Hessian preconditioner passes its check, once its (truncated) eigenvalues are known. -/
theorem hessian_check (hA : A.Sane) (hB : A.Accurate) (hD : A.DotAccurate) {eigh : EighA} {n p : ℕ} (hn : n ≤ 2 ^ 19) (hp : p ≤ 60) {g η : ℝ} (hη0 : 0 ≤ η) (hη : η ≤ 1)
    (hg1 : 1 ≤ g) (hg2 : g ≤ 2 ^ 20) {H S U : ℕ → ℕ → ℝ} {r e : ℕ → ℝ} {lo hi : Option Flt} (hS : symmetrizeA A (fmat n n H) = .ok (fmat n n S))
    (he : eigh n (fmat n n S) = .ok ((List.range n).map fun j => .fin (r j), fmat n n U)) (hUm : ∀ i < n, ∀ j < n, A.Machine (.fin (U i j)))
    (hO : NearOrthonormal n U η) (hg : Narrow n U g) (ht : truncateA lo hi ((List.range n).map fun j => .fin (r j)) = (List.range n).map fun j => .fin (e j))
    (hr : ∀ j < n, 2 ^ (-(2 * p : ℤ)) ≤ e j ∧ e j ≤ 2 ^ (2 * p : ℤ)) :
    ∃ s, PrecondA.withHessian A eigh (fmat n n H) lo hi = .ok s ∧ ∀ v V tol, Sized A n V v → 0 ≤ V → V ≤ 2 ^ (60 : ℤ) →
      30 * (n * n) * ((1 + g * g * 2 ^ p) * (1 + g * g * 2 ^ p) * (2 ^ (-53 : ℤ) + η)) * V + 2 ^ (-400 : ℤ) ≤ tol → s.check A (fvec n v) (.fin tol) = .ok () := by
  obtain ⟨d, d', hd⟩ := roots_between hA hB (by omega : p ≤ 100) hr
  refine ⟨_, withHessian_ok hS he ht (fun j hj => (hd j hj).1) (fun j hj => (hd j hj).2.1), fun v V tol hv hV0 hV htol => ?_⟩
  have pos : ∀ x : ℝ, 2 ^ (-p : ℤ) ≤ x → 0 ≤ x := fun x h => (two_zpow_pos _).le.trans h
  obtain ⟨w, y, e1, e2, hy⟩ := there_and_back hA hB hD hn hp hUm hO hη0 hη hg hg1 hg2 hV0 hV hv
    (d := d) (d' := d') (fun j hj => ⟨(hd j hj).2.2.1, pos _ (hd j hj).2.2.2.2.1, by simpa using (hd j hj).2.2.2.2.2.1⟩)
    (fun j hj => ⟨(hd j hj).2.2.2.1, pos _ (hd j hj).2.2.2.2.2.2.1, by simpa using (hd j hj).2.2.2.2.2.2.2.1⟩) fun j hj => (hd j hj).2.2.2.2.2.2.2.2
  have hu0 := Arith.uRound_pos
  rw [Arith.uRound_val] at htol
  have hG : 0 ≤ 1 + g * g * 2 ^ p := by positivity
  have := tolerance hn (C := (1 + g * g * 2 ^ p) * (1 + g * g * 2 ^ p) * (Arith.uRound + η)) (by positivity) hV0 htol
  refine check_accepts hA hB hD hn e1 e2 (fun i hi => (hv i hi).1) hy (by positivity) (eps_size hn hp (by linarith) hg2 hη0 hη hV0 hV) ?_
  refine le_trans (le_of_eq ?_) this
  ring

theorem truncate_clamp {n : ℕ} {r : ℕ → ℝ} {lo hi : ℝ} :
    truncateA (some (.fin lo)) (some (.fin hi)) ((List.range n).map fun j => .fin (r j)) = (List.range n).map fun j => .fin (clamp (some lo) (some hi) (r j)) := by
  simp only [truncateA, List.map_map, Function.comp_def]
  refine List.map_congr_left fun j _ => ?_
  have e1 : (if (Flt.fin (r j)).le (.fin lo) = true then Flt.fin lo else .fin (r j)) = .fin (max (r j) lo) := by
    by_cases h : r j ≤ lo
    · rw [if_pos (le_fin_iff.mpr h), max_eq_right h]
    · rw [if_neg (mt le_fin_iff.mp h), max_eq_left (not_le.mp h).le]
  rw [e1]
  simp only [clamp]
  by_cases h : hi ≤ max (r j) lo
  · rw [if_pos (le_fin_iff.mpr h), min_eq_right h]
  · rw [if_neg (mt le_fin_iff.mp h), min_eq_left (not_le.mp h).le]

/-- **C119, the check of a Hessian preconditioner.** With eigenvalue bounds between `4 ** -p` and `4 ** p`, every finite Hessian gives a preconditioner that
`check_preconditioner` accepts, for all vectors of size up to `V` and tolerances of at least `30 n² (1 + g² 2 ** p)² (2 ** -53 + η) V`.  Here `g` bounds the sums of
the rows and columns of the eigenvectors, and `η` is how far they are from orthonormal. -/
theorem C119_check (hA : A.Sane) (hB : A.Accurate) (hD : A.DotAccurate) {eigh : EighA} {n p : ℕ} (hn : n ≤ 2 ^ 19) (hp : p ≤ 60) {g η : ℝ} (hη0 : 0 ≤ η) (hη : η ≤ 1)
    (hg1 : 1 ≤ g) (hg2 : g ≤ 2 ^ 20) (he : EighSound A eigh n g η) {H : ℕ → ℕ → ℝ} (hH : ∀ i < n, ∀ j < n, A.Machine (.fin (H i j)) ∧ |H i j| ≤ 2 ^ (1000 : ℤ))
    {lo hi : ℝ} (h1 : 2 ^ (-(2 * p : ℤ)) ≤ lo) (h2 : lo ≤ hi) (h3 : hi ≤ 2 ^ (2 * p : ℤ)) :
    ∃ s, PrecondA.withHessian A eigh (fmat n n H) (some (.fin lo)) (some (.fin hi)) = .ok s ∧ ∀ v V tol, Sized A n V v → 0 ≤ V → V ≤ 2 ^ (60 : ℤ) →
      30 * (n * n) * ((1 + g * g * 2 ^ p) * (1 + g * g * 2 ^ p) * (2 ^ (-53 : ℤ) + η)) * V + 2 ^ (-400 : ℤ) ≤ tol → s.check A (fvec n v) (.fin tol) = .ok () := by
  obtain ⟨S, hS, hSm, _⟩ := symmetrize_finite hA hB hH
  obtain ⟨r, U, e, _, hUm, hO, hg⟩ := he S hSm
  refine hessian_check hA hB hD hn hp hη0 hη hg1 hg2 hS e hUm hO hg truncate_clamp fun j _ => ?_
  simp only [clamp]
  exact ⟨le_min (h1.trans (le_max_right _ _)) (h1.trans h2), (min_le_right _ _).trans h3⟩

/-- **C119, the check without eigenvalue bounds.** The same for a symmetric Hessian whose computed eigenvalues are themselves between `4 ** -p` and `4 ** p`. -/
theorem C119_plain (hA : A.Sane) (hB : A.Accurate) (hD : A.DotAccurate) {eigh : EighA} {n p : ℕ} (hn : n ≤ 2 ^ 19) (hp : p ≤ 60) {g η : ℝ} (hη0 : 0 ≤ η) (hη : η ≤ 1)
    (hg1 : 1 ≤ g) (hg2 : g ≤ 2 ^ 20) {H U : ℕ → ℕ → ℝ} {r : ℕ → ℝ} (hH : ∀ i < n, ∀ j < n, A.Machine (.fin (H i j)) ∧ |H i j| ≤ 2 ^ (1000 : ℤ))
    (hsym : ∀ i < n, ∀ j < n, H i j = H j i) (he : eigh n (fmat n n H) = .ok ((List.range n).map fun j => .fin (r j), fmat n n U))
    (hUm : ∀ i < n, ∀ j < n, A.Machine (.fin (U i j))) (hO : NearOrthonormal n U η) (hg : Narrow n U g)
    (hr : ∀ j < n, 2 ^ (-(2 * p : ℤ)) ≤ r j ∧ r j ≤ 2 ^ (2 * p : ℤ)) :
    ∃ s, PrecondA.withHessian A eigh (fmat n n H) none none = .ok s ∧ ∀ v V tol, Sized A n V v → 0 ≤ V → V ≤ 2 ^ (60 : ℤ) →
      30 * (n * n) * ((1 + g * g * 2 ^ p) * (1 + g * g * 2 ^ p) * (2 ^ (-53 : ℤ) + η)) * V + 2 ^ (-400 : ℤ) ≤ tol → s.check A (fvec n v) (.fin tol) = .ok () := by
  obtain ⟨S, hS, _, hSH⟩ := symmetrize_finite hA hB hH
  rw [← fmat_congr (hSH hsym)] at he
  exact hessian_check hA hB hD hn hp hη0 hη hg1 hg2 hS he hUm hO hg rfl hr

/-! ### What gets lost -/

theorem fvec_inj {n : ℕ} {v w : ℕ → ℝ} (h : fvec n v = fvec n w) {i : ℕ} (hi : i < n) : v i = w i := by
  have := congrArg (fun a => a.data.getD i .nan) h
  simp only [fvec_getD hi] at this
  injection this

theorem round_ge (hB : A.Accurate) {x z : ℝ} {q : ℤ} (hx : |x| ≤ 2 ^ (1010 : ℤ)) (hq : -1074 ≤ q) (hq' : q ≤ 970) (h : A.round (.fin x) = .fin z) (hx' : 2 ^ q ≤ x) : 2 ^ q ≤ z := by
  rw [hB.round_le hx] at h
  injection h with h
  rw [← h, ← hB.machine (power_machine hB hq hq')]
  exact rndReal_mono hx'

theorem round_le' (hB : A.Accurate) {x z : ℝ} {q : ℤ} (hx : |x| ≤ 2 ^ (1010 : ℤ)) (hq : -1074 ≤ q) (hq' : q ≤ 970) (h : A.round (.fin x) = .fin z) (hx' : x ≤ 2 ^ q) : z ≤ 2 ^ q := by
  rw [hB.round_le hx] at h
  injection h with h
  rw [← h, ← hB.machine (power_machine hB hq hq')]
  exact rndReal_mono hx'

/-- The root of a large or small eigenvalue, and its inverse. -/
theorem root_small (hB : A.Accurate) {x d d' : ℝ} (h1 : 2 ^ (-200 : ℤ) ≤ x) (h2 : x ≤ 2 ^ (200 : ℤ)) (hd : A.sqrt (.fin x) = .fin d) (hd' : A.div 1 (A.sqrt (.fin x)) = .fin d')
    (hd0 : 2 ^ (-100 : ℤ) ≤ d) : (2 ^ (110 : ℤ) ≤ x → d' ≤ 2 ^ (-55 : ℤ)) ∧ (x ≤ 2 ^ (-110 : ℤ) → d ≤ 2 ^ (-55 : ℤ)) := by
  have hx : 0 < x := (two_zpow_pos _).trans_le h1
  have hdp : 0 < d := (two_zpow_pos _).trans_le hd0
  have e : ∀ q : ℤ, (2:ℝ) ^ (2 * q) = (2 ^ q) ^ 2 := fun q => by rw [sq, ← Arith.zpow_split]; ring_nf
  have hs := hd
  rw [Arith.sqrt, Flt.sqrt, if_pos hx.le] at hs
  have hroot : |Real.sqrt x| ≤ 2 ^ (1010 : ℤ) := by
    rw [abs_of_nonneg (Real.sqrt_nonneg _)]
    refine (Real.sqrt_le_sqrt (h2.trans (?_ : _ ≤ ((2:ℝ) ^ (100 : ℤ)) ^ 2))).trans ?_
    · rw [← e]; norm_num
    · rw [Real.sqrt_sq (two_zpow_pos _).le]; exact Arith.small_zpow (by norm_num)
  constructor
  · intro h
    have hge : 2 ^ (55 : ℤ) ≤ d := round_ge hB hroot (by norm_num) (by norm_num) hs (Real.le_sqrt_of_sq_le (by rw [← e]; exact h))
    rw [hd, Arith.div, Arith.one_flt, div_fin _ _ hdp.ne'] at hd'
    have i1 : 1 / d ≤ 2 ^ (-55 : ℤ) := by rw [zpow_neg, ← one_div]; exact one_div_le_one_div_of_le (two_zpow_pos _) hge
    refine round_le' hB ?_ (by norm_num) (by norm_num) hd' i1
    rw [abs_of_pos (by positivity)]
    exact Arith.up_zpow i1 (by norm_num)
  · intro h
    refine round_le' hB hroot (by norm_num) (by norm_num) hs ?_
    rw [← Real.sqrt_sq (two_zpow_pos (-55)).le, ← e]
    exact Real.sqrt_le_sqrt (h.trans (by norm_num))

/-- **C119, what gets lost.** Let a column of the eigenvectors be an axis, as for a diagonal Hessian, and let its eigenvalue be at least `2 ** 110` or at most
`2 ** -110`.  Then `check_preconditioner` raises for every vector whose entry on that axis is twice the tolerance; in the first case `unprecondition` sets that
entry to zero, in the second case `precondition` does. -/
theorem C119_lost (hA : A.Sane) (hB : A.Accurate) (hD : A.DotAccurate) (hS : A.DotSparse) {eigh : EighA} {n : ℕ} (hn : n ≤ 2 ^ 19) {H U : ℕ → ℕ → ℝ} {r : ℕ → ℝ}
    (hH : ∀ i < n, ∀ j < n, A.Machine (.fin (H i j)) ∧ |H i j| ≤ 2 ^ (1000 : ℤ)) (hsym : ∀ i < n, ∀ j < n, H i j = H j i)
    (he : eigh n (fmat n n H) = .ok ((List.range n).map fun j => .fin (r j), fmat n n U))
    (hU : ∀ i < n, ∀ j < n, A.Machine (.fin (U i j)) ∧ |U i j| ≤ 2) (hr : ∀ j < n, 2 ^ (-200 : ℤ) ≤ r j ∧ r j ≤ 2 ^ (200 : ℤ))
    {i j : ℕ} (hi : i < n) (hj : j < n) (hL : Lone n U i j) (hrj : 2 ^ (110 : ℤ) ≤ r j ∨ r j ≤ 2 ^ (-110 : ℤ)) :
    ∃ s, PrecondA.withHessian A eigh (fmat n n H) none none = .ok s ∧
      (2 ^ (110 : ℤ) ≤ r j → ∀ v, Sized A n (2 ^ (200 : ℤ)) v → ∃ y, s.aTimes (fvec n v) = .ok (fvec n y) ∧ y i = 0) ∧
      (r j ≤ 2 ^ (-110 : ℤ) → ∀ v, Sized A n (2 ^ (200 : ℤ)) v → ∃ y, s.aInvTimes (fvec n v) = .ok (fvec n y) ∧ y i = 0) ∧
      ∀ v tol, Sized A n (2 ^ (40 : ℤ)) v → 2 ^ (-400 : ℤ) ≤ tol → 2 * tol ≤ |v i| →
        s.check A (fvec n v) (.fin tol) = .error (.valueError "``a_times`` does not invert ``a_inv_times``.") := by
  obtain ⟨S, hSy, _, hSH⟩ := symmetrize_finite hA hB hH
  rw [← fmat_congr (hSH hsym)] at he
  obtain ⟨d, d', hd⟩ := roots_between hA hB (p := 100) le_rfl (n := n) (e := r) (by simpa using hr)
  have t100 : (2:ℝ) ^ (100 : ℤ) ≤ 2 ^ (200 : ℤ) := Arith.small_zpow (by norm_num)
  have hd0 : ∀ j < n, 0 ≤ d j ∧ d j ≤ 2 ^ (100 : ℤ) := fun j hj => ⟨(two_zpow_pos _).le.trans (hd j hj).2.2.2.2.1, by simpa using (hd j hj).2.2.2.2.2.1⟩
  have hd0' : ∀ j < n, 0 ≤ d' j ∧ d' j ≤ 2 ^ (100 : ℤ) := fun j hj => ⟨(two_zpow_pos _).le.trans (hd j hj).2.2.2.2.2.2.1, by simpa using (hd j hj).2.2.2.2.2.2.2.1⟩
  have hds : Sized A n (2 ^ (200 : ℤ)) d := fun j hj => ⟨(hd j hj).2.2.1, by rw [abs_of_nonneg (hd0 j hj).1]; exact (hd0 j hj).2.trans t100⟩
  have hds' : Sized A n (2 ^ (200 : ℤ)) d' := fun j hj => ⟨(hd j hj).2.2.2.1, by rw [abs_of_nonneg (hd0' j hj).1]; exact (hd0' j hj).2.trans t100⟩
  obtain ⟨hbig, hsmall⟩ := root_small hB (hr j hj).1 (hr j hj).2 (hd j hj).1 (hd j hj).2.1 (by simpa using (hd j hj).2.2.2.2.1)
  refine ⟨_, withHessian_ok hSy he rfl (fun j hj => (hd j hj).1) (fun j hj => (hd j hj).2.1), ?_, ?_, ?_⟩
  · intro h v hv
    obtain ⟨y, e, _, hy⟩ := lone_lost hA hB hD hS hn hU hds' hv hi hj hL (.inl ⟨(hd0' j hj).1, hbig h⟩)
    exact ⟨y, e, hy⟩
  · intro h v hv
    obtain ⟨y, e, _, hy⟩ := lone_lost hA hB hD hS hn hU hds hv hi hj hL (.inl ⟨(hd0 j hj).1, hsmall h⟩)
    exact ⟨y, e, hy⟩
  · intro v tol hv ht htv
    have hN : Narrow n U (2 ^ (20 : ℤ)) := by
      have : (n:ℝ) * 2 ≤ 2 ^ (20 : ℤ) := by
        have h := pow19 hn
        rw [show (2:ℝ) ^ (20 : ℤ) = 2 * 2 ^ 19 by norm_num]
        linarith
      exact ⟨fun i hi => (sum_le_card fun j hj => (hU i hi j hj).2).trans this, fun j hj => (sum_le_card fun i hi => (hU i hi j hj).2).trans this⟩
    have h1d : ∀ x : ℝ, 0 ≤ x → x ≤ 2 ^ (100 : ℤ) → |x - 1| ≤ 2 ^ (100 : ℤ) := fun x h0 h1 => by
      have := one_le_zpow (e := 100) (by norm_num)
      exact abs_le.mpr ⟨by linarith, by linarith⟩
    have hG : 1 + (2:ℝ) ^ (20 : ℤ) * 2 ^ (20 : ℤ) * 2 ^ (100 : ℤ) ≤ 2 ^ (141 : ℤ) := by
      rw [← Arith.zpow_split, ← Arith.zpow_split]
      refine (Arith.double_zpow (le_refl ((2:ℝ) ^ (140 : ℤ))) (y := 1 + 2 ^ (20 + 20 + 100 : ℤ)) ?_).trans (by norm_num)
      have := one_le_zpow (e := 140) (by norm_num)
      norm_num only at this ⊢
    have hu0 := Arith.uRound_pos
    have h9 : 9 * (n:ℝ) * Arith.uRound ≤ 1 := by
      have := mul_le_mul (pow19 hn) Arith.uRound_le hu0.le (by norm_num)
      norm_num at this
      linarith
    have hτ : (2:ℝ) ^ (-762 : ℤ) ≤ 1 := (Arith.small_zpow (show (-762 : ℤ) ≤ 0 by norm_num)).trans (zpow_zero _).le
    have size : ∀ (d x : ℕ → ℝ) (a : ℤ), 0 ≤ a → a ≤ 200 → Sized A n (2 ^ (200 : ℤ)) d → (∀ j < n, 0 ≤ d j ∧ d j ≤ 2 ^ (100 : ℤ)) → Sized A n (2 ^ a) x →
        ∃ y, stretchA A n n U d (fvec n x) = .ok (fvec n y) ∧ Sized A n (2 ^ (a + 143)) y := by
      intro d x a ha0 ha hds hd0 hx
      obtain ⟨y, e, hy⟩ := apply_narrow hA hB hD hn hU hN (two_zpow_pos _).le (two_zpow_pos 100).le (two_zpow_pos a).le hds
        (fun j hj => h1d _ (hd0 j hj).1 (hd0 j hj).2) hx (Arith.small_zpow ha)
      refine ⟨y, e, fun i hi => ⟨(hy i hi).1, ?_⟩⟩
      have a1 := stretched_le hN (two_zpow_pos 100).le (two_zpow_pos a).le (two_zpow_pos _).le (fun j hj => h1d _ (hd0 j hj).1 (hd0 j hj).2) (fun i hi => (hx i hi).2) hi
      have a2 := (hy i hi).2
      have a3 : |y i| ≤ |y i - stretched n n U d x i| + |stretched n n U d x i| := by simpa using abs_add_le (y i - stretched n n U d x i) (stretched n n U d x i)
      have a4 := mul_zpow_le (two_zpow_pos a).le hG (le_refl ((2:ℝ) ^ a))
      have a5 := one_le_zpow (e := 141 + a) (by omega)
      have a6 : (2:ℝ) ^ (a + 143) = 4 * 2 ^ (141 + a) := by
        rw [show a + 143 = 2 + (141 + a) by ring, Arith.zpow_split]; norm_num
      have a7 : 0 ≤ (1 + (2:ℝ) ^ (20 : ℤ) * 2 ^ (20 : ℤ) * 2 ^ (100 : ℤ)) * 2 ^ a := by positivity
      have a8 := mul_le_mul_of_nonneg_right h9 a7
      rw [a6]
      generalize (1 + (2:ℝ) ^ (20 : ℤ) * 2 ^ (20 : ℤ) * 2 ^ (100 : ℤ)) * 2 ^ a = Q at *
      generalize (2:ℝ) ^ (141 + a) = R at *
      generalize (2:ℝ) ^ (-762 : ℤ) = T at *
      linarith
    obtain ⟨w, ew, hw⟩ := size d v 40 (by norm_num) (by norm_num) hds hd0 hv
    have hw2 : Sized A n (2 ^ (200 : ℤ)) w := fun i hi => ⟨(hw i hi).1, Arith.up_zpow (hw i hi).2 (by norm_num)⟩
    obtain ⟨y, ey, hy⟩ := size d' w (40 + 143) (by norm_num) (by norm_num) hds' hd0' hw
    have hc : (0 ≤ d' j ∧ d' j ≤ 2 ^ (-55 : ℤ)) ∨ w i = 0 := by
      rcases hrj with h | h
      · exact .inl ⟨(hd0' j hj).1, hbig h⟩
      · obtain ⟨w', e, _, h0⟩ := lone_lost hA hB hD hS hn hU hds (fun i hi => ⟨(hv i hi).1, Arith.up_zpow (hv i hi).2 (by norm_num)⟩) hi hj hL
          (.inl ⟨(hd0 j hj).1, hsmall h⟩)
        rw [ew] at e
        injection e with e
        exact .inr ((fvec_inj e hi).trans h0)
    obtain ⟨y', e', _, h0⟩ := lone_lost hA hB hD hS hn hU hds' hw2 hi hj hL hc
    have hyi : y i = 0 := by
      rw [ey] at e'
      injection e' with e'
      exact (fvec_inj e' hi).trans h0
    refine check_rejects hA hB hD hn (V := 2 ^ (450 : ℤ)) ew ey (fun i hi => (hv i hi).1) (fun l hl => ⟨(hy l hl).1, ?_⟩) le_rfl ht hi (by rw [hyi, zero_sub, abs_neg]; exact htv)
    have b1 := Arith.up_zpow (hy l hl).2 (show (40 + 143 + 143 : ℤ) ≤ 449 by norm_num)
    have b2 := Arith.up_zpow (hv l hl).2 (show (40 : ℤ) ≤ 449 by norm_num)
    refine (Arith.double_zpow (le_refl ((2:ℝ) ^ (449 : ℤ))) ((abs_sub _ _).trans ?_)).trans (by norm_num)
    linarith

/-! ### Preconditioning by a matrix -/

theorem matrix_core {u n α β V η t e1 W r y : ℝ} (hu : 0 ≤ u) (hn : 0 ≤ n) (hnu : n * (2 * u) ≤ 1 / 1000) (hα : 0 ≤ α) (hβ : 0 ≤ β) (hV : 0 ≤ V) (ht : 0 ≤ t)
    (he1 : e1 ≤ n * (2 * u) * (β * V) + n * t) (hW : W ≤ β * V + e1) (hr : r ≤ n * η * V + α * e1) (hy : y ≤ r + (n * (2 * u) * (α * W) + n * t)) :
    y ≤ n * (η + 5 * u * (α * β)) * V + (2 * α + 1) * (n * t) := by
  have hβV : 0 ≤ β * V := by positivity
  have hW' : W ≤ 1.001 * (β * V) + n * t := by
    have := mul_le_mul_of_nonneg_right hnu hβV
    linarith
  have a1 := mul_le_mul_of_nonneg_left he1 hα
  have a2 : n * (2 * u) * (α * W) ≤ n * (2 * u) * (α * (1.001 * (β * V) + n * t)) :=
    mul_le_mul_of_nonneg_left (mul_le_mul_of_nonneg_left hW' hα) (by positivity)
  have a3 : n * (2 * u) * (α * (n * t)) ≤ 1 / 1000 * (α * (n * t)) := mul_le_mul_of_nonneg_right hnu (by positivity)
  have a4 : 0 ≤ n * u * (α * β * V) := by positivity
  have a5 : 0 ≤ α * (n * t) := by positivity
  linarith

/-- **C119, preconditioning by a matrix.** With a matrix `a` and a given inverse `b`, `unprecondition` is off by `n * 2 ** -52` times the sizes of the terms; and if
`a @ b` is the identity up to `η` in each entry, the check accepts all tolerances of at least `2 n² (η + 8 * 2 ** -53 * α β) V`, where `α` and `β` bound the sums of the
rows. -/
theorem C119_matrix (hA : A.Sane) (hB : A.Accurate) (hD : A.DotAccurate) (inv : OpA) {n : ℕ} (hn : n ≤ 2 ^ 19) {a b : ℕ → ℕ → ℝ} {α β η : ℝ}
    (ha : ∀ i < n, ∀ j < n, A.Machine (.fin (a i j))) (hb : ∀ i < n, ∀ j < n, A.Machine (.fin (b i j)))
    (hα : ∀ i < n, ∑ j ∈ Finset.range n, |a i j| ≤ α) (hβ : ∀ i < n, ∑ j ∈ Finset.range n, |b i j| ≤ β) (hα0 : 0 ≤ α) (hβ0 : 0 ≤ β) (hα' : α ≤ 2 ^ (100 : ℤ)) (hβ' : β ≤ 2 ^ (100 : ℤ))
    (hη0 : 0 ≤ η) (hη1 : η ≤ 1) (hη : ∀ i < n, ∀ j < n, |∑ l ∈ Finset.range n, a i l * b l j - if i = j then 1 else 0| ≤ η) :
    ∃ s, PrecondA.setMatrix A inv (fmat n n a) (some (fmat n n b)) = .ok s ∧
      (∀ v, Sized A n (2 ^ (200 : ℤ)) v → ∃ y, s.aTimes (fvec n v) = .ok (fvec n y) ∧ ∀ i < n, A.Machine (.fin (y i)) ∧
        |y i - ∑ j ∈ Finset.range n, a i j * v j| ≤ n * 2 ^ (-52 : ℤ) * (∑ j ∈ Finset.range n, |a i j| * |v j|) + n * 2 ^ (-1074 : ℤ)) ∧
      ∀ v V tol, Sized A n V v → 0 ≤ V → V ≤ 2 ^ (60 : ℤ) → 2 * (n * n) * (η + 8 * 2 ^ (-53 : ℤ) * (α * β)) * V + 2 ^ (-400 : ℤ) ≤ tol →
        s.check A (fvec n v) (.fin tol) = .ok () := by
  have hu0 := Arith.uRound_pos
  have rows : ∀ {M : ℕ → ℕ → ℝ} {γ V : ℝ} {v : ℕ → ℝ}, (∀ i < n, ∑ j ∈ Finset.range n, |M i j| ≤ γ) → 0 ≤ V → (∀ i < n, |v i| ≤ V) → ∀ i < n,
      ∑ j ∈ Finset.range n, |M i j| * |v j| ≤ γ * V := by
    intro M γ V v hM hV hv i hi
    refine (Finset.sum_le_sum fun j hj => mul_le_mul_of_nonneg_left (hv j (Finset.mem_range.mp hj)) (abs_nonneg _)).trans ?_
    rw [← Finset.sum_mul]
    exact mul_le_mul_of_nonneg_right (hM i hi) hV
  refine ⟨_, rfl, ?_, ?_⟩
  · intro v hv
    obtain ⟨y, e, hy⟩ := matvec_close hD (hn.trans (by norm_num)) ha (fun j hj => (hv j hj).1) fun i hi =>
      (rows hα (two_zpow_pos _).le (fun i hi => (hv i hi).2) i hi).trans ((mul_zpow_le (two_zpow_pos _).le hα' le_rfl).trans (Arith.small_zpow (by norm_num)))
    refine ⟨y, e, fun i hi => ⟨(hy i hi).1, ?_⟩⟩
    rw [Arith.uRound_val2]
    exact (hy i hi).2
  · intro v V tol hv hV0 hV htol
    set t : ℝ := 2 ^ (-1074 : ℤ) with ht
    have ht0 : 0 < t := two_zpow_pos _
    have h1 : (n:ℝ) ≤ 2 ^ (19 : ℤ) := by exact_mod_cast hn
    have hnt : (n:ℝ) * t ≤ 2 ^ (-1055 : ℤ) := (mul_zpow_le ht0.le h1 le_rfl).trans (by norm_num)
    have hnt1 : (n:ℝ) * t ≤ 1 := hnt.trans ((Arith.small_zpow (show (-1055 : ℤ) ≤ 0 by norm_num)).trans (zpow_zero _).le)
    have hnu : (n:ℝ) * (2 * Arith.uRound) ≤ 1 / 1000 :=
      (mul_le_mul (pow19 hn) (mul_le_mul_of_nonneg_left Arith.uRound_le (by norm_num)) (by positivity) (by norm_num)).trans (by norm_num)
    have hbV := rows hβ hV0 fun i hi => (hv i hi).2
    have hβV : β * V ≤ 2 ^ (160 : ℤ) := (mul_zpow_le hV0 hβ' hV).trans (by norm_num)
    have hβV0 : 0 ≤ β * V := by positivity
    obtain ⟨w, e1, hw⟩ := matvec_close hD (hn.trans (by norm_num)) hb (fun j hj => (hv j hj).1) fun i hi =>
      (hbV i hi).trans (Arith.up_zpow hβV (by norm_num))
    set e : ℝ := n * (2 * Arith.uRound) * (β * V) + n * t with he
    have he0 : 0 ≤ e := by positivity
    have hwe : ∀ i < n, |w i - ∑ j ∈ Finset.range n, b i j * v j| ≤ e := fun i hi => (hw i hi).2.trans
      (add_le_add (mul_le_mul_of_nonneg_left (hbV i hi) (by positivity)) le_rfl)
    have hws : ∀ i < n, |w i| ≤ β * V + e := by
      intro i hi
      have a1 : |∑ j ∈ Finset.range n, b i j * v j| ≤ β * V := (sum_abs_range fun j _ => (abs_mul _ _).le).trans (hbV i hi)
      have a2 : |w i| ≤ |w i - ∑ j ∈ Finset.range n, b i j * v j| + |∑ j ∈ Finset.range n, b i j * v j| := by
        simpa using abs_add_le (w i - ∑ j ∈ Finset.range n, b i j * v j) (∑ j ∈ Finset.range n, b i j * v j)
      have := hwe i hi
      linarith
    have hW : β * V + e ≤ 2 ^ (162 : ℤ) := by
      have a1 := mul_le_mul_of_nonneg_right hnu hβV0
      have a2 := one_le_zpow (e := 160) (by norm_num)
      refine le_trans ?_ ((mul_zpow_le (two_zpow_pos _).le (show (4:ℝ) ≤ 2 ^ (2 : ℤ) by norm_num) (le_refl ((2:ℝ) ^ (160 : ℤ)))).trans (by norm_num))
      generalize (2:ℝ) ^ (160 : ℤ) = q at *
      linarith
    have haW := rows hα (show 0 ≤ β * V + e by positivity) hws
    obtain ⟨y, e2, hy⟩ := matvec_close hD (hn.trans (by norm_num)) ha (fun j hj => (hw j hj).1) fun i hi =>
      (haW i hi).trans ((mul_zpow_le (by positivity) hα' hW).trans (Arith.small_zpow (by norm_num)))
    have hmid : ∀ i < n, |∑ l ∈ Finset.range n, a i l * w l - v i| ≤ n * η * V + α * e := by
      intro i hi
      have e3 : ∑ l ∈ Finset.range n, a i l * w l - v i = ∑ j ∈ Finset.range n, (∑ l ∈ Finset.range n, a i l * b l j - if i = j then 1 else 0) * v j +
          ∑ l ∈ Finset.range n, a i l * (w l - ∑ j ∈ Finset.range n, b l j * v j) := by
        have s1 : ∑ j ∈ Finset.range n, (if i = j then (1:ℝ) else 0) * v j = v i := by simp [Finset.sum_ite_eq, hi]
        simp only [sub_mul, mul_sub, Finset.sum_sub_distrib] at s1 ⊢
        rw [s1]
        have s2 : ∑ j ∈ Finset.range n, (∑ l ∈ Finset.range n, a i l * b l j) * v j = ∑ l ∈ Finset.range n, a i l * ∑ j ∈ Finset.range n, b l j * v j := by
          simp only [Finset.mul_sum, Finset.sum_mul]
          rw [Finset.sum_comm]
          simp only [mul_assoc]
        rw [s2]; ring
      rw [e3]
      refine (abs_add_le _ _).trans (add_le_add ?_ ?_)
      · refine (Finset.abs_sum_le_sum_abs _ _).trans ((sum_le_card (c := η * V) fun j hj => ?_).trans (le_of_eq (by ring)))
        rw [abs_mul]
        exact mul_le_mul (hη i hi j hj) (hv j hj).2 (abs_nonneg _) hη0
      · refine (sum_abs_range (g := fun l => |a i l| * e) fun l hl => ?_).trans ?_
        · rw [abs_mul]; exact mul_le_mul_of_nonneg_left (hwe l hl) (abs_nonneg _)
        · rw [← Finset.sum_mul]; exact mul_le_mul_of_nonneg_right (hα i hi) he0
    set q : ℝ := 2 ^ (-600 : ℤ) with hq
    have hsmall : (2 * α + 1) * (n * t) ≤ q := by
      have a1 : 2 * α + 1 ≤ 2 ^ (102 : ℤ) := by
        refine le_trans ?_ ((mul_zpow_le (two_zpow_pos _).le (show (4:ℝ) ≤ 2 ^ (2 : ℤ) by norm_num) (le_refl ((2:ℝ) ^ (100 : ℤ)))).trans (by norm_num))
        have := one_le_zpow (e := 100) (by norm_num)
        generalize (2:ℝ) ^ (100 : ℤ) = q at *
        linarith
      exact (mul_zpow_le (by positivity) a1 hnt).trans (Arith.small_zpow (by norm_num))
    have hfin : ∀ i < n, A.Machine (.fin (y i)) ∧ |y i - v i| ≤ n * (η + 5 * Arith.uRound * (α * β)) * V + q := by
      intro i hi
      refine ⟨(hy i hi).1, ?_⟩
      have b1 := abs_add_le (y i - ∑ l ∈ Finset.range n, a i l * w l) (∑ l ∈ Finset.range n, a i l * w l - v i)
      rw [sub_add_sub_cancel] at b1
      have b2 := (hy i hi).2.trans (add_le_add (mul_le_mul_of_nonneg_left (haW i hi) (by positivity)) le_rfl)
      have := matrix_core hu0.le (Nat.cast_nonneg n) hnu hα0 hβ0 hV0 ht0.le (le_refl e) (le_refl (β * V + e)) (hmid i hi)
        (y := |y i - v i|) (by linarith)
      linarith
    have hq0 : 0 < q := two_zpow_pos _
    refine check_accepts hA hB hD hn e1 e2 (fun i hi => (hv i hi).1) hfin (by positivity) ?_ ?_
    · have hab := mul_zpow_le hβ0 hα' hβ'
      have c1 : η + 5 * Arith.uRound * (α * β) ≤ 2 ^ (201 : ℤ) := by
        have c2 : 5 * Arith.uRound ≤ 1 := by have := Arith.uRound_le; norm_num at this ⊢; linarith
        have c3 := mul_le_mul_of_nonneg_right c2 (show 0 ≤ α * β by positivity)
        have c4 := one_le_zpow (e := 100 + 100) (by norm_num)
        refine (Arith.double_zpow (le_refl ((2:ℝ) ^ (100 + 100 : ℤ))) ?_).trans (by norm_num)
        linarith
      have c5 := mul_zpow_le hV0 (mul_zpow_le (by positivity) h1 c1) hV
      have c6 : q ≤ 2 ^ (19 + 201 + 60 : ℤ) := Arith.small_zpow (by norm_num)
      refine (Arith.double_zpow (le_refl ((2:ℝ) ^ (19 + 201 + 60 : ℤ))) ?_).trans (Arith.small_zpow (by norm_num))
      linarith
    · rw [Arith.uRound_val] at htol
      have c1 : (n:ℝ) * q ≤ 2 ^ (-500 : ℤ) := (mul_zpow_le hq0.le h1 le_rfl).trans (Arith.small_zpow (by norm_num))
      have c2 : 4 * (2:ℝ) ^ (-500 : ℤ) ≤ 2 ^ (-400 : ℤ) :=
        (mul_zpow_le (two_zpow_pos _).le (show (4:ℝ) ≤ 2 ^ (2 : ℤ) by norm_num) le_rfl).trans (Arith.small_zpow (by norm_num))
      have c3 : 0 ≤ n * n * η * V := by positivity
      have c4 : 0 ≤ n * n * (Arith.uRound * (α * β)) * V := by positivity
      have c5 : (0:ℝ) < 2 ^ (-500 : ℤ) := two_zpow_pos _
      generalize (2:ℝ) ^ (-500 : ℤ) = p1 at *
      generalize (2:ℝ) ^ (-400 : ℤ) = p2 at *
      linarith

/-! ### Binary64 -/

theorem round64_zero_add {a : ℝ} (h : binary64.Machine (.fin a)) : round64 (.fin a + round64 (.fin 0)) = .fin a := by
  have h0 : round64 (.fin 0) = .fin 0 := binary64_sane.zero_machine
  rw [h0, add_fin, add_zero]
  exact h

theorem foldl_zeros : ∀ (l : List (ℝ × ℝ)) (a : ℝ), (∀ p ∈ l, p.1 * p.2 = 0) → binary64.Machine (.fin a) →
    (l.map fun p => ((.fin p.1, .fin p.2) : Flt × Flt)).foldl (fun a p => round64 (a + round64 (p.1 * p.2))) (.fin a) = .fin a
  | [], _, _, _ => rfl
  | p :: l, a, h, ha => by
    rw [List.map_cons, List.foldl_cons]
    simp only
    rw [mul_fin, h p (by simp), round64_zero_add ha]
    exact foldl_zeros l a (fun p hp => h p (by simp [hp])) ha

/-- Binary64, adding from left to right. -/
theorem binary64_dotSparse : binary64.DotSparse where
  dot l r x y _ h0 hM := by
    change ((l ++ (x, y) :: r).map fun p => ((.fin p.1, .fin p.2) : Flt × Flt)).foldl (fun a p => round64 (a + round64 (p.1 * p.2))) (.fin 0) = _
    have hr : round64 (.fin (x * y)) = .fin (x * y) := hM
    rw [List.map_append, List.foldl_append, foldl_zeros l 0 (fun p hp => h0 p (by simp [hp])) binary64_sane.zero_machine, List.map_cons, List.foldl_cons]
    simp only
    rw [mul_fin, hr, add_fin, zero_add, hr]
    exact foldl_zeros r _ (fun p hp => h0 p (by simp [hp])) hM

/-- The eigenvalues and eigenvectors of a diagonal matrix. -/
noncomputable def diagEigh : EighA := fun n S => .ok ((List.range n).map fun i => entry n S.data i i, fmat n n fun i j => if i = j then 1 else 0)

theorem eye_orthonormal (n : ℕ) : NearOrthonormal n (fun i j => if i = j then 1 else 0) 0 := by
  intro j hj q hq
  simp only [mul_ite, mul_one, mul_zero, Finset.sum_ite_eq', Finset.mem_range, if_pos hq]
  rw [show (if q = j then (1:ℝ) else 0) = if j = q then 1 else 0 by simp only [eq_comm]]
  simp

theorem eye_narrow (n : ℕ) : Narrow n (fun i j => if i = j then 1 else 0) 1 := by
  constructor <;> intro i hi <;> simp [apply_ite (fun x : ℝ => |x|), Finset.sum_ite_eq, hi]

theorem eye_machine {n : ℕ} : ∀ i < n, ∀ j < n, binary64.Machine (.fin (if i = j then 1 else 0)) := by
  intro i _ j _
  split
  · exact binary64_sane.one_machine
  · exact binary64_sane.zero_machine

theorem diagEigh_eq (n : ℕ) (S : ℕ → ℕ → ℝ) : diagEigh n (fmat n n S) = .ok ((List.range n).map fun j => .fin (S j j), fmat n n fun i j => if i = j then 1 else 0) := by
  rw [diagEigh]
  refine congrArg _ (congrArg (fun l => (l, _)) (List.map_congr_left fun j hj => ?_))
  exact fmat_entry (List.mem_range.mp hj) (List.mem_range.mp hj)

theorem diagEigh_sound (n : ℕ) : EighSound binary64 diagEigh n 1 0 := fun S hS =>
  ⟨fun j => S j j, _, diagEigh_eq n S, fun j hj => hS j hj j hj, eye_machine, eye_orthonormal n, eye_narrow n⟩

/-- Non-vacuity: the identity with the eigenvalue 9 on the unit vector `(1/2, 1/2, 1/2, 1/2)`, whose root is 3. -/
example : ∃ op y, transformEigenspaceA binary64 (fmat 4 1 fun _ _ => 1 / 2) (fvec 1 fun _ => 9) binary64.sqrt = .ok op ∧
    op (fvec 4 fun i => i + 1) = .ok (fvec 4 y) ∧ ∀ i < 4, |y i - (i + 6)| ≤ 1 / 10 ^ 13 := by
  have h9 : binary64.sqrt (.fin 9) = .fin 3 := by
    rw [Arith.sqrt, Flt.sqrt, if_pos (by norm_num), show Real.sqrt 9 = 3 by rw [show (9:ℝ) = 3 ^ 2 by norm_num]; exact Real.sqrt_sq (by norm_num)]
    exact_mod_cast binary64_int_machine (m := 3) (by norm_num)
  have hbig : (16:ℝ) ≤ 2 ^ (200 : ℤ) := le_trans (by norm_num) (Arith.small_zpow (show (4 : ℤ) ≤ 200 by norm_num))
  have hhalf : binary64.Machine (.fin (1 / 2)) := by
    have := power_machine binary64_accurate (e := -1) (by norm_num) (by norm_num)
    norm_num at this ⊢
    exact this
  obtain ⟨op, e, h⟩ := C119_apply binary64_sane binary64_accurate binary64_dotAccurate (n := 4) (k := 1) (U := fun _ _ => 1 / 2) (e := fun _ => 9) (d := fun _ => 3)
    (f := binary64.sqrt) (by norm_num) (by norm_num) (fun _ _ _ _ => ⟨hhalf, by rw [abs_of_pos] <;> norm_num⟩) (fun _ _ => h9)
    (fun _ _ => ⟨by exact_mod_cast binary64_int_machine (m := 3) (by norm_num), by rw [abs_of_pos (by norm_num)]; linarith⟩)
  obtain ⟨y, ey, hy⟩ := h (fun i => i + 1) (fun i hi => ⟨by
      have := binary64_int_machine (m := i + 1) (by rw [abs_of_nonneg (by positivity)]; omega)
      push_cast at this
      exact this, by
      have : (i:ℝ) < 4 := by exact_mod_cast hi
      rw [abs_of_nonneg (by positivity)]; linarith⟩)
  refine ⟨op, y, e, ey, fun i hi => ?_⟩
  have h1 := (hy i hi).2
  have e1 : stretched 4 1 (fun _ _ => 1 / 2) (fun _ => 3) (fun i => (i:ℝ) + 1) i = i + 6 := by
    simp [stretched, Finset.sum_range_succ]; norm_num; ring
  have e2 : stretchSize 4 1 (fun _ _ => 1 / 2) (fun _ => 3) (fun i => (i:ℝ) + 1) i = 5 := by
    simp only [stretchSize, Finset.sum_range_succ, Finset.sum_range_zero]; norm_num
  rw [e1, e2] at h1
  have h2 : (2:ℝ) ^ (-800 : ℤ) ≤ 2 ^ (-60 : ℤ) := Arith.small_zpow (by norm_num)
  have h3 : (i:ℝ) < 4 := by exact_mod_cast hi
  rw [abs_of_nonneg (show (0:ℝ) ≤ i + 6 by positivity)] at h1
  refine h1.trans ?_
  generalize (2:ℝ) ^ (-800 : ℤ) = q at *
  norm_num at h2 ⊢
  linarith

theorem diag_machine {n : ℕ} {d : ℕ → ℝ} (hd : ∀ i < n, binary64.Machine (.fin (d i)) ∧ |d i| ≤ 2 ^ (1000 : ℤ)) :
    ∀ i < n, ∀ j < n, binary64.Machine (.fin (if i = j then d i else 0)) ∧ |if i = j then d i else 0| ≤ 2 ^ (1000 : ℤ) := by
  intro i hi j _
  split
  · exact hd i hi
  · exact ⟨binary64_sane.zero_machine, by simp⟩

theorem diag_symm {d : ℕ → ℝ} (i j : ℕ) : (if i = j then d i else 0) = if j = i then d j else 0 := by
  by_cases h : i = j
  · rw [if_pos h, if_pos h.symm, h]
  · rw [if_neg h, if_neg (Ne.symm h)]

theorem nat_sized {m : ℕ} (hm : m ≤ 10000) : binary64.Machine (.fin (m : ℝ)) ∧ |(m : ℝ)| ≤ 2 ^ (1000 : ℤ) := by
  refine ⟨by exact_mod_cast binary64_int_machine (m := m) (by rw [abs_of_nonneg (by positivity)]; omega), ?_⟩
  rw [abs_of_nonneg (by positivity)]
  have : (m : ℝ) ≤ 10000 := by exact_mod_cast hm
  exact Arith.up_zpow (this.trans (show (10000:ℝ) ≤ 2 ^ (14 : ℤ) by norm_num)) (by norm_num)

theorem count_sized {V : ℝ} (hV : 2 ≤ V) : Sized binary64 2 V fun i => i + 1 := by
  intro i hi
  refine ⟨by exact_mod_cast (nat_sized (m := i + 1) (by omega)).1, ?_⟩
  have : (i:ℝ) ≤ 1 := by exact_mod_cast Nat.lt_succ_iff.mp hi
  rw [abs_of_nonneg (by positivity)]; linarith

theorem default_tol {C : ℝ} (hC : C ≤ 10 ^ 5) : 30 * (((2:ℕ):ℝ) * (2:ℕ)) * (C * (2 ^ (-53 : ℤ) + 0)) * 2 + 2 ^ (-400 : ℤ) ≤ 1 / 10 ^ 8 := by
  have h2 : (2:ℝ) ^ (-400 : ℤ) ≤ 2 ^ (-60 : ℤ) := Arith.small_zpow (by norm_num)
  generalize (2:ℝ) ^ (-400 : ℤ) = q at *
  norm_num at h2 ⊢
  linarith

/-- Non-vacuity: with the eigenvectors `[[0, 1], [1, 0]]` and eigenvalues 3 and 1, of which 2 is subtracted, `(1, 2)` becomes `(-1, 2)`. -/
example : ∃ op, transformEigenspaceA Arith.exact (fmat 2 2 fun i j => if i + j = 1 then 1 else 0) (fvec 2 fun j => 3 - 2 * j) (fun x => x - .fin 2) = .ok op ∧
    ∃ y, op (fvec 2 fun i => i + 1) = .ok (fvec 2 y) ∧ y 0 = -1 ∧ y 1 = 2 := by
  obtain ⟨op, e, h⟩ := (C119_exact (n := 2) (k := 2) (fun i j => if i + j = 1 then 1 else 0) (fun j => 3 - 2 * j) (fun i => i + 1) (fun x => x - 2) (fun x => x - .fin 2)
    fun x => sub_fin x 2).1
  exact ⟨op, e, _, h, by norm_num [stretched, Finset.sum_range_succ], by norm_num [stretched, Finset.sum_range_succ]⟩

/-- Non-vacuity: `diag(0, 1000)` with eigenvalue bounds 1 and 4 gives a preconditioner that passes the check with tolerance `1e-8`. -/
example : ∃ s, PrecondA.withHessian binary64 diagEigh (fmat 2 2 fun i j => if i = j then ((1000 * i : ℕ) : ℝ) else 0) (some (.fin 1)) (some (.fin 4)) = .ok s ∧
    s.check binary64 (fvec 2 fun i => i + 1) (.fin (1 / 10 ^ 8)) = .ok () := by
  obtain ⟨s, e, h⟩ := C119_check binary64_sane binary64_accurate binary64_dotAccurate (n := 2) (p := 1) (by norm_num) (by norm_num) (g := 1) (η := 0) le_rfl (by norm_num) le_rfl
    (by norm_num) (diagEigh_sound 2) (diag_machine (d := fun i => ((1000 * i : ℕ) : ℝ)) fun i hi => nat_sized (by omega)) (lo := 1) (hi := 4) (by norm_num) (by norm_num)
    (by norm_num)
  exact ⟨s, e, h _ 2 _ (count_sized le_rfl) (by norm_num) (by norm_num) (default_tol (C := (1 + 1 * 1 * 2 ^ 1) * (1 + 1 * 1 * 2 ^ 1)) (by norm_num))⟩

/-- Non-vacuity: `diag(1, 4)` without bounds. -/
example : ∃ s, PrecondA.withHessian binary64 diagEigh (fmat 2 2 fun i j => if i = j then ((3 * i + 1 : ℕ) : ℝ) else 0) none none = .ok s ∧
    s.check binary64 (fvec 2 fun i => i + 1) (.fin (1 / 10 ^ 8)) = .ok () := by
  obtain ⟨s, e, h⟩ := C119_plain binary64_sane binary64_accurate binary64_dotAccurate (n := 2) (p := 1) (by norm_num) (by norm_num) (g := 1) (η := 0) le_rfl (by norm_num) le_rfl
    (by norm_num) (diag_machine (d := fun i => ((3 * i + 1 : ℕ) : ℝ)) fun i hi => nat_sized (by omega)) (fun i _ j _ => diag_symm (d := fun i => ((3 * i + 1 : ℕ) : ℝ)) i j)
    (diagEigh_eq 2 fun i j => if i = j then ((3 * i + 1 : ℕ) : ℝ) else 0) eye_machine (eye_orthonormal 2) (eye_narrow 2) (fun j hj => by
      have : (j:ℝ) ≤ 1 := by exact_mod_cast Nat.lt_succ_iff.mp hj
      have h0 : (0:ℝ) ≤ j := by positivity
      rw [if_pos rfl]
      push_cast
      norm_num
      constructor <;> linarith)
  exact ⟨s, e, h _ 2 _ (count_sized le_rfl) (by norm_num) (by norm_num) (default_tol (C := (1 + 1 * 1 * 2 ^ 1) * (1 + 1 * 1 * 2 ^ 1)) (by norm_num))⟩

/-- Non-vacuity: `diag(1, 2 ** 120)`.  The check raises with tolerance `1/4` for the vector `(1, 2)`, and `unprecondition` sets its second entry to zero. -/
example : ∃ s, PrecondA.withHessian binary64 diagEigh (fmat 2 2 fun i j => if i = j then 2 ^ ((120 * i : ℕ) : ℤ) else 0) none none = .ok s ∧
    (∃ y, s.aTimes (fvec 2 fun i => i + 1) = .ok (fvec 2 y) ∧ y 1 = 0) ∧
    s.check binary64 (fvec 2 fun i => i + 1) (.fin (1 / 4)) = .error (.valueError "``a_times`` does not invert ``a_inv_times``.") := by
  obtain ⟨s, e, h1, _, h3⟩ := C119_lost binary64_sane binary64_accurate binary64_dotAccurate binary64_dotSparse (n := 2) (by norm_num)
    (diag_machine (d := fun i => 2 ^ ((120 * i : ℕ) : ℤ)) fun i hi => ⟨power_machine binary64_accurate (by omega) (by push_cast; omega), by
      rw [abs_of_pos (two_zpow_pos _)]; exact Arith.small_zpow (by push_cast; omega)⟩) (fun i _ j _ => diag_symm (d := fun i => 2 ^ ((120 * i : ℕ) : ℤ)) i j)
    (diagEigh_eq 2 fun i j => if i = j then 2 ^ ((120 * i : ℕ) : ℤ) else 0) (fun i hi j hj => ⟨eye_machine i hi j hj, by split <;> norm_num⟩)
    (fun j hj => by rw [if_pos rfl]; exact ⟨Arith.small_zpow (by omega), Arith.small_zpow (by push_cast; omega)⟩) (i := 1) (j := 1) (by norm_num) (by norm_num)
    ⟨.inl (by simp), fun l _ h => if_neg h, fun q _ h => if_neg (Ne.symm h)⟩ (.inl (by rw [if_pos rfl]; exact Arith.small_zpow (by norm_num)))
  refine ⟨s, e, h1 (by rw [if_pos rfl]; exact Arith.small_zpow (by norm_num)) _ (count_sized (le_trans (by norm_num) (Arith.small_zpow (show (1 : ℤ) ≤ 200 by norm_num)))), ?_⟩
  refine h3 _ _ (count_sized (by norm_num)) ((Arith.small_zpow (show (-400 : ℤ) ≤ -2 by norm_num)).trans (by norm_num)) ?_
  norm_num

/-- The matrix `[[2, 1], [0, 4]]`. -/
noncomputable def exampleMat (i j : ℕ) : ℝ := if i = 0 then (if j = 0 then 2 else 1) else if j = 0 then 0 else 4
/-- Its inverse. -/
noncomputable def exampleInv (i j : ℕ) : ℝ := if i = 0 then (if j = 0 then 1 / 2 else -(1 / 8)) else if j = 0 then 0 else 1 / 4

/-- Non-vacuity: the matrix `[[2, 1], [0, 4]]` with its inverse `[[1/2, -1/8], [0, 1/4]]`. -/
example (inv : OpA) : ∃ s, PrecondA.setMatrix binary64 inv (fmat 2 2 exampleMat) (some (fmat 2 2 exampleInv)) = .ok s ∧
    s.check binary64 (fvec 2 fun i => i + 1) (.fin (1 / 10 ^ 8)) = .ok () := by
  have hp : ∀ e : ℤ, -1074 ≤ e → e ≤ 970 → binary64.Machine (.fin (2 ^ e)) := fun e h1 h2 => power_machine binary64_accurate h1 h2
  obtain ⟨s, e, _, h⟩ := C119_matrix binary64_sane binary64_accurate binary64_dotAccurate inv (n := 2) (by norm_num) (a := exampleMat) (b := exampleInv) (α := 4) (β := 1) (η := 0)
    (by
      intro i hi j hj
      unfold exampleMat
      split <;> split
      · exact_mod_cast (nat_sized (m := 2) (by norm_num)).1
      · exact binary64_sane.one_machine
      · exact binary64_sane.zero_machine
      · exact_mod_cast (nat_sized (m := 4) (by norm_num)).1)
    (by
      intro i hi j hj
      unfold exampleInv
      split <;> split
      · have := hp (-1) (by norm_num) (by norm_num); norm_num at this ⊢; exact this
      · refine binary64_sane.neg _ ?_
        have := hp (-3) (by norm_num) (by norm_num); norm_num at this ⊢; exact this
      · exact binary64_sane.zero_machine
      · have := hp (-2) (by norm_num) (by norm_num); norm_num at this ⊢; exact this)
    (by intro i hi; interval_cases i <;> simp [Finset.sum_range_succ, exampleMat]; norm_num)
    (by intro i hi; interval_cases i <;> simp [Finset.sum_range_succ, exampleInv] <;> norm_num)
    (by norm_num) (by norm_num) (le_trans (by norm_num) (Arith.small_zpow (show (2 : ℤ) ≤ 100 by norm_num))) (one_le_zpow (by norm_num)) le_rfl (by norm_num)
    (by intro i hi j hj; interval_cases i <;> interval_cases j <;> simp [Finset.sum_range_succ, exampleInv, exampleMat]; norm_num)
  refine ⟨s, e, h _ 2 _ (count_sized le_rfl) (by norm_num) (by norm_num) ?_⟩
  have h2 : (2:ℝ) ^ (-400 : ℤ) ≤ 2 ^ (-60 : ℤ) := Arith.small_zpow (by norm_num)
  generalize (2:ℝ) ^ (-400 : ℤ) = q at *
  norm_num at h2 ⊢
  linarith

end Paragami
