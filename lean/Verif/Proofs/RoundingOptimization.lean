import Verif.Spec.RoundingOptimization
import Verif.Proofs.RoundingJacobian
import Verif.Proofs.RoundingMatrix64

/-! # Preconditioners in floating point: error of one application -/

namespace Paragami
open NDArray Flt Spec Optimization

variable {A : Arith}

theorem fvec_getD {n : ℕ} {v : ℕ → ℝ} {i : ℕ} (h : i < n) : (fvec n v).data.getD i .nan = .fin (v i) := by
  simp [fvec, vec, List.getD_eq_getElem?_getD, h]

theorem fmat_entry {n k : ℕ} {U : ℕ → ℕ → ℝ} {i j : ℕ} (hi : i < n) (hj : j < k) : entry k (fmat n k U).data i j = .fin (U i j) := by
  unfold fmat; rw [entry_ofFn2 _ _ _ hi hj]

theorem sum_range_list (n : ℕ) (f : ℕ → ℝ) : ((List.range n).map f).sum = ∑ i ∈ Finset.range n, f i := rfl

/-- One entry of a matrix product, indexed. -/
theorem dot_range (hD : A.DotAccurate) {m : ℕ} {f g : ℕ → ℝ} (hm : m ≤ 2 ^ 20) (hf : ∀ j < m, A.Machine (.fin (f j))) (hg : ∀ j < m, A.Machine (.fin (g j)))
    (hS : ∑ j ∈ Finset.range m, |f j| * |g j| ≤ 2 ^ (1000 : ℤ)) :
    ∃ v, A.dot ((List.range m).map fun j => (.fin (f j), .fin (g j))) = .fin v ∧ A.Machine (.fin v) ∧
      |v - ∑ j ∈ Finset.range m, f j * g j| ≤ m * (2 * Arith.uRound) * (∑ j ∈ Finset.range m, |f j| * |g j|) + m * 2 ^ (-1074 : ℤ) := by
  obtain ⟨v, h1, h2, h3⟩ := hD.dot ((List.range m).map fun j => (f j, g j)) (by simpa using hm) (by
    intro p hp
    obtain ⟨j, hj, rfl⟩ := List.mem_map.mp hp
    exact ⟨hf j (List.mem_range.mp hj), hg j (List.mem_range.mp hj)⟩) (by
    simpa [List.map_map, Function.comp_def, sum_range_list] using hS)
  refine ⟨v, ?_, h2, ?_⟩
  · rw [← h1, List.map_map]; rfl
  · rw [Arith.uRound_val2] at h3
    simpa [List.map_map, Function.comp_def, sum_range_list] using h3

/-- A matrix times a vector. -/
theorem matvec_close (hD : A.DotAccurate) {n m : ℕ} {U : ℕ → ℕ → ℝ} {v : ℕ → ℝ} (hm : m ≤ 2 ^ 20) (hU : ∀ i < n, ∀ j < m, A.Machine (.fin (U i j)))
    (hv : ∀ j < m, A.Machine (.fin (v j))) (hS : ∀ i < n, ∑ j ∈ Finset.range m, |U i j| * |v j| ≤ 2 ^ (1000 : ℤ)) :
    ∃ y : ℕ → ℝ, matvecA A (fmat n m U) (fvec m v) = .ok (fvec n y) ∧ ∀ i < n, A.Machine (.fin (y i)) ∧
      |y i - ∑ j ∈ Finset.range m, U i j * v j| ≤ m * (2 * Arith.uRound) * (∑ j ∈ Finset.range m, |U i j| * |v j|) + m * 2 ^ (-1074 : ℤ) := by
  have key : ∀ i, ∃ y, i < n → A.dot ((List.range m).map fun j => (.fin (U i j), .fin (v j))) = .fin y ∧ A.Machine (.fin y) ∧
      |y - ∑ j ∈ Finset.range m, U i j * v j| ≤ m * (2 * Arith.uRound) * (∑ j ∈ Finset.range m, |U i j| * |v j|) + m * 2 ^ (-1074 : ℤ) := by
    intro i
    by_cases hi : i < n
    · obtain ⟨y, hy⟩ := dot_range hD hm (hU i hi) hv (hS i hi)
      exact ⟨y, fun _ => hy⟩
    · exact ⟨0, fun h => absurd h hi⟩
  choose y hy using key
  refine ⟨y, ?_, fun i hi => (hy i hi).2⟩
  have hs : (fmat n m U).shape = [n, m] := rfl
  have hs' : (fvec m v).shape = [m] := by simp [fvec, vec]
  simp only [matvecA, hs, hs', if_true]
  refine congrArg _ ?_
  simp only [fvec]
  refine congrArg _ (List.map_congr_left fun i hi => ?_)
  have hi := List.mem_range.mp hi
  rw [← (hy i hi).1]
  refine congrArg _ (List.map_congr_left fun j hj => ?_)
  have hj := List.mem_range.mp hj
  rw [fmat_entry hi hj]
  have := fvec_getD (v := v) hj
  simp only [fvec] at this
  rw [this]

theorem fvec_congr {n : ℕ} {v w : ℕ → ℝ} (h : ∀ i < n, v i = w i) : fvec n v = fvec n w := by
  unfold fvec
  refine congrArg _ (List.map_congr_left fun i hi => ?_)
  rw [h i (List.mem_range.mp hi)]

theorem zip_fvec {n : ℕ} {v w : ℕ → ℝ} {f : Flt → Flt → Flt} {g : ℕ → ℝ} (h : ∀ i < n, f (.fin (v i)) (.fin (w i)) = .fin (g i)) :
    zipA f (fvec n v) (fvec n w) = .ok (fvec n g) := by
  have hs : (fvec n v).shape = (fvec n w).shape := by simp [fvec, vec]
  simp only [zipA, hs, if_true]
  refine congrArg _ ?_
  simp only [fvec, vec, List.length_map, List.length_range, NDArray.mk.injEq, true_and]
  rw [List.zipWith_map, List.zipWith_self]
  exact List.map_congr_left fun i hi => h i (List.mem_range.mp hi)

theorem map_fvec {n : ℕ} {v : ℕ → ℝ} {f : Flt → Flt} {g : ℕ → ℝ} (h : ∀ i < n, f (.fin (v i)) = .fin (g i)) : (fvec n v).map f = fvec n g := by
  simp only [fvec, vec, NDArray.map, List.length_map, List.length_range, NDArray.mk.injEq, true_and, List.map_map]
  exact List.map_congr_left fun i hi => h i (List.mem_range.mp hi)

theorem transpose_fmat {n k : ℕ} {U : ℕ → ℕ → ℝ} : transposeA (fmat n k U) = .ok (fmat k n fun i j => U j i) := by
  have hs : (fmat n k U).shape = [n, k] := rfl
  simp only [transposeA, hs]
  refine congrArg _ ?_
  unfold fmat ofFn2
  simp only [NDArray.mk.injEq, true_and]
  refine List.flatMap_congr fun i hi => List.map_congr_left fun j hj => ?_
  have := fmat_entry (U := U) (List.mem_range.mp hj) (List.mem_range.mp hi)
  unfold fmat ofFn2 at this
  exact this

/-- The operator, without its checks. -/
theorem transform_ok {n k : ℕ} {U : ℕ → ℕ → ℝ} {e d : ℕ → ℝ} {f : Flt → Flt} (hf : ∀ j < k, f (.fin (e j)) = .fin (d j)) :
    transformEigenspaceA A (fmat n k U) (fvec k e) f = .ok (fun v => do
      let loadings ← matvecA A (fmat k n fun i j => U j i) v
      let scaled ← zipA A.mul ((fvec k d).map fun x => A.sub x 1) loadings
      zipA A.add v (← matvecA A (fmat n k U) scaled)) := by
  have hs : (fmat n k U).shape = [n, k] := rfl
  have hs' : (fvec k e).shape = [k] := by simp [fvec, vec]
  simp only [transformEigenspaceA, ndim, hs, hs', List.length_cons, List.length_nil, bind, Except.bind, pure, Except.pure, transpose_fmat, map_fvec hf]
  simp

/-- Scaling one loading, as real numbers. -/
theorem scale_core {u N t D L AL L' δ s : ℝ} (hu : 0 ≤ u) (hN : 1 ≤ N) (hNu : N * u ≤ 1 / 1000) (ht : 0 ≤ t) (hL : |L| ≤ AL)
    (hL' : |L' - L| ≤ N * (2 * u) * AL + N * t) (hδ : |δ - D| ≤ u * |D|) (hs : |s - δ * L'| ≤ u * |δ * L'| + t) :
    |s - D * L| ≤ |D| * ((2 * N + 3) * u * AL + 2 * N * t) + t := by
  have hA : 0 ≤ AL := (abs_nonneg _).trans hL
  have hu1 : u ≤ 1 / 1000 := le_trans (by nlinarith) hNu
  have h1 : |L'| ≤ 1.002 * AL + N * t := by
    have : |L'| ≤ |L' - L| + |L| := by simpa using abs_add_le (L' - L) L
    have : N * (2 * u) * AL ≤ 2 * (1 / 1000) * AL := mul_le_mul_of_nonneg_right (by linarith) hA
    linarith
  have h2 : |δ| ≤ (1 + u) * |D| := by
    have : |δ| ≤ |δ - D| + |D| := by simpa using abs_add_le (δ - D) D
    linarith
  have e : s - D * L = (s - δ * L') + ((δ - D) * L' + D * (L' - L)) := by ring
  have h3 : |s - D * L| ≤ |s - δ * L'| + (|δ - D| * |L'| + |D| * |L' - L|) := by
    rw [e, ← abs_mul, ← abs_mul]
    exact (abs_add_le _ _).trans (add_le_add le_rfl (abs_add_le _ _))
  have h4 : |δ * L'| ≤ (1 + u) * |D| * |L'| := by
    rw [abs_mul]; exact mul_le_mul_of_nonneg_right h2 (abs_nonneg _)
  have h5 : u * |δ * L'| ≤ u * ((1 + u) * |D| * |L'|) := mul_le_mul_of_nonneg_left h4 hu
  have h6 : |δ - D| * |L'| ≤ u * |D| * |L'| := mul_le_mul_of_nonneg_right hδ (abs_nonneg _)
  have h7 : |D| * |L' - L| ≤ |D| * (N * (2 * u) * AL + N * t) := mul_le_mul_of_nonneg_left hL' (abs_nonneg _)
  have h8 : u * ((1 + u) * |D| * |L'|) + u * |D| * |L'| = |D| * (u * (2 + u) * |L'|) := by ring
  have h9 : u * (2 + u) * |L'| ≤ 3 * u * AL + N * t := by
    have a1 : u * (2 + u) * |L'| ≤ u * 2.001 * (1.002 * AL + N * t) := by
      apply mul_le_mul (mul_le_mul_of_nonneg_left (by linarith) hu) h1 (abs_nonneg _) (by positivity)
    have a2 : 0 ≤ u * AL := mul_nonneg hu hA
    have a3 : u * (N * t) ≤ 1 / 1000 * (N * t) := mul_le_mul_of_nonneg_right hu1 (by positivity)
    have a4 : 0 ≤ N * t := by positivity
    nlinarith
  have h10 := mul_le_mul_of_nonneg_left h9 (abs_nonneg D)
  have h11 : |D| * ((2 * N + 3) * u * AL + 2 * N * t) = |D| * (3 * u * AL + N * t) + |D| * (N * (2 * u) * AL + N * t) := by ring
  linarith

theorem mul_zpow_le {x y : ℝ} {a b : ℤ} (hy : 0 ≤ y) (hx : x ≤ 2 ^ a) (hy' : y ≤ 2 ^ b) : x * y ≤ 2 ^ (a + b) := by
  rw [Arith.zpow_split]
  exact mul_le_mul hx hy' hy (two_zpow_pos _).le

theorem sum_le_card {n : ℕ} {f : ℕ → ℝ} {c : ℝ} (h : ∀ i < n, f i ≤ c) : ∑ i ∈ Finset.range n, f i ≤ n * c := by
  have := Finset.sum_le_card_nsmul (Finset.range n) f c fun i hi => h i (Finset.mem_range.mp hi)
  simpa using this

theorem sum_abs_range {n : ℕ} {f g : ℕ → ℝ} (h : ∀ i < n, |f i| ≤ g i) : |∑ i ∈ Finset.range n, f i| ≤ ∑ i ∈ Finset.range n, g i :=
  (Finset.abs_sum_le_sum_abs _ _).trans (Finset.sum_le_sum fun i hi => h i (Finset.mem_range.mp hi))

/-- Adding up the scaled loadings, as real numbers. -/
theorem gather_core {u K t C W S P w v z T : ℝ} (hu : 0 ≤ u) (hu1 : u ≤ 1 / 1000) (hK : 0 ≤ K) (hKu : K * u ≤ 1 / 1000) (hCu : C * u ≤ 1 / 1000)
    (hCK : C * K * u ≤ 1 / 1000) (hW : 0 ≤ W) (hT : 0 ≤ T) (ht : 0 ≤ t) (hS : S ≤ (1 + C * u) * W + T)
    (h1 : |w - P| ≤ K * (2 * u) * S + K * t + (C * u * W + T)) (h2 : |z - (v + w)| ≤ u * |v + w|) :
    |z - (v + P)| ≤ u * (|v + P| + (2 * K + C + 1) * W) + 2 * (K * t + T) := by
  have a1 : K * (2 * u) * S ≤ K * (2 * u) * ((1 + C * u) * W + T) := mul_le_mul_of_nonneg_left hS (by positivity)
  have a3 : K * u * T ≤ 1 / 1000 * T := mul_le_mul_of_nonneg_right hKu hT
  have a4 : C * K * u * (u * W) ≤ 1 / 1000 * (u * W) := mul_le_mul_of_nonneg_right hCK (by positivity)
  have a5 : |w - P| ≤ (2 * K + C + 2 / 1000) * (u * W) + 1002 / 1000 * T + K * t := by nlinarith
  have a6 : |v + w| ≤ |v + P| + |w - P| := by
    have := abs_add_le (v + P) (w - P)
    rwa [show v + P + (w - P) = v + w by ring] at this
  have a7 : |z - (v + P)| ≤ |z - (v + w)| + |w - P| := by
    have := abs_add_le (z - (v + w)) (w - P)
    rwa [show z - (v + w) + (w - P) = z - (v + P) by ring] at this
  have a8 : u * |v + w| ≤ u * |v + P| + u * |w - P| := by
    have := mul_le_mul_of_nonneg_left a6 hu; linarith
  have a9 : u * |w - P| ≤ u * ((2 * K + C + 2 / 1000) * (u * W) + 1002 / 1000 * T + K * t) := mul_le_mul_of_nonneg_left a5 hu
  have b1 : K * u * (u * W) ≤ 1 / 1000 * (u * W) := mul_le_mul_of_nonneg_right hKu (by positivity)
  have b2 : C * u * (u * W) ≤ 1 / 1000 * (u * W) := mul_le_mul_of_nonneg_right hCu (by positivity)
  have b3 : u * (u * W) ≤ 1 / 1000 * (u * W) := mul_le_mul_of_nonneg_right hu1 (by positivity)
  have b4 : u * T ≤ 1 / 1000 * T := mul_le_mul_of_nonneg_right hu1 hT
  have b5 : u * (K * t) ≤ 1 / 1000 * (K * t) := mul_le_mul_of_nonneg_right hu1 (by positivity)
  have b6 : 0 ≤ u * W := by positivity
  have b7 : 0 ≤ K * t := by positivity
  linarith [a5, a6, a7, a8, a9, b1, b2, b3, b4, b5, b6, b7]

/-- The size of what is added up when all entries are at most `2` in size. -/
theorem loading_size {n : ℕ} {f v : ℕ → ℝ} (hn : n ≤ 2 ^ 19) (hU : ∀ l < n, |f l| ≤ 2) (hv : ∀ l < n, |v l| ≤ 2 ^ (200 : ℤ)) :
    ∑ l ∈ Finset.range n, |f l| * |v l| ≤ 2 ^ (220 : ℤ) := by
  refine (sum_le_card (c := 2 * 2 ^ (200 : ℤ)) fun l hl => mul_le_mul (hU l hl) (hv l hl) (abs_nonneg _) (by norm_num)).trans ?_
  have hn' : (n : ℝ) ≤ 2 ^ (19 : ℤ) := by exact_mod_cast hn
  have : (2:ℝ) * 2 ^ (200 : ℤ) ≤ 2 ^ (201 : ℤ) := by rw [show (201 : ℤ) = 1 + 200 by norm_num, Arith.zpow_split, zpow_one]
  exact (mul_zpow_le (by positivity) hn' this).trans (by norm_num)

theorem op_machine (hA : A.Sane) {x : Flt} {z : ℝ} (h : A.round x = .fin z) : A.Machine (.fin z) := by
  cases x with
  | fin r => exact Arith.rnd_machine hA h
  | _ => simp [Arith.round] at h

theorem mul_close (hA : A.Sane) (hB : A.Accurate) {x y : ℝ} (h : |x * y| ≤ 2 ^ (1010 : ℤ)) :
    ∃ s, A.mul (.fin x) (.fin y) = .fin s ∧ A.Machine (.fin s) ∧ |s - x * y| ≤ Arith.uRound * |x * y| + 2 ^ (-1074 : ℤ) := by
  have e : A.mul (.fin x) (.fin y) = .fin (rndReal (x * y)) := by rw [Arith.mul, mul_fin, hB.round_le h]
  refine ⟨_, e, op_machine hA e, ?_⟩
  have h1 := rndReal_rel (x * y)
  have h2 : (2:ℝ) ^ (-1075 : ℤ) ≤ 2 ^ (-1074 : ℤ) := Arith.small_zpow (by norm_num)
  rw [Arith.uRound_val] at h1
  linarith

theorem pow19 {n : ℕ} (hn : n ≤ 2 ^ 19) : (n : ℝ) ≤ 2 ^ 19 := by exact_mod_cast hn

/-- A computed sum is at most twice the sum of the sizes. -/
theorem near_size {m : ℕ} {y P S e : ℝ} (hm : m ≤ 2 ^ 19) (hP : |P| ≤ S) (h : |y - P| ≤ m * (2 * Arith.uRound) * S + m * 2 ^ (-1074 : ℤ)) (he : S ≤ e) (h1 : 1 ≤ e) :
    |y| ≤ 2 * e := by
  have hS : 0 ≤ S := (abs_nonneg _).trans hP
  have hm' := pow19 hm
  have hu0 := Arith.uRound_pos
  have hu1 := Arith.uRound_le
  have a : |y| ≤ |y - P| + |P| := by simpa using abs_add_le (y - P) P
  have b : (m:ℝ) * (2 * Arith.uRound) ≤ 1 / 1000 := by
    refine (mul_le_mul hm' (mul_le_mul_of_nonneg_left hu1 (by norm_num)) (by positivity) (by norm_num)).trans (by norm_num)
  have c : (m:ℝ) * 2 ^ (-1074 : ℤ) ≤ 1 / 1000 := by
    refine (mul_le_mul hm' (Arith.small_zpow (show (-1074 : ℤ) ≤ -40 by norm_num)) (by positivity) (by norm_num)).trans (by norm_num)
  have d := mul_le_mul_of_nonneg_right b hS
  generalize (m:ℝ) * 2 ^ (-1074 : ℤ) = q at *
  linarith

theorem one_le_zpow {e : ℤ} (h : 0 ≤ e) : (1:ℝ) ≤ 2 ^ e := by simpa using Arith.small_zpow h

/-- The numbers computed on the way. -/
structure Parts (A : Arith) (n k : ℕ) (U : ℕ → ℕ → ℝ) (d v L' δ s w z : ℕ → ℝ) : Prop where
  loadings : matvecA A (fmat k n fun i j => U j i) (fvec n v) = .ok (fvec k L')
  hL' : ∀ i < k, A.Machine (.fin (L' i)) ∧
      |L' i - ∑ j ∈ Finset.range n, U j i * v j| ≤ n * (2 * Arith.uRound) * (∑ j ∈ Finset.range n, |U j i| * |v j|) + n * 2 ^ (-1074 : ℤ)
  hδ : ∀ j < k, A.sub (.fin (d j)) 1 = .fin (δ j) ∧ |δ j - (d j - 1)| ≤ Arith.uRound * |d j - 1|
  hs : ∀ j < k, A.mul (.fin (δ j)) (.fin (L' j)) = .fin (s j) ∧ A.Machine (.fin (s j)) ∧ |s j - δ j * L' j| ≤ Arith.uRound * |δ j * L' j| + 2 ^ (-1074 : ℤ)
  gathered : matvecA A (fmat n k U) (fvec k s) = .ok (fvec n w)
  hw : ∀ i < n, A.Machine (.fin (w i)) ∧
      |w i - ∑ j ∈ Finset.range k, U i j * s j| ≤ k * (2 * Arith.uRound) * (∑ j ∈ Finset.range k, |U i j| * |s j|) + k * 2 ^ (-1074 : ℤ)
  hz : ∀ i < n, A.add (.fin (v i)) (.fin (w i)) = .fin (z i) ∧ |z i - (v i + w i)| ≤ Arith.uRound * |v i + w i|

/-- The operator for given new eigenvalues. -/
noncomputable def stretchA (A : Arith) (n k : ℕ) (U : ℕ → ℕ → ℝ) (d : ℕ → ℝ) : OpA := fun v => do
  let loadings ← matvecA A (fmat k n fun i j => U j i) v
  let scaled ← zipA A.mul ((fvec k d).map fun x => A.sub x 1) loadings
  zipA A.add v (← matvecA A (fmat n k U) scaled)

theorem Parts.result {n k : ℕ} {U : ℕ → ℕ → ℝ} {d v L' δ s w z : ℕ → ℝ} (h : Parts A n k U d v L' δ s w z) : stretchA A n k U d (fvec n v) = .ok (fvec n z) := by
  rw [stretchA, map_fvec (f := fun x => A.sub x 1) (fun j hj => (h.hδ j hj).1), h.loadings]
  simp only [bind, Except.bind]
  rw [zip_fvec (fun j hj => (h.hs j hj).1)]
  simp only [h.gathered]
  exact zip_fvec fun i hi => (h.hz i hi).1

theorem apply_parts (hA : A.Sane) (hB : A.Accurate) (hD : A.DotAccurate) {n k : ℕ} {U : ℕ → ℕ → ℝ} {d v : ℕ → ℝ} (hn : n ≤ 2 ^ 19) (hk : k ≤ 2 ^ 19)
    (hU : ∀ i < n, ∀ j < k, A.Machine (.fin (U i j)) ∧ |U i j| ≤ 2) (hd : Sized A k (2 ^ (200 : ℤ)) d) (hv : Sized A n (2 ^ (200 : ℤ)) v) :
    ∃ L' δ s w z, Parts A n k U d v L' δ s w z := by
  have hu0 := Arith.uRound_pos
  have hu1 := Arith.uRound_le
  have hn' := pow19 hn
  have hk' := pow19 hk
  have hALs : ∀ j < k, ∑ l ∈ Finset.range n, |U l j| * |v l| ≤ 2 ^ (220 : ℤ) := fun j hj =>
    loading_size hn (fun l hl => (hU l hl j hj).2) fun l hl => (hv l hl).2
  have hL : ∀ j, |∑ l ∈ Finset.range n, U l j * v l| ≤ ∑ l ∈ Finset.range n, |U l j| * |v l| := fun j =>
    sum_abs_range fun l _ => (abs_mul _ _).le
  obtain ⟨L', e1, hL'⟩ := matvec_close hD (U := fun i j => U j i) (n := k) (m := n) (hn.trans (by norm_num)) (fun i hi j hj => (hU j hj i hi).1)
    (fun j hj => (hv j hj).1) fun i hi => (hALs i hi).trans (Arith.small_zpow (by norm_num))
  have hL's : ∀ j < k, |L' j| ≤ 2 ^ (221 : ℤ) := fun j hj =>
    Arith.double_zpow (hx := le_refl ((2:ℝ) ^ (220 : ℤ))) (near_size hn (hL j) (hL' j hj).2 (hALs j hj) (one_le_zpow (by norm_num)))
  have hd1 : ∀ j < k, |d j - 1| ≤ 2 ^ (201 : ℤ) := by
    intro j hj
    refine Arith.double_zpow (hx := le_refl ((2:ℝ) ^ (200 : ℤ))) ?_
    have h1 := abs_sub (d j) 1
    have h2 := (hd j hj).2
    have h3 := one_le_zpow (e := 200) (by norm_num)
    rw [abs_one] at h1
    linarith
  have hδ : ∀ j, ∃ δ, j < k → A.sub (.fin (d j)) 1 = .fin δ ∧ |δ - (d j - 1)| ≤ Arith.uRound * |d j - 1| := by
    intro j
    by_cases hj : j < k
    · obtain ⟨δ, h⟩ := hB.sub_rel (hd j hj).1 hA.one_machine (y := 1) (Arith.up_zpow (hd1 j hj) (by norm_num))
      exact ⟨δ, fun _ => by rw [Arith.one_flt]; exact h⟩
    · exact ⟨0, fun h => absurd h hj⟩
  choose δ hδ using hδ
  have hδs : ∀ j < k, |δ j| ≤ 2 ^ (202 : ℤ) := by
    intro j hj
    refine Arith.double_zpow (hd1 j hj) ?_
    have h1 : |δ j| ≤ |δ j - (d j - 1)| + |d j - 1| := by simpa using abs_add_le (δ j - (d j - 1)) (d j - 1)
    have h2 := (hδ j hj).2
    have h3 : Arith.uRound * |d j - 1| ≤ 1 * |d j - 1| := mul_le_mul_of_nonneg_right (hu1.trans (by norm_num)) (abs_nonneg _)
    linarith
  have hp : ∀ j < k, |δ j * L' j| ≤ 2 ^ (423 : ℤ) := by
    intro j hj
    rw [abs_mul]
    exact (mul_zpow_le (abs_nonneg _) (hδs j hj) (hL's j hj)).trans (by norm_num)
  have hs : ∀ j, ∃ s, j < k → A.mul (.fin (δ j)) (.fin (L' j)) = .fin s ∧ A.Machine (.fin s) ∧
      |s - δ j * L' j| ≤ Arith.uRound * |δ j * L' j| + 2 ^ (-1074 : ℤ) := by
    intro j
    by_cases hj : j < k
    · obtain ⟨s, h⟩ := mul_close hA hB (x := δ j) (y := L' j) (Arith.up_zpow (hp j hj) (by norm_num))
      exact ⟨s, fun _ => h⟩
    · exact ⟨0, fun h => absurd h hj⟩
  choose s hs using hs
  have ht0 : (0:ℝ) < 2 ^ (-1074 : ℤ) := two_zpow_pos _
  have ht1 : (2:ℝ) ^ (-1074 : ℤ) ≤ 1 / 1000 := (Arith.small_zpow (show (-1074 : ℤ) ≤ -20 by norm_num)).trans (by norm_num)
  have hssz : ∀ j < k, |s j| ≤ 2 ^ (424 : ℤ) := by
    intro j hj
    refine Arith.double_zpow (hx := le_refl ((2:ℝ) ^ (423 : ℤ))) ?_
    have h1 : |s j| ≤ |s j - δ j * L' j| + |δ j * L' j| := by simpa using abs_add_le (s j - δ j * L' j) (δ j * L' j)
    have h2 := (hs j hj).2.2
    have h3 : Arith.uRound * |δ j * L' j| ≤ 1 / 2 * |δ j * L' j| := mul_le_mul_of_nonneg_right (hu1.trans (by norm_num)) (abs_nonneg _)
    have h4 := hp j hj
    have h5 := one_le_zpow (e := 423) (by norm_num)
    generalize (2:ℝ) ^ (423 : ℤ) = q at *
    generalize (2:ℝ) ^ (-1074 : ℤ) = t at *
    linarith
  have hss : ∀ i < n, ∑ j ∈ Finset.range k, |U i j| * |s j| ≤ 2 ^ (444 : ℤ) := by
    intro i hi
    refine (sum_le_card (c := 2 ^ (425 : ℤ)) fun j hj => ?_).trans ?_
    · have : (2:ℝ) ≤ 2 ^ (1 : ℤ) := by norm_num
      exact (mul_zpow_le (abs_nonneg _) ((hU i hi j hj).2.trans this) (hssz j hj)).trans (by norm_num)
    · have : (k:ℝ) ≤ 2 ^ (19 : ℤ) := by exact_mod_cast hk
      exact (mul_zpow_le (two_zpow_pos _).le this le_rfl).trans (by norm_num)
  obtain ⟨w, e2, hw⟩ := matvec_close hD (U := U) (n := n) (m := k) (hk.trans (by norm_num)) (fun i hi j hj => (hU i hi j hj).1)
    (fun j hj => (hs j hj).2.1) fun i hi => Arith.up_zpow (hss i hi) (by norm_num)
  have hz : ∀ i, ∃ z, i < n → A.add (.fin (v i)) (.fin (w i)) = .fin z ∧ |z - (v i + w i)| ≤ Arith.uRound * |v i + w i| := by
    intro i
    by_cases hi : i < n
    · obtain ⟨z, h⟩ := hB.add_rel (hv i hi).1 (hw i hi).1 (by
        have h1 : |w i| ≤ 2 ^ (445 : ℤ) := Arith.double_zpow (hx := le_refl ((2:ℝ) ^ (444 : ℤ)))
          (near_size hk (sum_abs_range fun j _ => (abs_mul _ _).le) (hw i hi).2 (hss i hi) (one_le_zpow (by norm_num)))
        have h2 := Arith.up_zpow (hv i hi).2 (show (200 : ℤ) ≤ 445 by norm_num)
        refine Arith.up_zpow (Arith.double_zpow (hx := le_refl ((2:ℝ) ^ (445 : ℤ))) ((abs_add_le _ _).trans ?_)) (show (445 + 1 : ℤ) ≤ 1010 by norm_num)
        generalize (2:ℝ) ^ (445 : ℤ) = q at *
        linarith)
      exact ⟨z, fun _ => h⟩
    · exact ⟨0, fun h => absurd h hi⟩
  choose z hz using hz
  exact ⟨L', δ, s, w, z, ⟨e1, hL', hδ, hs, e2, hw, hz⟩⟩

/-- One application of the operator that `transform_eigenspace` returns. -/
theorem apply_close (hA : A.Sane) (hB : A.Accurate) (hD : A.DotAccurate) {n k : ℕ} {U : ℕ → ℕ → ℝ} {d v : ℕ → ℝ} (hn : n ≤ 2 ^ 19) (hk : k ≤ 2 ^ 19)
    (hU : ∀ i < n, ∀ j < k, A.Machine (.fin (U i j)) ∧ |U i j| ≤ 2) (hd : Sized A k (2 ^ (200 : ℤ)) d) (hv : Sized A n (2 ^ (200 : ℤ)) v) :
    ∃ y : ℕ → ℝ, stretchA A n k U d (fvec n v) = .ok (fvec n y) ∧
      ∀ i < n, A.Machine (.fin (y i)) ∧ |y i - stretched n k U d v i| ≤
        2 ^ (-53 : ℤ) * (|stretched n k U d v i| + (2 * n + 2 * k + 4) * stretchSize n k U d v i) + n * k * 2 ^ (-800 : ℤ) := by
  obtain ⟨L', δ, s, w, z, hp⟩ := apply_parts hA hB hD hn hk hU hd hv
  have hL' := hp.hL'
  have hδ := hp.hδ
  have hs := hp.hs
  have hw := hp.hw
  have hz := hp.hz
  have hu0 := Arith.uRound_pos
  have hu1 := Arith.uRound_le
  have hn' := pow19 hn
  have hk' := pow19 hk
  have hL : ∀ j, |∑ l ∈ Finset.range n, U l j * v l| ≤ ∑ l ∈ Finset.range n, |U l j| * |v l| := fun j =>
    sum_abs_range fun l _ => (abs_mul _ _).le
  have hd1 : ∀ j < k, |d j - 1| ≤ 2 ^ (201 : ℤ) := by
    intro j hj
    refine Arith.double_zpow (hx := le_refl ((2:ℝ) ^ (200 : ℤ))) ?_
    have h1 := abs_sub (d j) 1
    have h2 := (hd j hj).2
    have h3 := one_le_zpow (e := 200) (by norm_num)
    rw [abs_one] at h1
    linarith
  have ht0 : (0:ℝ) < 2 ^ (-1074 : ℤ) := two_zpow_pos _
  have hsc : ∀ j < k, 1 ≤ n → |s j - (d j - 1) * ∑ l ∈ Finset.range n, U l j * v l| ≤
      |d j - 1| * ((2 * n + 3) * Arith.uRound * (∑ l ∈ Finset.range n, |U l j| * |v l|) + 2 * n * 2 ^ (-1074 : ℤ)) + 2 ^ (-1074 : ℤ) := by
    intro j hj h1
    refine scale_core hu0.le (by exact_mod_cast h1) ?_ ht0.le (hL j) (hL' j hj).2 (hδ j hj).2 (hs j hj).2.2
    exact (mul_le_mul hn' hu1 hu0.le (by norm_num)).trans (by norm_num)
  refine ⟨z, hp.result, ?_⟩
  · intro i hi
    refine ⟨op_machine hA (hz i hi).1, ?_⟩
    have hn1 : 1 ≤ n := by omega
    have hn1' : (1:ℝ) ≤ n := by exact_mod_cast hn1
    set t : ℝ := 2 ^ (-1074 : ℤ) with ht
    set u := Arith.uRound with hu
    set T : ℝ := ∑ j ∈ Finset.range k, |U i j| * (|d j - 1| * (2 * n * t) + t) with hT
    have hT0 : 0 ≤ T := Finset.sum_nonneg fun j _ => by positivity
    have hW0 : 0 ≤ stretchSize n k U d v i := Finset.sum_nonneg fun j _ => by positivity
    have hdiff : ∑ j ∈ Finset.range k, |U i j| * |s j - (d j - 1) * ∑ l ∈ Finset.range n, U l j * v l| ≤ (2 * n + 3) * u * stretchSize n k U d v i + T := by
      rw [stretchSize, Finset.mul_sum, hT, ← Finset.sum_add_distrib]
      refine Finset.sum_le_sum fun j hj => ?_
      refine (mul_le_mul_of_nonneg_left (hsc j (Finset.mem_range.mp hj) hn1) (abs_nonneg _)).trans (le_of_eq ?_)
      ring
    have hS : ∑ j ∈ Finset.range k, |U i j| * |s j| ≤ (1 + (2 * n + 3) * u) * stretchSize n k U d v i + T := by
      have : ∑ j ∈ Finset.range k, |U i j| * |s j| ≤ stretchSize n k U d v i +
          ∑ j ∈ Finset.range k, |U i j| * |s j - (d j - 1) * ∑ l ∈ Finset.range n, U l j * v l| := by
        rw [stretchSize, ← Finset.sum_add_distrib]
        refine Finset.sum_le_sum fun j hj => ?_
        rw [← mul_add]
        refine mul_le_mul_of_nonneg_left ?_ (abs_nonneg _)
        have a := abs_add_le ((d j - 1) * ∑ l ∈ Finset.range n, U l j * v l) (s j - (d j - 1) * ∑ l ∈ Finset.range n, U l j * v l)
        rw [add_sub_cancel, abs_mul] at a
        have b := mul_le_mul_of_nonneg_left (hL j) (abs_nonneg (d j - 1))
        linarith
      linarith
    have hP : |w i - ∑ j ∈ Finset.range k, U i j * ((d j - 1) * ∑ l ∈ Finset.range n, U l j * v l)| ≤
        k * (2 * u) * (∑ j ∈ Finset.range k, |U i j| * |s j|) + k * t + ((2 * n + 3) * u * stretchSize n k U d v i + T) := by
      have a := abs_add_le (w i - ∑ j ∈ Finset.range k, U i j * s j)
        (∑ j ∈ Finset.range k, U i j * s j - ∑ j ∈ Finset.range k, U i j * ((d j - 1) * ∑ l ∈ Finset.range n, U l j * v l))
      rw [sub_add_sub_cancel] at a
      have b : |∑ j ∈ Finset.range k, U i j * s j - ∑ j ∈ Finset.range k, U i j * ((d j - 1) * ∑ l ∈ Finset.range n, U l j * v l)| ≤
          ∑ j ∈ Finset.range k, |U i j| * |s j - (d j - 1) * ∑ l ∈ Finset.range n, U l j * v l| := by
        rw [← Finset.sum_sub_distrib]
        refine sum_abs_range fun j _ => ?_
        rw [← mul_sub, abs_mul]
      have c := (hw i hi).2
      linarith
    have key := gather_core (u := u) (K := k) (t := t) (C := 2 * n + 3) hu0.le (hu1.trans (by norm_num)) (by positivity)
      ((mul_le_mul hk' hu1 hu0.le (by norm_num)).trans (by norm_num))
      ((mul_le_mul (show (2 * n + 3 : ℝ) ≤ 2 ^ 21 by linarith) hu1 hu0.le (by norm_num)).trans (by norm_num))
      ((mul_le_mul (mul_le_mul (show (2 * n + 3 : ℝ) ≤ 2 ^ 20 + 3 by linarith) hk' (by positivity) (by norm_num)) hu1 hu0.le (by norm_num)).trans (by norm_num))
      hW0 hT0 ht0.le hS hP (hz i hi).2
    rw [Arith.uRound_val]
    have hTs : 2 * (k * t + T) ≤ n * k * 2 ^ (-800 : ℤ) := by
      have a : T ≤ k * (2 * (2 ^ (201 : ℤ) * (2 * n * t) + t)) := by
        refine sum_le_card fun j hj => mul_le_mul (hU i hi j hj).2 ?_ (by positivity) (by norm_num)
        have := mul_le_mul_of_nonneg_right (hd1 j hj) (show (0:ℝ) ≤ 2 * n * t by positivity)
        linarith
      have b : t = 2 ^ (-1000 : ℤ) * 2 ^ (-74 : ℤ) := by rw [ht, ← Arith.zpow_split]; norm_num
      have c : (2:ℝ) ^ (201 : ℤ) * t = 2 ^ (-800 : ℤ) * 2 ^ (-73 : ℤ) := by rw [ht, ← Arith.zpow_split, ← Arith.zpow_split]; norm_num
      have d1 : t ≤ 2 ^ (-800 : ℤ) * 2 ^ (-73 : ℤ) := by rw [ht, ← Arith.zpow_split]; exact Arith.small_zpow (by norm_num)
      have e : (2:ℝ) ^ (-73 : ℤ) ≤ 1 / 100 := by norm_num
      have f : (0:ℝ) < 2 ^ (-800 : ℤ) := two_zpow_pos _
      generalize (2:ℝ) ^ (-800 : ℤ) = q at *
      have d2 : t ≤ q * (1 / 100) := d1.trans (mul_le_mul_of_nonneg_left e f.le)
      have d3 : (2:ℝ) ^ (201 : ℤ) * t ≤ q * (1 / 100) := c.le.trans (mul_le_mul_of_nonneg_left e f.le)
      have g : (2:ℝ) ^ (201 : ℤ) * (2 * n * t) ≤ 2 * n * (q * (1 / 100)) := by
        have := mul_le_mul_of_nonneg_left d3 (show (0:ℝ) ≤ 2 * n by positivity)
        linarith
      have k0 : (0:ℝ) ≤ k := by positivity
      have h1 : t + 2 * (2 ^ (201 : ℤ) * (2 * n * t) + t) ≤ n * (q / 2) := by
        have : q * (1 / 100) ≤ n * q * (1 / 100) := by
          have := mul_le_mul_of_nonneg_right hn1' (show 0 ≤ q * (1 / 100) by positivity)
          linarith
        have : 0 ≤ n * q := by positivity
        linarith
      have h2 := mul_le_mul_of_nonneg_left h1 k0
      linarith
    have e3 : (2 * (k:ℝ) + (2 * n + 3) + 1) = 2 * n + 2 * k + 4 := by ring
    rw [e3] at key
    have : v i + ∑ j ∈ Finset.range k, U i j * ((d j - 1) * ∑ l ∈ Finset.range n, U l j * v l) = stretched n k U d v i := rfl
    rw [this] at key
    linarith

end Paragami
