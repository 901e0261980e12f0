import Verif.Proofs.Sparse
import Verif.Proofs.LinAlg

/-! # Products with stored entries: proofs -/

namespace Paragami
open NDArray LinAlg Spec

namespace Sparse

theorem foldl_sum (l : List ℝ) : l.foldl (· + ·) 0 = l.sum := List.sum_eq_foldl.symm

theorem row_sum {m i : Nat} (b : Nat → ℝ) : ∀ l : List (Nat × Nat × ℝ), (∀ e ∈ l, e.2.1 < m) →
    ((l.filter fun e => e.1 = i).map fun e => e.2.2 * b e.2.1).sum =
      ∑ j : Fin m, ((l.filter fun e => e.1 = i ∧ e.2.1 = (j : Nat)).map (·.2.2)).sum * b j
  | [], _ => by simp
  | e :: l, h => by
    have ih := row_sum (i := i) b l fun e he => h e (by simp [he])
    have hm := h e (by simp)
    by_cases he : e.1 = i
    · rw [List.filter_cons_of_pos (by simpa using he), List.map_cons, List.sum_cons, ih]
      have : ∀ j : Fin m, (((e :: l).filter fun e => e.1 = i ∧ e.2.1 = (j : Nat)).map (·.2.2)).sum * b j =
          (if (⟨e.2.1, hm⟩ : Fin m) = j then e.2.2 * b e.2.1 else 0) + ((l.filter fun e => e.1 = i ∧ e.2.1 = (j : Nat)).map (·.2.2)).sum * b j := by
        intro j
        by_cases hj : e.2.1 = (j : Nat)
        · rw [List.filter_cons_of_pos (by simp [he, hj]), List.map_cons, List.sum_cons, if_pos (Fin.ext hj), add_mul, hj]
        · rw [List.filter_cons_of_neg (by simp [he, hj]), if_neg (fun hc => hj (by rw [← hc])), zero_add]
      rw [Finset.sum_congr rfl fun j _ => this j, Finset.sum_add_distrib, Finset.sum_ite_eq]
      simp
    · rw [List.filter_cons_of_neg (by simpa using he), ih]
      refine Finset.sum_congr rfl fun j _ => ?_
      rw [List.filter_cons_of_neg (by simp [he])]

theorem rowTimes_eq {z : Coo ℝ} (hz : StoredInside z) (b : Nat → ℝ) (i : Nat) : rowTimes z b i = ∑ j : Fin z.ncols, atPos z.stored i j * b j := by
  simp only [rowTimes, atPos, foldl_sum]
  exact row_sum b z.stored fun e he => (hz e he).2

theorem toMatrix_ofFn2 {n m : Nat} (f : Nat → Nat → ℝ) (i : Fin n) (j : Fin m) : toMatrix n m (ofFn2 n m f) i j = f i j := by
  have : (ofFn2 n m f) = ofMatrix (Matrix.of fun (i : Fin n) (j : Fin m) => f i j) := by
    simp only [ofFn2, ofMatrix, NDArray.mk.injEq, true_and, flatMap_range_eq_ofFn, map_range_eq_ofFn]; rfl
  rw [this, toMatrix_ofMatrix]; rfl

theorem ofFn2_eq_ofMatrix {n m : Nat} (f : Nat → Nat → ℝ) : ofFn2 n m f = ofMatrix (Matrix.of fun (i : Fin n) (j : Fin m) => f i j) := by
  simp only [ofFn2, ofMatrix, NDArray.mk.injEq, true_and, flatMap_range_eq_ofFn, map_range_eq_ofFn]; rfl

theorem matmul_eq {z : Coo ℝ} (hz : StoredInside z) (b : NDArray ℝ) : z.matmul b = LinAlg.matmul z.toarray b := by
  simp only [Coo.matmul, LinAlg.matmul, Coo.toarray]
  have hs : (ofFn2 z.nrows z.ncols (atPos z.stored)).shape = [z.nrows, z.ncols] := rfl
  rw [hs]
  split
  · next k hk =>
    simp only [hk]
    split
    · simp only [Except.ok.injEq, vecOf, map_range_eq_ofFn]
      congr 2
      funext i
      rw [rowTimes_eq hz]
      simp only [Matrix.mulVec, dotProduct, toMatrix_ofFn2, toVec]
    · rfl
  · next k l hk =>
    simp only [hk]
    split
    · rw [ofFn2_eq_ofMatrix]
      congr 2
      refine Matrix.ext fun i t => ?_
      rw [Matrix.of_apply, rowTimes_eq hz]
      rw [Matrix.mul_apply]
      exact Finset.sum_congr rfl fun j _ => by rw [toMatrix_ofFn2]; rfl
    · rfl
  · next h1 h2 =>
    split
    · next h => exact absurd h (by simpa using h1 _)
    · next h => exact absurd h (by simpa using h2 _ _)
    · rfl

theorem transpose_atPos {α : Type} [Add α] [OfNat α 0] (l : List (Nat × Nat × α)) (i j : Nat) :
    atPos (l.map fun e => (e.2.1, e.1, e.2.2)) i j = atPos l j i := by
  simp only [atPos, List.filter_map, List.map_map, Function.comp_def]
  congr 3
  funext e
  simp [and_comm]

theorem transpose_inside {α : Type} {z : Coo α} (hz : StoredInside z) : StoredInside z.transpose := by
  intro e he
  obtain ⟨e', he', rfl⟩ := List.mem_map.mp he
  exact (hz e' he').symm

theorem transpose_toarray (z : Coo ℝ) : LinAlg.transpose z.toarray = .ok z.transpose.toarray := by
  simp only [LinAlg.transpose, Coo.toarray]
  change Except.ok _ = _
  congr 1
  rw [ofFn2_eq_ofMatrix (n := z.transpose.nrows)]
  congr 1
  refine Matrix.ext fun i j => ?_
  exact (toMatrix_ofFn2 _ _ _).trans (transpose_atPos z.stored i j).symm

theorem times_eq {z : Coo ℝ} (hz : StoredInside z) : z.times = Optimization.sparseTimes z.toarray := by
  funext b
  simp only [Coo.times, Optimization.sparseTimes, matmul_eq hz]

theorem product_eq {z : Coo ℝ} (hz : StoredInside z) : Autograd.getSparseProduct z.toarray = .ok (sparseProduct z) := by
  simp only [Autograd.getSparseProduct, Optimization.checkSparse, transpose_toarray, bind, Except.bind, pure, Except.pure]
  rw [if_neg (by simp [Coo.toarray, ofFn2, NDArray.ndim])]
  simp only [Except.ok.injEq]
  funext q
  cases q
  · exact (times_eq hz).symm
  · exact (times_eq (transpose_inside hz)).symm

end Sparse
end Paragami
