import Mathlib.Data.List.OfFn
import Mathlib.Tactic.Linarith
import Verif.Model.LinAlg
import Verif.Proofs.Basic

/-! # Arrays and Mathlib's matrices -/

namespace Paragami
namespace LinAlg
open NDArray

theorem vecOf_shape {n : Nat} (v : Fin n → ℝ) : (vecOf v).shape = [n] := by simp [vecOf, vec]
theorem vecOf_data {n : Nat} (v : Fin n → ℝ) : (vecOf v).data = List.ofFn v := rfl
theorem ofMatrix_shape {n m : Nat} (M : Matrix (Fin n) (Fin m) ℝ) : (ofMatrix M).shape = [n, m] := rfl

theorem toVec_vecOf {n : Nat} (v : Fin n → ℝ) : toVec n (vecOf v) = v := by
  funext i
  simp [toVec, vecOf, vec]

theorem vecOf_toVec {n : Nat} {a : NDArray ℝ} (hs : a.shape = [n]) (hw : a.WF) : vecOf (toVec n a) = a := by
  obtain ⟨s, d⟩ := a
  simp only at hs; subst hs
  have hl : d.length = n := by simpa [NDArray.WF] using hw
  subst hl
  simp only [vecOf, vec, List.length_ofFn, NDArray.mk.injEq, true_and]
  apply List.ext_getElem (by simp)
  intro i h1 h2
  simp [toVec, h2]

theorem flatten_ofFn_length {α : Type} {n m : Nat} (f : Fin n → Fin m → α) : (List.ofFn fun i => List.ofFn (f i)).flatten.length = n * m := by
  rw [List.length_flatten, List.map_ofFn]
  simp [Function.comp_def]

theorem flatten_ofFn_getD {α : Type} {n m : Nat} (f : Fin n → Fin m → α) (i : Fin n) (j : Fin m) :
    (List.ofFn fun i => List.ofFn (f i)).flatten[(i : Nat) * m + j]? = some (f i j) := by
  induction n with
  | zero => exact i.elim0
  | succ n ih =>
    rw [List.ofFn_succ, List.flatten_cons]
    refine Fin.cases ?_ (fun i => ?_) i
    · rw [Fin.val_zero, Nat.zero_mul, Nat.zero_add, List.getElem?_append_left (by simp)]
      simp
    · rw [List.getElem?_append_right (by rw [List.length_ofFn, Fin.val_succ, Nat.succ_mul]; omega)]
      have e : (i.succ : Nat) * m + j - (List.ofFn (f 0)).length = i * m + j := by
        rw [List.length_ofFn, Fin.val_succ, Nat.succ_mul]; omega
      rw [e]
      exact ih (fun i => f i.succ) i

theorem toMatrix_ofMatrix {n m : Nat} (M : Matrix (Fin n) (Fin m) ℝ) : toMatrix n m (ofMatrix M) = M := by
  funext i j
  simp only [toMatrix, ofMatrix, List.getD_eq_getElem?_getD]
  have := flatten_ofFn_getD M i j
  rw [this]; rfl

theorem ofMatrix_toMatrix {n m : Nat} {a : NDArray ℝ} (hs : a.shape = [n, m]) (hw : a.WF) : ofMatrix (toMatrix n m a) = a := by
  obtain ⟨s, d⟩ := a
  simp only at hs; subst hs
  have hl : d.length = n * m := by simpa [NDArray.WF] using hw
  simp only [ofMatrix, NDArray.mk.injEq, true_and]
  apply List.ext_getElem? 
  intro k
  by_cases hk : k < n * m
  · have hm : 0 < m := Nat.pos_of_ne_zero (fun h => by simp [h] at hk)
    have hi : k / m < n := (Nat.div_lt_iff_lt_mul hm).mpr hk
    have e : k / m * m + k % m = k := Nat.div_add_mod' k m
    have := flatten_ofFn_getD (toMatrix n m ⟨[n, m], d⟩) ⟨k / m, hi⟩ ⟨k % m, Nat.mod_lt _ hm⟩
    simp only [e] at this
    rw [this, toMatrix]
    simp only [e]
    rw [List.getD_eq_getElem?_getD, List.getElem?_eq_getElem (by omega)]; rfl
  · rw [List.getElem?_eq_none ((flatten_ofFn_length (toMatrix n m ⟨[n, m], d⟩)).trans_le (by omega)), List.getElem?_eq_none (by omega)]

theorem vecOf_wf {n : Nat} (v : Fin n → ℝ) : (vecOf v).WF := by simp [NDArray.WF, vecOf, vec]
theorem ofMatrix_wf {n m : Nat} (M : Matrix (Fin n) (Fin m) ℝ) : (ofMatrix M).WF := by
  rw [NDArray.WF, ofMatrix_shape]
  exact (flatten_ofFn_length M).trans (by simp)

theorem vecOf_inj {n : Nat} {v w : Fin n → ℝ} (h : vecOf v = vecOf w) : v = w := by
  rw [← toVec_vecOf v, h, toVec_vecOf]
theorem ofMatrix_inj {n m : Nat} {A B : Matrix (Fin n) (Fin m) ℝ} (h : ofMatrix A = ofMatrix B) : A = B := by
  rw [← toMatrix_ofMatrix A, h, toMatrix_ofMatrix]

theorem matmul_vec {n m : Nat} (M : Matrix (Fin n) (Fin m) ℝ) (v : Fin m → ℝ) :
    matmul (ofMatrix M) (vecOf v) = .ok (vecOf (M.mulVec v)) := by
  simp only [matmul, ofMatrix_shape, vecOf_shape, if_true, toMatrix_ofMatrix, toVec_vecOf]

theorem matmul_mat {n m k : Nat} (M : Matrix (Fin n) (Fin m) ℝ) (N : Matrix (Fin m) (Fin k) ℝ) :
    matmul (ofMatrix M) (ofMatrix N) = .ok (ofMatrix (M * N)) := by
  simp only [matmul, ofMatrix_shape, if_true, toMatrix_ofMatrix]

theorem transpose_mat {n m : Nat} (M : Matrix (Fin n) (Fin m) ℝ) : transpose (ofMatrix M) = .ok (ofMatrix M.transpose) := by
  simp only [transpose, ofMatrix_shape, toMatrix_ofMatrix]

theorem inv_mat {n : Nat} (M : Matrix (Fin n) (Fin n) ℝ) :
    inv (ofMatrix M) = if M.det = 0 then .error .linAlgError else .ok (ofMatrix M⁻¹) := by
  simp only [inv, ofMatrix_shape, if_true, toMatrix_ofMatrix]

theorem zipWith_ofFn {α β γ : Type} {n : Nat} (f : α → β → γ) (v : Fin n → α) (w : Fin n → β) :
    List.zipWith f (List.ofFn v) (List.ofFn w) = List.ofFn fun i => f (v i) (w i) := by
  apply List.ext_getElem (by simp)
  intro i h1 h2
  simp

theorem sub_vec {n : Nat} (v w : Fin n → ℝ) : sub (vecOf v) (vecOf w) = .ok (vecOf (v - w)) := by
  simp only [sub, vecOf_shape, if_true, vecOf_data, zipWith_ofFn]
  simp only [vecOf, vec, List.length_ofFn]; rfl

theorem add_vec {n : Nat} (v w : Fin n → ℝ) : add (vecOf v) (vecOf w) = .ok (vecOf (v + w)) := by
  simp only [add, vecOf_shape, if_true, vecOf_data, zipWith_ofFn]
  simp only [vecOf, vec, List.length_ofFn]; rfl

theorem mul_vec {n : Nat} (v w : Fin n → ℝ) : mul (vecOf v) (vecOf w) = .ok (vecOf (v * w)) := by
  simp only [mul, vecOf_shape, if_true, vecOf_data, zipWith_ofFn]
  simp only [vecOf, vec, List.length_ofFn]; rfl

theorem map_vec {n : Nat} (f : ℝ → ℝ) (v : Fin n → ℝ) : (vecOf v).map f = vecOf fun i => f (v i) := by
  simp only [vecOf, vec, NDArray.map, List.length_ofFn, List.map_ofFn]; rfl

theorem sum_ofFn_eq {n : Nat} (f : Fin n → ℝ) : (List.ofFn f).sum = ∑ i, f i := List.sum_ofFn

theorem norm_vec {n : Nat} (v : Fin n → ℝ) : norm (vecOf v) = Real.sqrt (∑ i, v i * v i) := by
  rw [norm, vecOf_data, List.map_ofFn, List.sum_ofFn]; rfl

end LinAlg
end Paragami
