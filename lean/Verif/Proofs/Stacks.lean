import Verif.Proofs.Autograd

/-! # Lemmas about stacks of matrices -/

namespace Paragami
open NDArray LinAlg Autograd

/-! ### Broadcasting -/

theorem bshape_comm : ∀ s t : List Nat, bshape s t = bshape t s
  | [], [] => rfl
  | [], _ :: _ => rfl
  | _ :: _, [] => rfl
  | a :: s, b :: t => by
    rw [bshape, bshape, bshape_comm s t]
    by_cases h : a = b
    · subst h; rfl
    · rw [if_neg h, if_neg (Ne.symm h)]
      by_cases ha : a = 1
      · by_cases hb : b = 1
        · exact absurd (ha.trans hb.symm) h
        · simp [ha, hb]
      · by_cases hb : b = 1
        · simp [ha, hb]
        · simp [ha, hb]

theorem bshape_self : ∀ s : List Nat, bshape s s = some s
  | [] => rfl
  | a :: s => by rw [bshape, if_pos rfl, bshape_self s]; rfl

/-- The shape of the result absorbs that of the operands. -/
theorem bshape_absorb : ∀ {s t r : List Nat}, bshape s t = some r → bshape s r = some r
  | [], t, r, h => rfl
  | a :: s, [], r, h => by
    rw [bshape] at h; injection h with h; subst h; exact bshape_self _
  | a :: s, b :: t, r, h => by
    rw [bshape] at h
    split_ifs at h with h1 h2 h3
    · obtain ⟨r', hr, rfl⟩ := Option.map_eq_some_iff.mp h
      rw [bshape, if_pos rfl, bshape_absorb hr]; rfl
    · obtain ⟨r', hr, rfl⟩ := Option.map_eq_some_iff.mp h
      rw [bshape, if_neg h1, if_pos h2, bshape_absorb hr]; rfl
    · obtain ⟨r', hr, rfl⟩ := Option.map_eq_some_iff.mp h
      rw [bshape, if_pos rfl, bshape_absorb hr]; rfl

theorem bshape_length : ∀ {s t r : List Nat}, bshape s t = some r → r.length = max s.length t.length
  | [], t, r, h => by rw [bshape] at h; injection h with h; subst h; simp
  | a :: s, [], r, h => by rw [bshape] at h; injection h with h; subst h; simp
  | a :: s, b :: t, r, h => by
    rw [bshape] at h
    split_ifs at h <;>
    · obtain ⟨r', hr, rfl⟩ := Option.map_eq_some_iff.mp h
      simp [bshape_length hr]

theorem bindex_self : ∀ (s : List Nat) {q : Nat}, q < s.prod → bindex s s q = q
  | [], q, h => by simp at h; simp [bindex, h]
  | a :: s, q, h => by
    rw [List.prod_cons] at h
    rw [bindex, bindex_self s (Nat.div_lt_of_lt_mul h)]
    split
    · next ha => subst ha; simp
    · exact Nat.mod_add_div q a

theorem mix_lt {e a x S : Nat} (he : e < a) (hx : x < S) : e + a * x < a * S :=
  calc e + a * x < a + a * x := by omega
    _ = a * (x + 1) := by ring
    _ ≤ a * S := Nat.mul_le_mul_left _ hx

theorem bindex_lt : ∀ {s t r : List Nat} {q : Nat}, bshape s t = some r → q < r.prod → bindex s r q < s.prod
  | [], t, r, q, h, hq => by simp [bindex]
  | a :: s, [], r, q, h, hq => by
    rw [bshape] at h; injection h with h; subst h
    rwa [bindex_self _ hq]
  | a :: s, b :: t, r, q, h, hq => by
    rw [bshape] at h
    split_ifs at h with h1 h2 h3
    · obtain ⟨r', hr, rfl⟩ := Option.map_eq_some_iff.mp h
      rw [List.prod_cons] at hq ⊢
      have ha : 0 < a := Nat.pos_of_ne_zero (by rintro rfl; simp at hq)
      refine mix_lt ?_ (bindex_lt hr (Nat.div_lt_of_lt_mul hq))
      split
      · exact ha
      · exact Nat.mod_lt _ ha
    · obtain ⟨r', hr, rfl⟩ := Option.map_eq_some_iff.mp h
      rw [List.prod_cons] at hq ⊢
      subst h2
      exact mix_lt (by simp) (bindex_lt hr (Nat.div_lt_of_lt_mul hq))
    · obtain ⟨r', hr, rfl⟩ := Option.map_eq_some_iff.mp h
      rw [List.prod_cons] at hq ⊢
      have ha : 0 < a := Nat.pos_of_ne_zero (by rintro rfl; simp at hq)
      refine mix_lt ?_ (bindex_lt hr (Nat.div_lt_of_lt_mul hq))
      split
      · exact ha
      · exact Nat.mod_lt _ ha

/-! ### Stacks -/

theorem ofMatrix_length {n m : Nat} (M : Matrix (Fin n) (Fin m) ℝ) : (ofMatrix M).data.length = n * m := by
  simp [ofMatrix, List.length_flatten, List.map_ofFn, Function.comp_def]

theorem getD_flatMap_range {c : Nat} (f : Nat → List ℝ) (hf : ∀ q, (f q).length = c) :
    ∀ (N : Nat) {q e : Nat}, q < N → e < c → ((List.range N).flatMap f).getD (q * c + e) 0 = (f q).getD e 0
  | 0, q, e, h, _ => by omega
  | N + 1, q, e, h, he => by
    have hlen : ((List.range N).flatMap f).length = N * c := by
      rw [List.length_flatMap]; simp [hf]
    rw [List.range_succ, List.flatMap_append, List.flatMap_cons, List.flatMap_nil, List.append_nil]
    simp only [List.getD_eq_getElem?_getD]
    rcases Nat.lt_succ_iff_lt_or_eq.mp h with h | rfl
    · rw [List.getElem?_append_left (by rw [hlen]; calc q * c + e < q * c + c := by omega
          _ = (q + 1) * c := by ring
          _ ≤ N * c := Nat.mul_le_mul_right _ h)]
      have := getD_flatMap_range f hf N h he
      simpa only [List.getD_eq_getElem?_getD] using this
    · rw [List.getElem?_append_right (by rw [hlen]; omega), hlen, Nat.add_sub_cancel_left]

theorem stackMat_stackOf {s : List Nat} {n m : Nat} (A : Nat → Matrix (Fin n) (Fin m) ℝ) {q : Nat} (hq : q < s.prod) :
    stackMat n m (stackOf s A) q = A q := by
  funext i j
  have he : (i : Nat) * m + j < n * m := by
    calc (i : Nat) * m + j < i * m + m := by omega
      _ = (i + 1) * m := by ring
      _ ≤ n * m := Nat.mul_le_mul_right _ i.2
  rw [stackMat, stackOf, getD_flatMap_range _ (fun q => ofMatrix_length _) _ hq he]
  exact congrFun (congrFun (toMatrix_ofMatrix (A q)) i) j

theorem stackOf_congr {s : List Nat} {n m : Nat} {A B : Nat → Matrix (Fin n) (Fin m) ℝ} (h : ∀ q < s.prod, A q = B q) : stackOf s A = stackOf s B := by
  rw [stackOf, stackOf]
  congr 1
  rw [List.flatMap_def, List.flatMap_def]
  congr 1
  exact List.map_congr_left fun q hq => by rw [h q (List.mem_range.mp hq)]

theorem stackOf_shape {s : List Nat} {n m : Nat} (A : Nat → Matrix (Fin n) (Fin m) ℝ) : (stackOf s A).shape = s ++ [n, m] := rfl

theorem stackOf_ndim {s : List Nat} {n m : Nat} (A : Nat → Matrix (Fin n) (Fin m) ℝ) : (stackOf s A).ndim = s.length + 2 := by
  simp [NDArray.ndim, stackOf_shape]

theorem stackMul_stackOf {s t r : List Nat} {n k m : Nat} (A : Nat → Matrix (Fin n) (Fin k) ℝ) (B : Nat → Matrix (Fin k) (Fin m) ℝ)
    (h : bshape s.reverse t.reverse = some r.reverse) :
    stackMul (stackOf s A) (stackOf t B) = .ok (stackOf r fun q => A (bindex s.reverse r.reverse q) * B (bindex t.reverse r.reverse q)) := by
  have e : ∀ (s : List Nat) (a b : Nat), (s ++ [a, b]).reverse = b :: a :: s.reverse := fun s a b => by simp
  simp only [stackMul, stackOf_shape, e, if_true, h, List.reverse_reverse]
  congr 1
  refine stackOf_congr fun q hq => ?_
  rw [← List.prod_reverse] at hq
  rw [stackMat_stackOf _ (by rw [← List.prod_reverse]; exact bindex_lt h hq),
    stackMat_stackOf _ (by rw [← List.prod_reverse]; rw [bshape_comm] at h; exact bindex_lt h hq)]

theorem stackMul_same {s : List Nat} {n k m : Nat} (A : Nat → Matrix (Fin n) (Fin k) ℝ) (B : Nat → Matrix (Fin k) (Fin m) ℝ) :
    stackMul (stackOf s A) (stackOf s B) = .ok (stackOf s fun q => A q * B q) := by
  rw [stackMul_stackOf A B (bshape_self _)]
  congr 1
  refine stackOf_congr fun q hq => ?_
  rw [bindex_self _ (by rwa [List.prod_reverse])]

theorem stackInv_stackOf {s : List Nat} {n : Nat} (A : Nat → Matrix (Fin n) (Fin n) ℝ) (h : ∀ q < s.prod, (A q).det ≠ 0) :
    stackInv (stackOf s A) = .ok (stackOf s fun q => (A q)⁻¹) := by
  have e : ∀ (s : List Nat) (a b : Nat), (s ++ [a, b]).reverse = b :: a :: s.reverse := fun s a b => by simp
  simp only [stackInv, stackOf_shape, e, if_true, List.reverse_reverse, List.prod_reverse]
  rw [if_neg (by
    rintro ⟨q, hq, h0⟩
    rw [stackMat_stackOf _ hq] at h0
    exact h q hq h0)]
  congr 1
  exact stackOf_congr fun q hq => by rw [stackMat_stackOf _ hq]

theorem neg_stackOf {s : List Nat} {n m : Nat} (A : Nat → Matrix (Fin n) (Fin m) ℝ) : neg (stackOf s A) = stackOf s fun q => -A q := by
  simp only [neg, NDArray.map, stackOf, List.map_flatMap]
  congr 1
  rw [List.flatMap_def, List.flatMap_def]
  congr 1
  refine List.map_congr_left fun q _ => ?_
  have := neg_mat (A q)
  exact congrArg NDArray.data this

/-- A stack of one matrix without leading axes is that matrix. -/
theorem stackOf_nil {n m : Nat} (A : Nat → Matrix (Fin n) (Fin m) ℝ) : stackOf [] A = ofMatrix (A 0) := by
  simp [stackOf, ofMatrix]

/-! ### The operations on stacks of any number of axes -/

theorem invAny_stackOf {s : List Nat} {n : Nat} (A : Nat → Matrix (Fin n) (Fin n) ℝ) (h : ∀ q < s.prod, (A q).det ≠ 0) :
    invAny (stackOf s A) = .ok (stackOf s fun q => (A q)⁻¹) := by
  cases s with
  | nil =>
    rw [invAny, if_pos (by simp [stackOf_ndim]), stackOf_nil, stackOf_nil, inv_mat, if_neg (h 0 (by simp))]
  | cons a s => rw [invAny, if_neg (by simp [stackOf_ndim]), stackInv_stackOf A h]

theorem mulAny_stackOf {s t r : List Nat} {n k m : Nat} (A : Nat → Matrix (Fin n) (Fin k) ℝ) (B : Nat → Matrix (Fin k) (Fin m) ℝ)
    (h : bshape s.reverse t.reverse = some r.reverse) :
    mulAny (stackOf s A) (stackOf t B) = .ok (stackOf r fun q => A (bindex s.reverse r.reverse q) * B (bindex t.reverse r.reverse q)) := by
  rw [mulAny]
  split
  · next hc =>
    simp only [stackOf_ndim] at hc
    obtain rfl : s = [] := List.eq_nil_of_length_eq_zero (by omega)
    obtain rfl : t = [] := List.eq_nil_of_length_eq_zero (by omega)
    obtain rfl : r = [] := by simpa [bshape] using h
    rw [stackOf_nil, stackOf_nil, stackOf_nil, matmul_mat]
    rfl
  · exact stackMul_stackOf A B h

theorem solve_stackOf {s t r : List Nat} {n m : Nat} (A : Nat → Matrix (Fin n) (Fin n) ℝ) (B : Nat → Matrix (Fin n) (Fin m) ℝ)
    (h : bshape s.reverse t.reverse = some r.reverse) (hl : t.length + 1 ≠ s.length) (h0 : ∀ q < s.prod, (A q).det ≠ 0) :
    solve (stackOf s A) (stackOf t B) = .ok (stackOf r fun q => (A (bindex s.reverse r.reverse q))⁻¹ * B (bindex t.reverse r.reverse q)) := by
  rw [solve]
  split
  · next hc =>
    simp only [stackOf_ndim] at hc
    obtain rfl : s = [] := List.eq_nil_of_length_eq_zero (by omega)
    obtain rfl : t = [] := List.eq_nil_of_length_eq_zero (by omega)
    obtain rfl : r = [] := by simpa [bshape] using h
    rw [stackOf_nil, stackOf_nil, stackOf_nil, inv_mat, if_neg (h0 0 (by simp))]
    simp only [bind, Except.bind, matmul_mat]
    rfl
  · rw [stackSolve, stackInv_stackOf A h0]
    simp only [bind, Except.bind]
    rw [if_neg (by simp only [stackOf_ndim]; omega), stackMul_stackOf _ _ h]

/-! ### Stacks of vectors -/

/-- A stack of vectors as numpy stores it. -/
def stackVec (s : List Nat) {n : Nat} (b : Nat → Fin n → ℝ) : NDArray ℝ := ⟨s ++ [n], (List.range s.prod).flatMap fun q => List.ofFn (b q)⟩

theorem stackVec_nil {n : Nat} (b : Nat → Fin n → ℝ) : stackVec [] b = vecOf (b 0) := by
  simp [stackVec, vecOf, vec]

theorem stackVec_ndim {s : List Nat} {n : Nat} (b : Nat → Fin n → ℝ) : (stackVec s b).ndim = s.length + 1 := by
  simp [NDArray.ndim, stackVec]

theorem stackVec_congr {s : List Nat} {n : Nat} {b c : Nat → Fin n → ℝ} (h : ∀ q < s.prod, b q = c q) : stackVec s b = stackVec s c := by
  rw [stackVec, stackVec]
  congr 1
  rw [List.flatMap_def, List.flatMap_def]
  congr 1
  exact List.map_congr_left fun q hq => by rw [h q (List.mem_range.mp hq)]

theorem newAxis_stackVec {s : List Nat} {n : Nat} (b : Nat → Fin n → ℝ) : newAxis (stackVec s b) = stackOf s fun q => colOf (b q) := by
  rw [newAxis, stackVec, stackOf]
  simp only [List.append_assoc, List.cons_append, List.nil_append, col_data]

theorem dropAxis_stackOf {s : List Nat} {n : Nat} (b : Nat → Fin n → ℝ) : dropAxis (stackOf s fun q => colOf (b q)) = .ok (stackVec s b) := by
  rw [← newAxis_stackVec, newAxis, dropAxis]
  simp

theorem neg_stackVec {s : List Nat} {n : Nat} (b : Nat → Fin n → ℝ) : neg (stackVec s b) = stackVec s fun q => -b q := by
  simp only [neg, NDArray.map, stackVec, List.map_flatMap]
  congr 1
  rw [List.flatMap_def, List.flatMap_def]
  congr 1
  refine List.map_congr_left fun q _ => ?_
  have := neg_vecOf (b q)
  exact congrArg NDArray.data this

theorem solve_stackVec {s t r : List Nat} {n : Nat} (A : Nat → Matrix (Fin n) (Fin n) ℝ) (b : Nat → Fin n → ℝ)
    (h : bshape s.reverse t.reverse = some r.reverse) (hl : t.length = s.length) (h0 : ∀ q < s.prod, (A q).det ≠ 0) :
    solve (stackOf s A) (stackVec t b) =
      .ok (stackVec r fun q => (A (bindex s.reverse r.reverse q))⁻¹.mulVec (b (bindex t.reverse r.reverse q))) := by
  rw [solve]
  split
  · next hc =>
    simp only [stackOf_ndim] at hc
    obtain rfl : s = [] := List.eq_nil_of_length_eq_zero (by omega)
    obtain rfl : t = [] := List.eq_nil_of_length_eq_zero (by simpa using hl)
    obtain rfl : r = [] := by simpa [bshape] using h
    rw [stackOf_nil, stackVec_nil, stackVec_nil, inv_mat, if_neg (h0 0 (by simp))]
    simp only [bind, Except.bind, matmul_vec]
    rfl
  · rw [stackSolve, stackInv_stackOf A h0]
    simp only [bind, Except.bind]
    rw [if_pos (by simp only [stackOf_ndim, stackVec_ndim]; omega), newAxis_stackVec, stackMul_stackOf _ _ h]
    exact dropAxis_stackOf fun q => (A (bindex s.reverse r.reverse q))⁻¹.mulVec (b (bindex t.reverse r.reverse q))

end Paragami
