import Verif.Proofs.SimplexFree
import Mathlib.LinearAlgebra.Matrix.PosDef

/-! # Lower-triangle vectorization and the Cholesky parameterization -/

set_option linter.unusedSimpArgs false

namespace Paragami
open NDArray

/-! ### Reading and building two-dimensional arrays -/

theorem data_ofFn2 {α : Type} (n m : Nat) (f : Nat → Nat → α) :
    (ofFn2 n m f).data = (List.range n).flatMap fun i => (List.range m).map (f i) := rfl

theorem length_ofFn2 {α : Type} (n m : Nat) (f : Nat → Nat → α) : (ofFn2 n m f).data.length = n * m :=
  length_flatMap_range _ (by simp)

theorem getElem?_of_chunk {α : Type} {l : List α} {k i j : Nat} (hj : j < k) :
    l[i * k + j]? = (chunk k l i)[j]? := by
  simp only [chunk]
  rw [List.getElem?_take_of_lt hj, List.getElem?_drop]

theorem entry_ofFn2 (n m : Nat) (f : Nat → Nat → Flt) {i j : Nat} (hi : i < n) (hj : j < m) :
    entry m (ofFn2 n m f).data i j = f i j := by
  simp only [entry, List.getD]
  rw [getElem?_of_chunk hj, data_ofFn2, chunk_of_flatMap (n := n) _ (by simp) hi]
  simp [hj]

theorem ofFn2_entry {n m : Nat} {d : List Flt} (hd : d.length = n * m) :
    (ofFn2 n m fun i j => entry m d i j) = ⟨[n, m], d⟩ := by
  have : (List.range n).flatMap (fun i => (List.range m).map fun j => entry m d i j) = d := by
    conv_rhs => rw [← chunk_flatMap n m d hd]
    apply List.flatMap_congr
    intro i hi
    have hi := List.mem_range.mp hi
    have hlen := length_chunk hd hi
    apply List.ext_getElem
    · simp [hlen]
    · intro j h1 h2
      have hj : j < m := by simpa using h1
      simp only [List.getElem_map, List.getElem_range, entry, List.getD]
      rw [getElem?_of_chunk hj, List.getElem?_eq_getElem h2]; rfl
  simp [ofFn2, this]

theorem ofFn2_congr {α : Type} {n m : Nat} {f g : Nat → Nat → α} (h : ∀ i < n, ∀ j < m, f i j = g i j) :
    ofFn2 n m f = ofFn2 n m g := by
  simp only [ofFn2, NDArray.mk.injEq, true_and]
  apply List.flatMap_congr
  intro i hi
  apply List.map_congr_left
  intro j hj
  exact h i (List.mem_range.mp hi) j (List.mem_range.mp hj)

theorem ofFn2_inj {n m : Nat} {f g : Nat → Nat → Flt} (h : ofFn2 n m f = ofFn2 n m g) :
    ∀ i < n, ∀ j < m, f i j = g i j := by
  intro i hi j hj
  rw [← entry_ofFn2 n m f hi hj, h, entry_ofFn2 n m g hi hj]

theorem ofFn2_fin (n m : Nat) (f : Nat → Nat → ℝ) :
    (ofFn2 n m fun i j => Flt.fin (f i j)) = ⟨[n, m], (ofFn2 n m f).data.map Flt.fin⟩ := by
  simp [ofFn2, List.map_flatMap, Function.comp_def]

/-! ### The lower triangle -/

/-- Triangular numbers. -/
def tri (n : Nat) : Nat := n * (n + 1) / 2

theorem two_mul_tri (n : Nat) : 2 * tri n = n * (n + 1) :=
  Nat.mul_div_cancel' (Nat.even_mul_succ_self n).two_dvd

theorem tri_succ (n : Nat) : tri (n + 1) = tri n + (n + 1) := by
  have h1 := two_mul_tri n
  have h2 := two_mul_tri (n + 1)
  nlinarith

theorem length_trilIndices (n : Nat) : (trilIndices n).length = tri n := by
  induction n with
  | zero => rfl
  | succ n ih =>
    rw [trilIndices, List.range_succ, List.flatMap_append, List.length_append, ← trilIndices, ih, tri_succ]
    simp

theorem mem_trilIndices {n : Nat} {ij : Nat × Nat} : ij ∈ trilIndices n ↔ ij.1 < n ∧ ij.2 ≤ ij.1 := by
  obtain ⟨i, j⟩ := ij
  simp only [trilIndices, List.mem_flatMap, List.mem_range, List.mem_map, Prod.mk.injEq]
  constructor
  · rintro ⟨a, ha, b, hb, rfl, rfl⟩; exact ⟨ha, by omega⟩
  · rintro ⟨h1, h2⟩; exact ⟨i, h1, j, by omega, rfl, rfl⟩

/-- The position of `(i, j)` in `np.tril_indices` is `_sym_index`. -/
theorem map_symIndex_trilIndices (n : Nat) :
    (trilIndices n).map (fun ij => symIndex ij.1 ij.2) = List.range (tri n) := by
  induction n with
  | zero => rfl
  | succ n ih =>
    rw [trilIndices, List.range_succ, List.flatMap_append, List.map_append, ← trilIndices, ih, tri_succ,
      List.range_add]
    congr 1
    simp only [List.flatMap_cons, List.flatMap_nil, List.append_nil, List.map_map]
    apply List.map_congr_left
    intro j hj
    have hj := List.mem_range.mp hj
    simp only [Function.comp, symIndex, if_pos (show j ≤ n by omega), tri]
    omega

theorem symIndex_lt {n i j : Nat} (hi : i < n) (hj : j ≤ i) : symIndex i j < tri n := by
  have : symIndex i j ∈ (trilIndices n).map (fun ij => symIndex ij.1 ij.2) :=
    List.mem_map.mpr ⟨(i, j), mem_trilIndices.mpr ⟨hi, hj⟩, rfl⟩
  rw [map_symIndex_trilIndices] at this
  exact List.mem_range.mp this

theorem matSize_tri (n : Nat) : matSize (tri n) = n := by
  have h : (1 : ℝ) + 8 * (tri n : ℝ) = (2 * n + 1) ^ 2 := by
    have := two_mul_tri n
    have h' : (2 : ℝ) * (tri n : ℝ) = n * (n + 1) := by exact_mod_cast this
    linear_combination 4 * h'
  rw [matSize, h, Real.sqrt_sq (by positivity)]
  have : (1 / 2 : ℝ) * (2 * (n : ℝ) + 1 - 1) = n := by ring
  rw [this, Nat.floor_natCast]

/-- `mat_size` accepts exactly the triangular numbers. -/
theorem matSize_check {m : Nat} : matSize m * (matSize m + 1) = 2 * m ↔ ∃ n, m = tri n := by
  constructor
  · intro h
    refine ⟨matSize m, ?_⟩
    have := two_mul_tri (matSize m)
    omega
  · rintro ⟨n, rfl⟩
    rw [matSize_tri, two_mul_tri]

theorem unvectorizeLd_vec {n : Nat} {l : List Flt} (h : l.length = tri n) :
    unvectorizeLd (vec l) =
      .ok (ofFn2 n n fun i j => if j ≤ i then l.getD (symIndex i j) .nan else 0) := by
  simp only [unvectorizeLd, vec_size, h, matSize_tri, two_mul_tri, vec_data]
  simp

theorem map_getD_range {l : List Flt} {n : Nat} (h : l.length = n) :
    (List.range n).map (fun i => l.getD i .nan) = l := by
  apply List.ext_getElem
  · simp [h]
  · intro i h1 h2
    simp [List.getD, List.getElem?_eq_getElem h2]

theorem vectorizeLd_ofFn2 (n : Nat) (f : Nat → Nat → Flt) :
    vectorizeLd (ofFn2 n n f) = .ok (vec ((trilIndices n).map fun ij => f ij.1 ij.2)) := by
  simp only [vectorizeLd, ofFn2, ne_eq, not_true_eq_false, if_false, Except.ok.injEq, vec_inj]
  apply List.map_congr_left
  intro ij hij
  obtain ⟨h1, h2⟩ := mem_trilIndices.mp hij
  exact entry_ofFn2 n n f h1 (by omega)

/-- Vectorizing what was un-vectorized gives the vector back. -/
theorem vectorize_unvectorize {n : Nat} {l : List Flt} (h : l.length = tri n) :
    (unvectorizeLd (vec l) >>= vectorizeLd) = .ok (vec l) := by
  rw [unvectorizeLd_vec h]
  simp only [bind, Except.bind]
  rw [vectorizeLd_ofFn2]
  congr 2
  conv_rhs => rw [← map_getD_range h, ← map_symIndex_trilIndices, List.map_map]
  apply List.map_congr_left
  intro ij hij
  obtain ⟨h1, h2⟩ := mem_trilIndices.mp hij
  simp only [if_pos h2, Function.comp]

/-- The entry of the vectorized matrix at `_sym_index i j` is the matrix entry `(i, j)`. -/
theorem getD_tril {n i j : Nat} (f : Nat → Nat → Flt) (hi : i < n) (hj : j ≤ i) :
    ((trilIndices n).map fun ij => f ij.1 ij.2).getD (symIndex i j) .nan = f i j := by
  have hmem : (i, j) ∈ trilIndices n := mem_trilIndices.mpr ⟨hi, hj⟩
  obtain ⟨k, hk, hke⟩ := List.getElem_of_mem hmem
  have hk' : k = symIndex i j := by
    have h1 := map_symIndex_trilIndices n
    have h2 : ((trilIndices n).map (fun ij => symIndex ij.1 ij.2))[k]? = (List.range (tri n))[k]? := by rw [h1]
    have hk2 : k < tri n := by rw [← length_trilIndices]; exact hk
    rw [List.getElem?_map, List.getElem?_eq_getElem hk, hke, List.getElem?_range hk2] at h2
    simpa using h2.symm
  rw [← hk', List.getD, List.getElem?_map, List.getElem?_eq_getElem hk, hke]
  rfl

/-- Un-vectorizing what was vectorized gives the lower-triangular part back. -/
theorem unvectorize_vectorize (n : Nat) (f : Nat → Nat → Flt) :
    (vectorizeLd (ofFn2 n n f) >>= unvectorizeLd) =
      .ok (ofFn2 n n fun i j => if j ≤ i then f i j else 0) := by
  rw [vectorizeLd_ofFn2]
  simp only [bind, Except.bind]
  rw [unvectorizeLd_vec (n := n) (by simp [length_trilIndices])]
  congr 1
  apply ofFn2_congr
  intro i hi j hj
  split
  · next h => exact getD_tril f hi h
  · rfl

/-! ### Cholesky factors are unique -/

theorem sum_range_split {n j : Nat} (hj : j < n) (g : Nat → ℝ) (h0 : ∀ k, j < k → k < n → g k = 0) :
    ∑ k ∈ Finset.range n, g k = ∑ k ∈ Finset.range j, g k + g j := by
  rw [← Finset.sum_range_succ]
  symm
  apply Finset.sum_subset
  · intro k hk
    simp only [Finset.mem_range] at hk ⊢; omega
  · intro k hk hk'
    simp only [Finset.mem_range] at hk hk'
    exact h0 k (by omega) hk

theorem isChol_unique {n : Nat} {A L L' : Nat → Nat → ℝ} (h : IsChol n A L) (h' : IsChol n A L') :
    ∀ i j, i < n → j < n → L i j = L' i j := by
  obtain ⟨hz, hp, hs⟩ := h
  obtain ⟨hz', hp', hs'⟩ := h'
  have key : ∀ j, j < n → ∀ i, j ≤ i → i < n → L i j = L' i j := by
    intro j
    induction j using Nat.strong_induction_on with
    | _ j ih =>
      intro hj
      have e : ∀ i, j ≤ i → i < n → L i j * L j j = L' i j * L' j j := by
        intro i hji hi
        have s1 := sum_range_split hj (fun k => L i k * L j k) (by
          intro k h1 h2; simp [hz j k hj h2 h1])
        have s2 := sum_range_split hj (fun k => L' i k * L' j k) (by
          intro k h1 h2; simp [hz' j k hj h2 h1])
        have e1 := hs i j hi hji
        have e2 := hs' i j hi hji
        have e3 : ∑ k ∈ Finset.range j, L i k * L j k = ∑ k ∈ Finset.range j, L' i k * L' j k := by
          apply Finset.sum_congr rfl
          intro k hk
          have hk := Finset.mem_range.mp hk
          rw [ih k hk (by omega) i (by omega) hi, ih k hk (by omega) j (by omega) hj]
        linarith
      have ejj := e j le_rfl hj
      have hd : L j j = L' j j := by
        have h1 := hp j hj
        have h2 := hp' j hj
        nlinarith [mul_self_eq_mul_self_iff.mp ejj]
      intro i hji hi
      have := e i hji hi
      rw [hd] at this
      exact mul_right_cancel₀ (hp' j hj).ne' this
  intro i j hi hj
  rcases Nat.lt_or_ge i j with h | h
  · rw [hz i j hi hj h, hz' i j hi hj h]
  · exact key j hj i h hi

/-- `np.linalg.cholesky` returns the (unique) Cholesky factor when there is one. -/
theorem cholesky_eq {n : Nat} {A L : Nat → Nat → ℝ} (h : IsChol n A L) :
    cholesky n (ofFn2 n n fun i j => .fin (A i j)) = .ok (ofFn2 n n fun i j => .fin (L i j)) := by
  have he : ∀ i j, i < n → j ≤ i → entry n (ofFn2 n n fun i j => Flt.fin (A i j)).data i j = .fin (A i j) :=
    fun i j hi hj => entry_ofFn2 n n _ hi (by omega)
  have h1 : ∀ i j, i < n → j ≤ i → (entry n (ofFn2 n n fun i j => Flt.fin (A i j)).data i j).IsFin := by
    intro i j hi hj; rw [he i j hi hj]; trivial
  have hiff : ∀ L', IsChol n (fun i j => (entry n (ofFn2 n n fun i j => Flt.fin (A i j)).data i j).toReal) L' ↔
      IsChol n A L' := by
    intro L'
    simp only [IsChol]
    refine and_congr_right fun _ => and_congr_right fun _ => ?_
    constructor
    · intro h i j hi hj; rw [h i j hi hj, he i j hi hj]; rfl
    · intro h i j hi hj; rw [h i j hi hj, he i j hi hj]; rfl
  have h2 : ∃ L', IsChol n (fun i j => (entry n (ofFn2 n n fun i j => Flt.fin (A i j)).data i j).toReal) L' :=
    ⟨L, (hiff L).mpr h⟩
  unfold cholesky
  rw [if_pos h1, dif_pos h2]
  congr 1
  apply ofFn2_congr
  intro i hi j hj
  rw [isChol_unique ((hiff _).mp h2.choose_spec) h i j hi hj]

/-- Without a Cholesky factor, `np.linalg.cholesky` raises. -/
theorem cholesky_none {n : Nat} {A : Nat → Nat → ℝ} (h : ¬ ∃ L, IsChol n A L) :
    cholesky n (ofFn2 n n fun i j => .fin (A i j)) = .error .linAlgError := by
  have he : ∀ i j, i < n → j ≤ i → entry n (ofFn2 n n fun i j => Flt.fin (A i j)).data i j = .fin (A i j) :=
    fun i j hi hj => entry_ofFn2 n n _ hi (by omega)
  have h1 : ∀ i j, i < n → j ≤ i → (entry n (ofFn2 n n fun i j => Flt.fin (A i j)).data i j).IsFin := by
    intro i j hi hj; rw [he i j hi hj]; trivial
  unfold cholesky
  rw [if_pos h1, dif_neg]
  rintro ⟨L, hL1, hL2, hL3⟩
  refine h ⟨L, hL1, hL2, fun i j hi hj => ?_⟩
  rw [hL3 i j hi hj]; simp only [he i j hi hj]; rfl

/-! ### pack and unpack -/

/-- The real lower-triangular factor encoded by a free vector: entries below the diagonal as they are, the diagonal
exponentiated. -/
noncomputable def freeFactor (r : List ℝ) (i j : Nat) : ℝ :=
  if j < i then r.getD (symIndex i j) 0 else if i = j then Real.exp (r.getD (symIndex i i) 0) else 0

theorem getD_map_fin {r : List ℝ} {k : Nat} (h : k < r.length) : (r.map Flt.fin).getD k .nan = .fin (r.getD k 0) := by
  simp [List.getD, List.getElem?_eq_getElem h, h]

theorem expDiag_unvec {n : Nat} {r : List ℝ} (h : r.length = tri n) :
    expDiag n (ofFn2 n n fun i j => if j ≤ i then (r.map Flt.fin).getD (symIndex i j) .nan else 0) =
      ofFn2 n n fun i j => .fin (freeFactor r i j) := by
  unfold expDiag
  apply ofFn2_congr
  intro i hi j hj
  rw [entry_ofFn2 n n _ hi hj, entry_ofFn2 n n _ hi hi]
  have hg : ∀ j ≤ i, (r.map Flt.fin).getD (symIndex i j) .nan = .fin (r.getD (symIndex i j) 0) := by
    intro j hj; exact getD_map_fin (by rw [h]; exact symIndex_lt hi hj)
  unfold freeFactor
  rcases lt_trichotomy j i with hlt | rfl | hgt
  · rw [if_neg (Nat.ne_of_gt hlt), if_neg (Nat.ne_of_gt hlt), if_pos hlt.le, if_pos hlt, hg j hlt.le]
    simp
  · rw [if_pos rfl, if_pos rfl, if_pos le_rfl, if_neg (lt_irrefl _), if_pos rfl, hg j le_rfl]
    simp
  · rw [if_neg (Nat.ne_of_lt hgt), if_neg (Nat.ne_of_lt hgt), if_neg (by omega), if_neg (by omega),
      if_neg (Nat.ne_of_lt hgt)]
    simp

theorem sum_map_range (n : Nat) (f : Nat → ℝ) : ((List.range n).map f).sum = ∑ k ∈ Finset.range n, f k := by
  induction n with
  | zero => simp
  | succ n ih => rw [List.range_succ, List.map_append, List.sum_append, ih, Finset.sum_range_succ]; simp

/-- The matrix `L Lᵀ + lb I` encoded by a free vector. -/
noncomputable def freeMat (n : Nat) (lb : ℝ) (r : List ℝ) (i j : Nat) : ℝ :=
  (∑ k ∈ Finset.range n, freeFactor r i k * freeFactor r j k) + (if i = j then lb else 0)

theorem unpackPosdef_fin {n : Nat} {lb : ℝ} {r : List ℝ} (h : r.length = tri n) :
    unpackPosdef (.fin lb) (vec (r.map .fin)) = .ok (ofFn2 n n fun i j => .fin (freeMat n lb r i j)) := by
  have hm : matSize (vec (r.map Flt.fin)).size = n := by simp [h, matSize_tri]
  unfold unpackPosdef
  rw [unvectorizeLd_vec (n := n) (by simp [h])]
  simp only [bind, Except.bind, pure, Except.pure, hm, expDiag_unvec h, Except.ok.injEq]
  apply ofFn2_congr
  intro i hi j hj
  rw [entry_ofFn2 n n _ hi hj]
  have : (List.range n).map (fun k => entry n (ofFn2 n n fun i j => Flt.fin (freeFactor r i j)).data i k *
      entry n (ofFn2 n n fun i j => Flt.fin (freeFactor r i j)).data j k) =
      ((List.range n).map fun k => freeFactor r i k * freeFactor r j k).map .fin := by
    rw [List.map_map]
    apply List.map_congr_left
    intro k hk
    have hk := List.mem_range.mp hk
    rw [entry_ofFn2 n n _ hi hk, entry_ofFn2 n n _ hj hk]; rfl
  rw [this, Flt.sum_fin, sum_map_range]
  unfold freeMat
  split <;> simp

theorem isChol_freeFactor (n : Nat) (r : List ℝ) :
    IsChol n (fun i j => ∑ k ∈ Finset.range n, freeFactor r i k * freeFactor r j k) (freeFactor r) := by
  refine ⟨?_, ?_, ?_⟩
  · intro i j _ _ hij; unfold freeFactor; rw [if_neg (by omega), if_neg (by omega)]
  · intro i _; unfold freeFactor; rw [if_neg (by omega), if_pos rfl]; exact Real.exp_pos _
  · intro i j _ _; rfl

/-- The free vector that encodes a lower-triangular factor. -/
noncomputable def freeVec (n : Nat) (L : Nat → Nat → ℝ) : List ℝ :=
  (trilIndices n).map fun ij => if ij.1 = ij.2 then Real.log (L ij.1 ij.1) else L ij.1 ij.2

theorem length_freeVec (n : Nat) (L : Nat → Nat → ℝ) : (freeVec n L).length = tri n := by
  simp [freeVec, length_trilIndices]

/-- Packing a matrix with Cholesky factor `L` (after subtracting the diagonal bound) gives `freeVec L`. -/
theorem packPosdef_eq {n : Nat} {lb : ℝ} {M L : Nat → Nat → ℝ}
    (h : IsChol n (fun i j => M i j - if i = j then lb else 0) L) :
    packPosdef n (.fin lb) (ofFn2 n n fun i j => .fin (M i j)) = .ok (vec ((freeVec n L).map .fin)) := by
  unfold packPosdef
  have e1 : (ofFn2 n n fun i j => entry n (ofFn2 n n fun i j => Flt.fin (M i j)).data i j -
      (if i = j then Flt.fin lb else 0)) = ofFn2 n n fun i j => Flt.fin (M i j - if i = j then lb else 0) := by
    apply ofFn2_congr
    intro i hi j hj
    rw [entry_ofFn2 n n _ hi hj]
    split <;> simp
  simp only [bind, Except.bind, e1, cholesky_eq h]
  have e2 : logDiag n (ofFn2 n n fun i j => Flt.fin (L i j)) =
      ofFn2 n n fun i j => .fin (if i = j then Real.log (L i i) else L i j) := by
    unfold logDiag
    apply ofFn2_congr
    intro i hi j hj
    rw [entry_ofFn2 n n _ hi hj, entry_ofFn2 n n _ hi hi]
    split
    · next hij => subst hij; rw [Flt.log_fin (h.2.1 i hi)]; simp
    · simp
  rw [e2, vectorizeLd_ofFn2]
  simp [freeVec, Function.comp_def]

theorem packPosdef_none {n : Nat} {lb : ℝ} {M : Nat → Nat → ℝ}
    (h : ¬ ∃ L, IsChol n (fun i j => M i j - if i = j then lb else 0) L) :
    packPosdef n (.fin lb) (ofFn2 n n fun i j => .fin (M i j)) = .error .linAlgError := by
  unfold packPosdef
  have e1 : (ofFn2 n n fun i j => entry n (ofFn2 n n fun i j => Flt.fin (M i j)).data i j -
      (if i = j then Flt.fin lb else 0)) = ofFn2 n n fun i j => Flt.fin (M i j - if i = j then lb else 0) := by
    apply ofFn2_congr
    intro i hi j hj
    rw [entry_ofFn2 n n _ hi hj]
    split <;> simp
  simp only [bind, Except.bind, e1, cholesky_none h]

theorem freeVec_freeFactor {n : Nat} {r : List ℝ} (h : r.length = tri n) : freeVec n (freeFactor r) = r := by
  have hr : r = (List.range (tri n)).map fun k => r.getD k 0 := by
    apply List.ext_getElem
    · simp [h]
    · intro i h1 h2; simp [List.getD, List.getElem?_eq_getElem h1]
  conv_rhs => rw [hr, ← map_symIndex_trilIndices, List.map_map]
  unfold freeVec
  apply List.map_congr_left
  intro ij hij
  obtain ⟨h1, h2⟩ := mem_trilIndices.mp hij
  obtain ⟨i, j⟩ := ij
  simp only at h1 h2 ⊢
  unfold freeFactor
  by_cases hij : i = j
  · subst hij; simp
  · rw [if_neg hij, if_pos (by omega)]; rfl

theorem freeFactor_freeVec {n : Nat} {A L : Nat → Nat → ℝ} (h : IsChol n A L) {i j : Nat} (hi : i < n) (hj : j < n) :
    freeFactor (freeVec n L) i j = L i j := by
  have hg : ∀ i j, i < n → j ≤ i → (freeVec n L).getD (symIndex i j) 0 =
      if i = j then Real.log (L i i) else L i j := by
    intro i j hi hj
    have h1 := getD_tril (n := n) (fun i j => Flt.fin (if i = j then Real.log (L i i) else L i j)) hi hj
    have h2 : ((trilIndices n).map fun ij => Flt.fin (if ij.1 = ij.2 then Real.log (L ij.1 ij.1) else L ij.1 ij.2)) =
        (freeVec n L).map .fin := by simp [freeVec, Function.comp_def]
    rw [h2, getD_map_fin (by rw [length_freeVec]; exact symIndex_lt hi hj)] at h1
    exact Flt.fin_injective h1
  unfold freeFactor
  rcases lt_trichotomy j i with hlt | rfl | hgt
  · rw [if_pos hlt, hg i j hi hlt.le, if_neg (by omega)]
  · rw [if_neg (lt_irrefl _), if_pos rfl, hg j j hi le_rfl, if_pos rfl, Real.exp_log (h.2.1 j hi)]
  · rw [if_neg (by omega), if_neg (by omega), h.1 i j hi hj hgt]

namespace PSD

theorem foldFree_ok {n : Nat} {lb : Flt} {x a : NDArray Flt} :
    foldFree n lb x = .ok a ↔ x.atleast1d.ndim = 1 ∧ x.data.length = tri n ∧ unpackPosdef lb x.atleast1d = .ok a := by
  simp only [foldFree, bind, Except.bind, throw, throwThe, MonadExceptOf.throw, pure, Except.pure]
  split
  · next h => simp [show x.atleast1d.ndim ≠ 1 from h]
  next h1 =>
  have h1 : x.atleast1d.ndim = 1 := by simpa using h1
  split
  · next h =>
    have h : x.data.length ≠ tri n := by simpa [size, atleast1d_data, tri] using h
    simp [h]
  next h2 =>
  have h2 : x.data.length = tri n := by simpa [size, atleast1d_data, tri] using h2
  simp [h1, h2]

theorem flattenFree_ok {n : Nat} {lb : Flt} {dv : Bool} {a x : NDArray Flt} {vv} :
    flattenFree n lb dv a vv = .ok x ↔ validate n lb dv a vv = .ok (true, "") ∧ packPosdef n lb a = .ok x := by
  simp only [flattenFree, bind, Except.bind, throw, throwThe, MonadExceptOf.throw, pure, Except.pure]
  rcases hv : validate n lb dv a vv with e | ⟨b, m⟩
  · simp
  cases b
  · simp
  · have hm : m = "" := (Pattern.psd_validate_true.mp hv).1
    subst hm
    simp

end PSD

end Paragami
