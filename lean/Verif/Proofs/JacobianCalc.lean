import Verif.Model.Jacobian
import Verif.Proofs.FreeVal
import Mathlib.Analysis.Calculus.FDeriv.Add
import Mathlib.Analysis.Calculus.FDeriv.Comp
import Mathlib.Analysis.Calculus.Deriv.Comp
import Mathlib.Analysis.Calculus.Deriv.Inv
import Mathlib.Analysis.SpecialFunctions.ExpDeriv
import Mathlib.Analysis.SpecialFunctions.Log.Deriv
import Mathlib.Analysis.Calculus.ContDiff.Operations

/-! # Differentiability of maps between flat vectors, closed under concatenation -/

set_option linter.unusedSimpArgs false
set_option linter.unusedSectionVars false

namespace Paragami
open NDArray Pattern Topology ContDiff

namespace Jac

/-- A list of finite floats. -/
def finVec (n : Nat) (z : Nat → ℝ) : List Flt := (List.range n).map fun j => .fin (z j)

@[simp] theorem length_finVec (n : Nat) (z : Nat → ℝ) : (finVec n z).length = n := by simp [finVec]

theorem finVec_add (a b : Nat) (z : Nat → ℝ) : finVec (a + b) z = finVec a z ++ finVec b (fun j => z (a + j)) := by
  simp [finVec, List.range_add, Function.comp_def]

theorem finVec_congr {n : Nat} {z z' : Nat → ℝ} (h : ∀ j < n, z j = z' j) : finVec n z = finVec n z' := by
  apply List.map_congr_left; intro j hj; rw [h j (List.mem_range.mp hj)]

theorem finVec_eq_map (n : Nat) (z : Nat → ℝ) : finVec n z = ((List.range n).map z).map .fin := by
  simp [finVec, Function.comp_def]

theorem finVec_inj {n : Nat} {z z' : Nat → ℝ} (h : finVec n z = finVec n z') : ∀ j < n, z j = z' j := by
  intro j hj
  have : (finVec n z)[j]? = (finVec n z')[j]? := by rw [h]
  simpa [finVec, hj] using this

theorem eq_finVec (r : List ℝ) : r.map Flt.fin = finVec r.length (fun j => r.getD j 0) := by
  apply List.ext_getElem
  · simp
  · intro j h1 h2
    have : j < r.length := by simpa using h1
    simp [finVec, this]

variable (E : Type) [NormedAddCommGroup E] [NormedSpace ℝ E]

/-- `g` is defined near `r` (a real vector of length `n`), with values in real vectors of length `m`, and has the matrix of
derivatives `M` there; stated for every differentiable curve or family `z` through `r`, so that it composes. If the family is
analytic then so is its image. -/
def DiffAt (g : List Flt → Except Err (NDArray Flt)) (r : List ℝ) (m : Nat) (M : Nat → Nat → ℝ) : Prop :=
  ∀ (z : E → Nat → ℝ) (e : E) (L : Nat → E →L[ℝ] ℝ), (List.range r.length).map (z e) = r →
    (∀ j < r.length, HasFDerivAt (fun u => z u j) (L j) e) →
    ∃ f : E → Nat → ℝ, (∀ᶠ u in 𝓝 e, g (finVec r.length (z u)) = .ok (vec (finVec m (f u)))) ∧
      (∀ i < m, HasFDerivAt (fun u => f u i) (∑ j ∈ Finset.range r.length, M i j • L j) e) ∧
      ((∀ j < r.length, ContDiffAt ℝ ω (fun u => z u j) e) → ∀ i < m, ContDiffAt ℝ ω (fun u => f u i) e)

variable {E}

theorem DiffAt.mono {g g' : List Flt → Except Err (NDArray Flt)} {r : List ℝ} {m : Nat} {M : Nat → Nat → ℝ}
    (h : DiffAt E g r m M)
    (hg : ∀ l y, l.length = r.length → y.length = m → g l = .ok (vec y) → g' l = .ok (vec y)) : DiffAt E g' r m M := by
  intro z e L hz hL
  obtain ⟨f, h1, h2⟩ := h z e L hz hL
  exact ⟨f, h1.mono fun u hu => hg _ _ (by simp) (by simp) hu, h2⟩

theorem DiffAt.congr_mat {g : List Flt → Except Err (NDArray Flt)} {r : List ℝ} {m : Nat} {M M' : Nat → Nat → ℝ}
    (h : DiffAt E g r m M) (hM : ∀ i < m, ∀ j < r.length, M i j = M' i j) : DiffAt E g r m M' := by
  intro z e L hz hL
  obtain ⟨f, h1, h2, h3⟩ := h z e L hz hL
  refine ⟨f, h1, fun i hi => ?_, h3⟩
  have : ∑ j ∈ Finset.range r.length, M i j • L j = ∑ j ∈ Finset.range r.length, M' i j • L j :=
    Finset.sum_congr rfl fun j hj => by rw [hM i hi j (Finset.mem_range.mp hj)]
  rw [← this]
  exact h2 i hi

/-- Two maps side by side. -/
def catG (n1 : Nat) (g1 g2 : List Flt → Except Err (NDArray Flt)) (l : List Flt) : Except Err (NDArray Flt) := do
  let a ← g1 (l.take n1)
  let b ← g2 (l.drop n1)
  return vec (a.data ++ b.data)

/-- The same map on every block of length `n`. -/
def catN (n : Nat) (g : List Flt → Except Err (NDArray Flt)) : Nat → List Flt → Except Err (NDArray Flt)
  | 0, _ => .ok (vec [])
  | k + 1, l => catG n g (catN n g k) l

/-- Entries of a block diagonal matrix; a block is its number of rows, of columns, and its entries. -/
def blk : List (Nat × Nat × (Nat → Nat → ℝ)) → Nat → Nat → ℝ
  | [], _, _ => 0
  | (m, n, A) :: rest, i, j =>
    if i < m then
      if j < n then A i j else 0
    else if j < n then 0
    else blk rest (i - m) (j - n)

theorem DiffAt.nil (M : Nat → Nat → ℝ) : DiffAt E (fun _ => .ok (vec [])) [] 0 M := by
  intro z e L _ _
  exact ⟨fun _ _ => 0, by simp [finVec], by simp, by simp⟩

theorem DiffAt.cat {g1 g2 : List Flt → Except Err (NDArray Flt)} {r1 r2 : List ℝ} {m1 m2 : Nat}
    {M1 : Nat → Nat → ℝ} {bl : List (Nat × Nat × (Nat → Nat → ℝ))}
    (h1 : DiffAt E g1 r1 m1 M1) (h2 : DiffAt E g2 r2 m2 (blk bl)) :
    DiffAt E (catG r1.length g1 g2) (r1 ++ r2) (m1 + m2) (blk ((m1, r1.length, M1) :: bl)) := by
  intro z e L hz hL
  rw [List.length_append, List.range_add, List.map_append] at hz
  obtain ⟨hz1, hz2⟩ := List.append_inj hz (by simp)
  obtain ⟨f1, a1, b1, c1⟩ := h1 z e L hz1 (fun j hj => hL j (by simp; omega))
  obtain ⟨f2, a2, b2, c2⟩ := h2 (fun u j => z u (r1.length + j)) e (fun j => L (r1.length + j))
    (by simpa [Function.comp_def] using hz2) (fun j hj => hL _ (by simp; omega))
  refine ⟨fun u i => if i < m1 then f1 u i else f2 u (i - m1), ?_, ?_, ?_⟩
  · filter_upwards [a1, a2] with u hu1 hu2
    rw [List.length_append, finVec_add, catG, List.take_left' (by simp), List.drop_left' (by simp), hu1]
    rw [hu2, finVec_add]
    simp only [bind, Except.bind, pure, Except.pure, vec_data, Nat.add_sub_cancel_left,
      if_neg (Nat.not_lt.mpr (Nat.le_add_right _ _))]
    rw [finVec_congr (z := fun i => if i < m1 then f1 u i else f2 u (i - m1)) (z' := f1 u) (by intro j hj; simp [hj])]
  · intro i hi
    rw [List.length_append, Finset.sum_range_add]
    by_cases him : i < m1
    · have e2 : ∑ x ∈ Finset.range r2.length, blk ((m1, r1.length, M1) :: bl) i (r1.length + x) • L (r1.length + x) = 0 := by
        apply Finset.sum_eq_zero; intro x _; simp [blk, him]
      rw [e2, add_zero, Finset.sum_congr rfl fun j hj => by
        rw [show blk ((m1, r1.length, M1) :: bl) i j = M1 i j by simp [blk, him, Finset.mem_range.mp hj]]]
      simpa [him] using b1 i him
    · have e1 : ∑ x ∈ Finset.range r1.length, blk ((m1, r1.length, M1) :: bl) i x • L x = 0 := by
        apply Finset.sum_eq_zero; intro x hx; simp [blk, him, Finset.mem_range.mp hx]
      rw [e1, zero_add, Finset.sum_congr rfl fun j hj => by
        rw [show blk ((m1, r1.length, M1) :: bl) i (r1.length + j) = blk bl (i - m1) j by simp [blk, him]]]
      simpa [him] using b2 (i - m1) (by omega)
  · intro hz i hi
    by_cases him : i < m1
    · simpa [him] using c1 (fun j hj => hz j (by simp; omega)) i him
    · simpa [him] using c2 (fun j hj => hz _ (by simp; omega)) (i - m1) (by omega)

theorem DiffAt.catN {g : List Flt → Except Err (NDArray Flt)} {m n : Nat} (r : Nat → List ℝ) (M : Nat → Nat → Nat → ℝ) :
    ∀ cs : List Nat, (∀ c ∈ cs, (r c).length = n ∧ DiffAt E g (r c) m (M c)) →
      DiffAt E (catN n g cs.length) (cs.flatMap r) (cs.length * m) (blk (cs.map fun c => (m, n, M c))) := by
  intro cs
  induction cs with
  | nil => intro _; simpa [Jac.catN] using DiffAt.nil _
  | cons c cs ih =>
    intro h
    obtain ⟨h1, h2⟩ := h c (by simp)
    have := DiffAt.cat h2 (ih fun c hc => h c (by simp [hc]))
    rw [h1] at this
    simp only [List.length_cons, List.flatMap_cons, List.map_cons]
    rw [show (cs.length + 1) * m = m + cs.length * m by ring]
    exact this

/-- What `catN` computes. -/
theorem catN_ok {g : List Flt → Except Err (NDArray Flt)} {n : Nat} :
    ∀ (N : Nat) (l y : List Flt), l.length = N * n → catN n g N l = .ok (vec y) →
      ∃ ys : Nat → NDArray Flt, (∀ i < N, g (chunk n l i) = .ok (ys i)) ∧ y = (List.range N).flatMap fun i => (ys i).data := by
  intro N
  induction N with
  | zero => intro l y _ h; simp [catN] at h; exact ⟨fun _ => vec [], by simp, by simp [h]⟩
  | succ N ih =>
    intro l y hl h
    simp only [catN, catG] at h
    obtain ⟨a, h1, h⟩ := bind_ok h
    obtain ⟨b, h2, h⟩ := bind_ok h
    have hb : ∃ bl, b = vec bl := by
      cases N with
      | zero => simp [catN] at h2; exact ⟨_, h2.symm⟩
      | succ N =>
        simp only [catN, catG] at h2
        obtain ⟨a', _, h2⟩ := bind_ok h2
        obtain ⟨b', _, h2⟩ := bind_ok h2
        simp only [pure, Except.pure, Except.ok.injEq] at h2
        exact ⟨_, h2.symm⟩
    obtain ⟨bl, rfl⟩ := hb
    obtain ⟨ys, h3, h4⟩ := ih _ bl (by simp [hl]; rw [Nat.add_mul]; omega) h2
    simp only [pure, Except.pure, Except.ok.injEq, vec_inj, vec_data] at h
    refine ⟨fun i => if i = 0 then a else ys (i - 1), ?_, ?_⟩
    · intro i hi
      cases i with
      | zero => simpa [chunk] using h1
      | succ i =>
        have := h3 i (by omega)
        simp only [chunk, List.drop_drop] at this
        simp only [chunk, Nat.add_mul, one_mul, Nat.add_sub_cancel, if_neg (Nat.succ_ne_zero i)]
        rw [Nat.add_comm (i * n) n]; exact this
    · rw [← h, h4, List.range_succ_eq_map]
      simp [List.flatMap_map]

/-! ### Matrices -/

/-- A block as a model matrix. -/
noncomputable def toMat (b : Nat × Nat × (Nat → Nat → ℝ)) : NDArray Flt := ofFn2 b.1 b.2.1 fun i j => .fin (b.2.2 i j)

theorem matDims_toMat (b) : matDims (toMat b) = (b.1, b.2.1) := rfl

theorem blockEntry_toMat (bl : List (Nat × Nat × (Nat → Nat → ℝ))) (i j : Nat) :
    blockEntry (bl.map toMat) i j = .fin (blk bl i j) := by
  induction bl generalizing i j with
  | nil => simp [blockEntry, blk]
  | cons b bl ih =>
    obtain ⟨m, n, A⟩ := b
    simp only [List.map_cons, blockEntry, blk, matDims_toMat, ih]
    by_cases h1 : i < m <;> by_cases h2 : j < n <;> simp only [h1, h2, if_true, if_false]
    · exact entry_ofFn2 m n _ h1 h2
    · simp
    · simp

theorem blockDiag_toMat {bl : List (Nat × Nat × (Nat → Nat → ℝ))} (h : bl ≠ []) :
    blockDiag (bl.map toMat) = .ok (toMat ((bl.map (·.1)).sum, (bl.map (·.2.1)).sum, blk bl)) := by
  cases bl with
  | nil => contradiction
  | cons b bl =>
    simp only [blockDiag, List.map_cons]
    rw [← List.map_cons (f := toMat)]
    simp only [List.map_map, Function.comp_def, matDims_toMat, toMat, List.map_cons]
    congr 1
    apply ofFn2_congr
    intro i _ j _
    have := blockEntry_toMat (b :: bl) i j
    simpa only [List.map_cons, toMat] using this

end Jac

end Paragami
