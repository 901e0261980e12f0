import Verif.Proofs.JacobianUnfree
import Verif.Proofs.CholeskyDiff
import Mathlib.Analysis.Calculus.FDeriv.Prod

/-! # The freeing map of a matrix is differentiable -/

namespace Paragami
open NDArray Pattern Topology Spec

namespace Jac
variable {E : Type} [NormedAddCommGroup E] [NormedSpace ℝ E]

theorem freeVec_getD {n i j : Nat} (L : Nat → Nat → ℝ) (hi : i < n) (hj : j ≤ i) :
    (freeVec n L).getD (symIndex i j) 0 = if i = j then Real.log (L i i) else L i j := by
  have h1 := getD_tril (n := n) (fun i j => Flt.fin (if i = j then Real.log (L i i) else L i j)) hi hj
  have h2 : ((trilIndices n).map fun ij => Flt.fin (if ij.1 = ij.2 then Real.log (L ij.1 ij.1) else L ij.1 ij.2)) =
      (freeVec n L).map .fin := by simp [freeVec, Function.comp_def]
  rw [h2, getD_map_fin (by rw [length_freeVec]; exact symIndex_lt hi hj)] at h1
  exact Flt.fin_injective h1

theorem exists_symIndex {n c : Nat} (hc : c < tri n) : ∃ i j, i < n ∧ j ≤ i ∧ symIndex i j = c := by
  have : c ∈ (trilIndices n).map fun ij => symIndex ij.1 ij.2 := by rw [map_symIndex_trilIndices]; exact List.mem_range.mpr hc
  obtain ⟨ij, h1, h2⟩ := List.mem_map.mp this
  exact ⟨ij.1, ij.2, (mem_trilIndices.mp h1).1, (mem_trilIndices.mp h1).2, h2⟩

/-- The matrix in a flat vector, after the bound has been subtracted. -/
def flatMat (n : Nat) (l : ℝ) (w : Nat → ℝ) (i j : Nat) : ℝ :=
  (if i * n + j < n * n then w (i * n + j) else 0) - if i = j then l else 0

theorem flat_lt {n i j : Nat} (hi : i < n) (hj : j < n) : i * n + j < n * n := by
  calc i * n + j < i * n + n := by omega
    _ = (i + 1) * n := by ring
    _ ≤ n * n := Nat.mul_le_mul_right _ hi

/-- Entry `c` of the free vector of a flat matrix. -/
noncomputable def freeEntry (n : Nat) (l : ℝ) (w : Nat → ℝ) (c : Nat) : ℝ := (freeVec n (cholR (flatMat n l w))).getD c 0

/-- The free vector of a family of matrices. -/
theorem free_family {n : Nat} {l : ℝ} {w : E → Nat → ℝ} {e : E} {L : Nat → Nat → ℝ}
    (hd : ∀ t < n * n, DifferentiableAt ℝ (fun u => w u t) e) (hL : IsChol n (flatMat n l (w e)) L) :
    (∀ᶠ u in 𝓝 e, IsChol n (flatMat n l (w u)) (cholR (flatMat n l (w u)))) ∧
      ∀ c < tri n, DifferentiableAt ℝ (fun u => freeEntry n l (w u) c) e := by
  obtain ⟨h1, h2, h3⟩ := chol_family (z := fun u => flatMat n l (w u)) (fun i j hi hj => by
    have := flat_lt hi (show j < n by omega)
    simp only [flatMat, this, if_true]
    exact (hd _ this).fun_sub (differentiableAt_const _)) hL
  refine ⟨h1, fun c hc => ?_⟩
  obtain ⟨i, j, hi, hj, rfl⟩ := exists_symIndex hc
  simp only [freeEntry, freeVec_getD _ hi hj]
  split
  · exact (h3 i hi i le_rfl).log (by rw [← h2 i i hi hi]; exact (hL.2.1 i hi).ne')
  · exact h3 i hi j hj

theorem contDiffAt_freeEntry {n : Nat} {l : ℝ} {w : E → Nat → ℝ} {e : E} {L : Nat → Nat → ℝ} {N : WithTop ℕ∞}
    (hd : ∀ t < n * n, ContDiffAt ℝ N (fun u => w u t) e) (hL : IsChol n (flatMat n l (w e)) L) :
    ∀ c < tri n, ContDiffAt ℝ N (fun u => freeEntry n l (w u) c) e := by
  have h2 := isChol_cholR hL
  have hp : ∀ i < n, 0 < cholR (flatMat n l (w e)) i i := fun i hi => h2 i i hi hi ▸ hL.2.1 i hi
  have h3 := contDiffAt_cholR (z := fun u => flatMat n l (w u)) (N := N) (fun i j hi hj => by
    have := flat_lt hi (show j < n by omega)
    simp only [flatMat, this, if_true]
    exact (hd _ this).sub contDiffAt_const) hp
  intro c hc
  obtain ⟨i, j, hi, hj, rfl⟩ := exists_symIndex hc
  simp only [freeEntry, freeVec_getD _ hi hj]
  split
  · exact (h3 i hi i le_rfl).log (hp i hi).ne'
  · exact h3 i hi j hj

/-- A flat vector folded into a matrix. -/
theorem matrix_finVec (n : Nat) (w : Nat → ℝ) : (⟨[n, n], finVec (n * n) w⟩ : NDArray Flt) = ofFn2 n n fun i j => .fin (w (i * n + j)) := by
  have : (ofFn2 n n fun i j => Flt.fin (w (i * n + j))).data = finVec (n * n) w := by
    rw [ofFn2_finVec n fun i j => w (i * n + j)]
    refine finVec_congr fun t _ => ?_
    rw [Nat.mul_comm, Nat.div_add_mod]
  rw [← this]; rfl

theorem freeing_psd {n lb dv fd} {a : NDArray Flt} (hw : (Pattern.psd n lb dv fd).WF) (hf : lb.toFlt.IsFin)
    (hI : Interior (.psd n lb dv fd) (.arr a)) : ∃ (r : List ℝ) (M : Nat → Nat → ℝ), a.data = r.map .fin ∧ r.length = n * n ∧
      DiffAt E (fun l => (Pattern.psd n lb dv fd).flattenFree ((Pattern.psd n lb dv fd).unflat l) (some false)) r (tri n) M := by
  obtain ⟨l, hl⟩ := Flt.isFin_iff.mp hf
  rw [interior_psd, hl] at hI
  obtain ⟨N, L, rfl, -, hL⟩ := hI
  simp only [Flt.toReal_fin] at hL
  set w0 : Nat → ℝ := fun t => N (t / n) (t % n) with hw0
  have hL : ∀ w : Nat → ℝ, (∀ t < n * n, w t = w0 t) → IsChol n (flatMat n l w) L := by
    intro w hww
    refine ⟨hL.1, hL.2.1, fun i j hi hj => ?_⟩
    have hj' : j < n := by omega
    have hlt := flat_lt hi hj'
    rw [hL.2.2 i j hi hj, flatMat, if_pos hlt, hww _ hlt]
    simp only [hw0]
    rw [Nat.mul_comm i n, Nat.mul_add_div (by omega), Nat.mul_add_mod, Nat.div_eq_of_lt hj', Nat.mod_eq_of_lt hj', Nat.add_zero]
  -- the derivative with respect to the entries
  set x0 : Fin (n * n) → ℝ := fun t => w0 t with hx0
  have hext : ∀ t < n * n, ext x0 t = w0 t := fun t ht => by simp [ext, ht, hx0]
  obtain ⟨-, k2⟩ := free_family (l := l) (w := fun u : Fin (n * n) → ℝ => ext u) (e := x0)
    (fun t ht => (hasFDerivAt_ext ht).differentiableAt) (hL _ hext)
  refine ⟨(List.range (n * n)).map w0, fun c t => if h : t < n * n then fderiv ℝ (fun u : Fin (n * n) → ℝ => freeEntry n l (ext u) c) x0 (fun j => if ⟨t, h⟩ = j then 1 else 0) else 0,
    by rw [ofFn2_finVec, finVec_eq_map], by simp, ?_⟩
  intro z e D hz hD
  simp only [List.length_map, List.length_range] at hz hD ⊢
  have hz : ∀ t < n * n, z e t = w0 t := by
    intro t ht
    have := congrArg (fun l : List ℝ => l[t]?) hz
    simpa [ht] using this
  obtain ⟨q1, -⟩ := free_family (l := l) (w := z) (fun t ht => (hD t ht).differentiableAt) (hL _ hz)
  refine ⟨fun u c => freeEntry n l (z u) c, ?_, ?_, fun hs => contDiffAt_freeEntry hs (hL _ hz)⟩
  · filter_upwards [q1] with u hu
    simp only [unflat, Pattern.shape]
    have hacc := acc_psd_arr.mp (acc_unflat (.psd n lb dv fd) hw (finVec (n * n) (z u)) (by simp [flatLen, sq]))
    simp only [flattenFree, Val.asArr, bind, Except.bind]
    rw [PSD.flattenFree_ok]
    refine ⟨hacc, ?_⟩
    have hu' : IsChol n (fun i j => z u (i * n + j) - if i = j then l else 0) (cholR (flatMat n l (z u))) := by
      refine ⟨hu.1, hu.2.1, fun i j hi hj => ?_⟩
      rw [hu.2.2 i j hi hj, flatMat, if_pos (flat_lt hi (by omega))]
    rw [matrix_finVec, hl, packPosdef_eq hu']
    congr 2
    rw [eq_finVec, length_freeVec]
    rfl
  · intro c hc
    have hpi : HasFDerivAt (fun u => fun t : Fin (n * n) => z u t) (ContinuousLinearMap.pi fun t : Fin (n * n) => D t) e :=
      hasFDerivAt_pi.mpr fun t => hD t t.2
    have hx : (fun t : Fin (n * n) => z e t) = x0 := funext fun t => hz t t.2
    have hk := (k2 c hc).hasFDerivAt
    rw [← hx] at hk
    have hcomp := hk.comp e hpi
    refine (hcomp.congr_of_eventuallyEq (Filter.Eventually.of_forall fun u => ?_)).congr_fderiv ?_
    · have : flatMat n l (z u) = flatMat n l (ext fun t : Fin (n * n) => z u t) := by
        funext i j
        simp only [flatMat]
        congr 1
        split
        · next h => simp [ext, h]
        · rfl
      simp only [Function.comp_apply, freeEntry, this]
    · apply ContinuousLinearMap.ext
      intro d
      simp only [ContinuousLinearMap.comp_apply, sum_apply, smul_apply, smul_eq_mul]
      have := LinearMap.pi_apply_eq_sum_univ
        (fderiv ℝ (fun u : Fin (n * n) → ℝ => freeEntry n l (ext u) c) x0).toLinearMap (fun t => D t d)
      simp only [ContinuousLinearMap.coe_coe, smul_eq_mul] at this
      rw [hx, Finset.sum_range]
      refine this.trans ?_
      exact Finset.sum_congr rfl fun t _ => by simp [mul_comm]

theorem finiteLb_of_noPSD (p : Pattern) : NoPSD p → p.FiniteLb := by
  induction p using Pattern.ind (Q := fun es => NoPSDEs es → FiniteLbEs es) with
  | hnum => intro _; simp [FiniteLb]
  | hsim => intro _; simp [FiniteLb]
  | hpsd => intro h; simp [NoPSD] at h
  | harr s b fd ih => intro h; exact ih h
  | hdict es l fd ih => intro h; exact ih h
  | hnil h => trivial
  | hcons k p r ihp ihr h => exact ⟨ihp h.1, ihr h.2⟩

theorem freeing_tree (ad : AutogradJacobian) (p : Pattern) (hw : p.WF) (hn : NoPSD p) (he : NoEmptyBlocks p) :
    ∀ v : Val Flt, Interior p v → ∃ (r : List ℝ) (M : Nat → Nat → ℝ), p.flat v = r.map .fin ∧ r.length = p.flatLen false ∧
      freeingJacobian ad p v = .ok (toMat (p.flatLen true, p.flatLen false, M)) ∧
      DiffAt E (fun l => p.flattenFree (p.unflat l) (some false)) r (p.flatLen true) M := by
  intro v hI
  obtain ⟨r, M, h1, h2, h3, h4⟩ := freeing_tree_of (E := E) ad (fun _ _ _ _ _ => freeing_psd) p hw (finiteLb_of_noPSD p hn) he v hI
  exact ⟨r, M, h1, h2, h3 hn, h4⟩

end Jac

end Paragami
