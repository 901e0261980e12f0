import Verif.Proofs.JacobianTree
import Verif.Proofs.User
import Mathlib.Analysis.Calculus.FDeriv.Pi

/-! # Jacobians of the maps from free vectors to values -/

set_option linter.unusedSimpArgs false
set_option linter.unusedSectionVars false
set_option linter.unusedVariables false

namespace Paragami
open NDArray Pattern Topology Spec ContDiff

namespace Jac

/-! ### From `DiffAt` to the definition of a Jacobian -/

/-- A real vector as a function on all indices. -/
def ext {n : Nat} (y : Fin n → ℝ) (j : Nat) : ℝ := if h : j < n then y ⟨j, h⟩ else 0

theorem ofFn_ext {n : Nat} (y : Fin n → ℝ) : (List.ofFn fun j => Flt.fin (y j)) = finVec n (ext y) := by
  apply List.ext_getElem
  · simp
  · intro j h1 h2
    have : j < n := by simpa using h1
    simp [finVec, ext, this]

theorem ofFn_point {n : Nat} {r : List ℝ} (hr : r.length = n) :
    (List.ofFn fun j : Fin n => Flt.fin (r.getD j 0)) = r.map .fin := by
  rw [eq_finVec, hr, ofFn_ext (fun j : Fin n => r.getD j 0)]
  exact finVec_congr fun j hj => by simp [ext, hj]

theorem hasFDerivAt_ext {n : Nat} {x : Fin n → ℝ} {j : Nat} (hj : j < n) :
    HasFDerivAt (fun u : Fin n → ℝ => ext u j) (ContinuousLinearMap.proj (R := ℝ) (φ := fun _ : Fin n => ℝ) ⟨j, hj⟩) x := by
  have : (fun u : Fin n → ℝ => ext u j) = fun u => u ⟨j, hj⟩ := by funext u; simp [ext, hj]
  rw [this]
  exact (ContinuousLinearMap.proj (R := ℝ) (φ := fun _ : Fin n => ℝ) ⟨j, hj⟩).hasFDerivAt

theorem point_ext {n : Nat} {r : List ℝ} (hr : r.length = n) :
    (List.range r.length).map (ext fun j : Fin n => r.getD j 0) = r := by
  apply List.ext_getElem
  · simp
  · intro j h1 h2
    have : j < n := by omega
    simp [ext, this, h2]

/-- A real matrix from its entries. -/
def mat (m n : Nat) (M : Nat → Nat → ℝ) : Matrix (Fin m) (Fin n) ℝ := Matrix.of fun i j => M i j

theorem DiffAt.hasJacobian {g : List Flt → Except Err (NDArray Flt)} {F : NDArray Flt → Except Err (NDArray Flt)}
    {n m : Nat} {r : List ℝ} {M : Nat → Nat → ℝ} (hr : r.length = n) (h : DiffAt (Fin n → ℝ) g r m M)
    (hF : ∀ (t : List ℝ) y, t.length = n → y.length = m → g (t.map .fin) = .ok (vec y) → F (vec (t.map .fin)) = .ok (vec y)) :
    HasJacobian F m (fun j : Fin n => r.getD j 0) (toMat (m, n, M)) := by
  have hL : ∀ j, ∃ L : (Fin n → ℝ) →L[ℝ] ℝ, ∀ hj : j < n, L = ContinuousLinearMap.proj (R := ℝ) (φ := fun _ : Fin n => ℝ) ⟨j, hj⟩ := by
    intro j
    by_cases hj : j < n
    · exact ⟨ContinuousLinearMap.proj (R := ℝ) (φ := fun _ : Fin n => ℝ) ⟨j, hj⟩, fun _ => rfl⟩
    · exact ⟨0, fun h => absurd h hj⟩
  choose L hL using hL
  obtain ⟨f, h1, h2, -⟩ := h ext (fun j : Fin n => r.getD j 0) L (point_ext hr)
    (fun j hj => by rw [hL j (by omega)]; exact hasFDerivAt_ext (by omega))
  refine ⟨fun u i => f u i, mat m n M, ?_, ?_, ?_⟩
  · filter_upwards [h1] with u hu
    rw [hr] at hu
    rw [finVec_eq_map] at hu
    have := hF _ _ (by simp) (by simp) hu
    rw [← finVec_eq_map, ← ofFn_ext] at this
    rw [this, ofFn_ext (fun i : Fin m => f u i)]
    congr 2
    exact finVec_congr fun j hj => by simp [ext, hj]
  · rw [hasFDerivAt_pi']
    intro i
    refine (h2 i i.2).congr_fderiv ?_
    apply ContinuousLinearMap.ext
    intro w
    simp only [ContinuousLinearMap.comp_apply, ContinuousLinearMap.proj_apply, LinearMap.coe_toContinuousLinearMap',
      Matrix.mulVecLin_apply, Matrix.mulVec, dotProduct, mat, Matrix.of_apply, sum_apply, smul_apply,
      smul_eq_mul, hr]
    rw [Finset.sum_range]
    exact Finset.sum_congr rfl fun j _ => by rw [hL j j.2]; simp
  · exact matData_of m n M

/-! ### Positive definite matrices -/

variable {E : Type} [NormedAddCommGroup E] [NormedSpace ℝ E]

theorem DiffAt.mono_fin {g g' : List Flt → Except Err (NDArray Flt)} {r : List ℝ} {m : Nat} {M : Nat → Nat → ℝ}
    (h : DiffAt E g r m M)
    (hg : ∀ (t : List ℝ) y, t.length = r.length → y.length = m → g (t.map .fin) = .ok (vec y) → g' (t.map .fin) = .ok (vec y)) :
    DiffAt E g' r m M := by
  intro z e L hz hL
  obtain ⟨f, h1, h2⟩ := h z e L hz hL
  refine ⟨f, h1.mono fun u hu => ?_, h2⟩
  rw [finVec_eq_map] at hu ⊢
  exact hg _ _ (by simp) (by simp) hu

/-- Derivative of an entry of the free Cholesky factor with respect to a free parameter. -/
noncomputable def dFactor (r : List ℝ) (i k c : Nat) : ℝ :=
  if k < i then (if c = symIndex i k then 1 else 0)
  else if i = k then (if c = symIndex i i then Real.exp (r.getD (symIndex i i) 0) else 0) else 0

/-- Derivative of an entry of the matrix with respect to a free parameter. -/
noncomputable def dMat (n : Nat) (r : List ℝ) (t c : Nat) : ℝ :=
  ∑ k ∈ Finset.range n, (freeFactor r (t / n) k * dFactor r (t % n) k c + freeFactor r (t % n) k * dFactor r (t / n) k c)

theorem sum_ite_smul {n a : Nat} (ha : a < n) (x : ℝ) (L : Nat → E →L[ℝ] ℝ) :
    ∑ c ∈ Finset.range n, (if c = a then x else 0) • L c = x • L a := by
  rw [Finset.sum_eq_single a]
  · simp
  · intro c _ hc; simp [hc]
  · intro h; exact absurd (Finset.mem_range.mpr ha) h

theorem hasFDerivAt_freeFactor {n : Nat} {z : E → Nat → ℝ} {e : E} {L : Nat → E →L[ℝ] ℝ}
    (hL : ∀ j < tri n, HasFDerivAt (fun u => z u j) (L j) e) {i : Nat} (hi : i < n) (k : Nat) :
    HasFDerivAt (fun u => freeFactor ((List.range (tri n)).map (z u)) i k)
      (∑ c ∈ Finset.range (tri n), dFactor ((List.range (tri n)).map (z e)) i k c • L c) e := by
  have hg : ∀ k ≤ i, ∀ u, ((List.range (tri n)).map (z u)).getD (symIndex i k) 0 = z u (symIndex i k) := by
    intro k hk u
    have := symIndex_lt hi hk
    simp [this]
  unfold freeFactor dFactor
  by_cases h1 : k < i
  · simp only [h1, if_true, hg k h1.le]
    rw [sum_ite_smul (symIndex_lt hi h1.le), one_smul]
    exact hL _ (symIndex_lt hi h1.le)
  · by_cases h2 : i = k
    · subst h2
      simp only [h1, if_true, if_false, hg i le_rfl]
      rw [sum_ite_smul (symIndex_lt hi le_rfl)]
      exact (hL _ (symIndex_lt hi le_rfl)).exp
    · simp only [h1, h2, if_false, zero_smul, Finset.sum_const_zero]
      exact hasFDerivAt_const _ _

theorem contDiffAt_freeFactor {n : Nat} {z : E → Nat → ℝ} {e : E} (hs : ∀ j < tri n, ContDiffAt ℝ ω (fun u => z u j) e)
    {i : Nat} (hi : i < n) (k : Nat) : ContDiffAt ℝ ω (fun u => freeFactor ((List.range (tri n)).map (z u)) i k) e := by
  have hg : ∀ k ≤ i, ∀ u, ((List.range (tri n)).map (z u)).getD (symIndex i k) 0 = z u (symIndex i k) := by
    intro k hk u
    have := symIndex_lt hi hk
    simp [this]
  unfold freeFactor
  by_cases h1 : k < i
  · simp only [h1, if_true, hg k h1.le]
    exact hs _ (symIndex_lt hi h1.le)
  · by_cases h2 : i = k
    · subst h2
      simp only [h1, if_true, if_false, hg i le_rfl]
      exact (hs _ (symIndex_lt hi le_rfl)).exp
    · simp only [h1, h2, if_false]
      exact contDiffAt_const

theorem ofFn2_finVec (n : Nat) (f : Nat → Nat → ℝ) :
    (ofFn2 n n fun i j => Flt.fin (f i j)).data = finVec (n * n) fun t => f (t / n) (t % n) := by
  apply List.ext_getElem
  · simp [length_ofFn2]
  · intro t h1 h2
    have ht : t < n * n := by simpa using h2
    have hn : 0 < n := by by_contra h; simp at h; simp [h] at ht
    have := entry_ofFn2 n n (fun i j => Flt.fin (f i j)) (Nat.div_lt_of_lt_mul ht) (Nat.mod_lt t hn)
    rw [entry, Nat.div_add_mod' t n] at this
    simp only [List.getD, List.getElem?_eq_getElem h1, Option.getD_some] at this
    rw [this]
    simp [finVec]

theorem diff_psd {n lb dv fd} {l : ℝ} (hl : lb.toFlt = .fin l) {r : List ℝ} (hr : r.length = tri n) :
    DiffAt E (fun x => (Pattern.psd n lb dv fd).foldFree (vec x) >>= fun v => .ok (vec ((Pattern.psd n lb dv fd).flat v)))
      r (n * n) (dMat n r) := by
  intro z e L hz hL
  rw [hr] at hz hL
  refine ⟨fun u t => freeMat n l ((List.range (tri n)).map (z u)) (t / n) (t % n), ?_, ?_, fun hs t ht => ?_⟩
  · refine Filter.Eventually.of_forall fun u => ?_
    rw [hr, finVec_eq_map]
    have hlen : ((List.range (tri n)).map (z u)).length = tri n := by simp
    simp only [foldFree, bind, Except.bind]
    rw [PSD.foldFree_ok.mpr ⟨by simp, by simp, by rw [atleast1d_of_ne (by simp [vec]), hl, unpackPosdef_fin hlen]⟩]
    simp only [pure, Except.pure]
    rw [flat_arr _ _ rfl, ofFn2_finVec]
  · intro t ht
    have hn : 0 < n := by by_contra h; simp at h; simp [h] at ht
    have hi : t / n < n := Nat.div_lt_of_lt_mul ht
    have hj : t % n < n := Nat.mod_lt t hn
    simp only [freeMat]
    have hs := HasFDerivAt.fun_sum (u := Finset.range n) fun k _ =>
      (hasFDerivAt_freeFactor hL hi k).fun_mul (hasFDerivAt_freeFactor hL hj k)
    refine (hs.add_const _).congr_fderiv ?_
    simp only [hz, hr]
    simp only [Finset.smul_sum, ← Finset.sum_add_distrib, smul_smul, ← add_smul]
    rw [Finset.sum_comm]
    refine Finset.sum_congr rfl fun c _ => ?_
    rw [dMat, Finset.sum_smul]
  · rw [hr] at hs
    have hn : 0 < n := by by_contra h; simp at h; simp [h] at ht
    simp only [freeMat]
    exact (ContDiffAt.sum fun k _ => (contDiffAt_freeFactor hs (Nat.div_lt_of_lt_mul ht) k).mul
      (contDiffAt_freeFactor hs (Nat.mod_lt t hn) k)).add contDiffAt_const

/-! ### The other leaves -/

/-- The map from free vectors to values, in flat form. -/
noncomputable def unfreeG (p : Pattern) (x : List Flt) : Except Err (NDArray Flt) :=
  p.foldFree (vec x) >>= fun v => .ok (vec (p.flat v))

theorem unfreeing_numeric {c s lb ub dv fd} (hw : (Pattern.numeric c s lb ub dv fd).WF) {a : NDArray Flt}
    (hI : Interior (.numeric c s lb ub dv fd) (.arr a)) :
    ∃ (r : List ℝ) (M : Nat → Nat → ℝ), r.length = s.prod ∧
      (∀ vv, (Pattern.numeric c s lb ub dv fd).flattenFree (.arr a) vv = .ok (vec (r.map .fin))) ∧
      Numeric.unfreeingJacobian lb.toFlt ub.toFlt a = toMat (s.prod, s.prod, M) ∧
      DiffAt E (unfreeG (.numeric c s lb ub dv fd)) r s.prod M := by
  obtain ⟨r, hr, h4, _⟩ := numeric_free_val hw hI
  have hd1 : a.data.map (unconstrain1 lb.toFlt ub.toFlt) = r.map .fin := by
    have := h4 none
    simp only [flattenFree, Val.asArr, bind, Except.bind] at this
    rw [Numeric.flattenFree_ok] at this
    exact (vec_inj.mp this.2).symm
  have hw0 := hw
  simp only [Pattern.WF] at hw
  obtain ⟨hs, _, _, h1, h2, h3⟩ := hw
  obtain ⟨φ, e1, e2⟩ := constrain1_deriv h1 h2 h3
  choose d hd using e2
  refine ⟨r, fun i j => if i = j then d (r.getD i 0) else 0, hr, h4, ?_, ?_⟩
  · have : (r.map Flt.fin).map (constrainJac1 lb.toFlt ub.toFlt) = (r.map d).map .fin := by
      simp only [List.map_map]
      apply List.map_congr_left
      intro t _
      simp [(hd t).1]
    rw [Numeric.unfreeingJacobian, hd1, this, diagMat_fin]
    simp only [toMat, List.length_map, hr]
    apply ofFn2_congr
    intro i hi j hj
    by_cases h : i = j
    · have hj' : j < r.length := by omega
      simp [h, hj']
    · simp [h]
  · have := DiffAt.map (E := E) (F := constrain1 lb.toFlt ub.toFlt) (r := r) (d := fun i => d (r.getD i 0))
      fun j hj => ⟨φ, Filter.Eventually.of_forall e1, (hd _).2.1, (hd _).2.2.2⟩
    rw [hr] at this
    refine this.mono fun l y hl _ hg => ?_
    rw [← hg, unfreeG]
    simp only [foldFree]
    rw [Numeric.foldFree_ok.mpr ⟨by simp, by simp [hl, hr], rfl⟩]
    simp only [bind, Except.bind, pure, Except.pure]
    rw [flat_arr _ _ rfl, vec_data]

theorem unfreeing_simplex {k s dv fd} (hw : (Pattern.simplex k s dv fd).WF) (hs : 0 < s.prod) {a : NDArray Flt}
    (hI : Interior (.simplex k s dv fd) (.arr a)) :
    ∃ (r : List ℝ) (M : Nat → Nat → ℝ), r.length = (s ++ [k - 1]).prod ∧
      (∀ vv, (Pattern.simplex k s dv fd).flattenFree (.arr a) vv = .ok (vec (r.map .fin))) ∧
      Simplex.jacobian Simplex.constrainJacobian s a = .ok (toMat ((s ++ [k]).prod, (s ++ [k - 1]).prod, M)) ∧
      DiffAt E (unfreeG (.simplex k s dv fd)) r (s ++ [k]).prod M := by
  obtain ⟨r, hr, h4, h5⟩ := simplex_free_val hw hI
  obtain ⟨q, hq⟩ := simplex_rows hI
  have hw0 := hw
  simp only [Pattern.WF] at hw
  simp only [Interior] at hI
  obtain ⟨hwf, hsh, _⟩ := hI
  have hlen : a.data.length = s.prod * k := by rw [hwf, hsh, List.prod_append]; simp
  obtain ⟨n, rfl⟩ : ∃ n, k = n + 1 := ⟨k - 1, by omega⟩
  have hp1 : (s ++ [n + 1 - 1]).prod = s.prod * n := by simp
  have hp2 : (s ++ [n + 1]).prod = s.prod * (n + 1) := by simp
  rw [hp1] at hr
  -- the rows
  have hrow : ∀ i < s.prod, constrainSimplexRow ((chunk n r i).map .fin) = (q i).map .fin := by
    intro i hi
    simp only [foldFree] at h5
    rw [Simplex.foldFree_ok.mpr ⟨by simp [vec, NDArray.len, hr], by simp [hr], rfl⟩] at h5
    simp only [bind, Except.bind, pure, Except.pure, Except.ok.injEq, Val.arr.injEq] at h5
    rw [← (hq i hi).2.1, ← h5]
    simp only [vec_data, Nat.add_sub_cancel, map_fin_chunk]
    rw [chunk_of_flatMap (k := n + 1) (n := s.prod) (fun i => constrainSimplexRow ((chunk n r i).map .fin)) ?_ hi]
    intro i hi
    rw [constrainSimplexRow_fin]
    simp [softmax, length_chunk hr hi]
  have hcl : ∀ i < s.prod, (chunk n r i).length = n := fun i hi => length_chunk hr hi
  set M : Nat → Nat → Nat → ℝ := fun c i j => -1 * ((q c).getD i 0 * (q c).getD (j + 1) 0) + if i = j + 1 then (q c).getD i 0 else 0 with hM
  refine ⟨r, blk ((List.range s.prod).map fun c => (n + 1, n, M c)), by rw [hr, hp1], h4, ?_, ?_⟩
  · rw [simplexItems_eq (by omega) hsh hwf]
    have : ((List.range s.prod).map fun i => Simplex.constrainJacobian (chunk (n + 1) a.data i)) =
        ((List.range s.prod).map fun c => (n + 1, n, M c)).map toMat := by
      rw [List.map_map]
      apply List.map_congr_left
      intro i hi
      have hi := List.mem_range.mp hi
      rw [(hq i hi).2.1, constrainJacobian_fin (hq i hi).1]
      rfl
    have hne : s.prod ≠ 0 := by omega
    rw [this, blockDiag_toMat (by simpa using hne), (sum_replicate_fst _ _ _ M).1, (sum_replicate_fst _ _ _ M).2, hp1, hp2]
  · have hd := DiffAt.catN (E := E) (g := fun l => .ok (vec (constrainSimplexRow l))) (m := n + 1) (n := n) (chunk n r) M
      (List.range s.prod) (fun c hc => ⟨hcl c (List.mem_range.mp hc),
        diff_constrainRow (hcl c (List.mem_range.mp hc)) (hrow c (List.mem_range.mp hc))⟩)
    rw [List.length_range, chunk_flatMap _ _ _ hr] at hd
    rw [hp2]
    refine hd.mono fun l y hl _ hg => ?_
    rw [hr] at hl
    obtain ⟨ys, g1, g2⟩ := catN_ok _ _ _ hl hg
    rw [unfreeG]
    simp only [foldFree]
    rw [Simplex.foldFree_ok.mpr ⟨by simp [vec, NDArray.len, hl], by simp [hl], rfl⟩]
    simp only [bind, Except.bind, pure, Except.pure]
    rw [flat_arr _ _ rfl, g2]
    simp only [vec_data, Nat.add_sub_cancel]
    congr 2
    apply List.flatMap_congr
    intro i hi
    have := g1 i (List.mem_range.mp hi)
    simp only [Except.ok.injEq] at this
    rw [← this, vec_data]

theorem foldFreeEs_shift (es : Entries) : ∀ (l : List Flt) (a b : Nat),
    foldFreeEs es (vec l) (a + b) = foldFreeEs es (vec (l.drop a)) b := by
  induction es using Entries.rec (motive_1 := fun _ => True) with
  | nil => intro l a b; simp [foldFreeEs]
  | cons k p r _ ih =>
    intro l a b
    simp only [foldFreeEs, slice, vec_data, List.drop_drop]
    rw [Nat.add_assoc, ih]
  | _ => trivial

/-! ### Trees -/

/-- A free fold followed by a flatten that is not free. -/
theorem unfreeingMap_of_unfreeG {p : Pattern} (hw : p.WF) (hf : p.FiniteLb) (hne : p.NoEmpty) {t : List ℝ} {y : List Flt}
    (ht : t.length = p.flatLen true) (h : unfreeG p (t.map .fin) = .ok (vec y)) :
    unfreeingMap p (vec (t.map .fin)) = .ok (vec y) := by
  obtain ⟨v, h1, h2, h3, _⟩ := free_vec p hw hf t ht
  simp only [unfreeG, h1, bind, Except.bind, Except.ok.injEq, vec_inj] at h
  simp only [unfreeingMap, fold_true, flatten_false, h1, bind, Except.bind]
  rw [flattenNF_eq p hw v none h3 hne (acc_of_interior p hw hf v none h2), h]

theorem unfreeing_psd {ad : AutogradJacobian} (had : AutogradSpec ad) {n lb dv fd} (hw : (Pattern.psd n lb dv fd).WF)
    (hf : (Pattern.psd n lb dv fd).FiniteLb) {v : Val Flt} {r : List ℝ} (hr : r.length = tri n)
    (hv : (Pattern.psd n lb dv fd).flattenFree v none = .ok (vec (r.map .fin))) :
    unfreeingJacobian ad (.psd n lb dv fd) v = .ok (toMat (n * n, tri n, dMat n r)) := by
  obtain ⟨l, hl⟩ := Flt.isFin_iff.mp hf
  have hfl : (Pattern.psd n lb dv fd).flatLen true = tri n := by simp [flatLen, tri]
  have hd := diff_psd (E := Fin ((Pattern.psd n lb dv fd).flatLen true) → ℝ) (dv := dv) (fd := fd) hl hr
  have := DiffAt.hasJacobian (hr.trans hfl.symm) hd (F := unfreeingMap (.psd n lb dv fd)) fun t y ht _ hg =>
    unfreeingMap_of_unfreeG hw hf (by simp [NoEmpty]) ht hg
  have h2 := had n lb dv fd _ _ _ hw hf this
  rw [ofFn_point (hr.trans hfl.symm)] at h2
  have h3 : (Pattern.psd n lb dv fd).unfreeingTransform = unfreeingMap (.psd n lb dv fd) := rfl
  simp only [unfreeingJacobian, flatten_true, hv, bind, Except.bind, h3, h2, hfl]

theorem unfreeing_tree {ad : AutogradJacobian} (had : AutogradSpec ad) (p : Pattern) (hw : p.WF) (hf : p.FiniteLb)
    (he : NoEmptyBlocks p) :
    ∀ v : Val Flt, Interior p v → ∃ (r : List ℝ) (M : Nat → Nat → ℝ), r.length = p.flatLen true ∧
      (∀ vv, p.flattenFree v vv = .ok (vec (r.map .fin))) ∧
      unfreeingJacobian ad p v = .ok (toMat (p.flatLen false, p.flatLen true, M)) ∧
      DiffAt E (unfreeG p) r (p.flatLen false) M := by
  revert hw hf he
  induction p using Pattern.ind
    (Q := fun es => WFEs es → FiniteLbEs es → NoEmptyBlocksEs es → es.keys.Nodup →
      ∀ vs : List (String × Val Flt), InteriorEs es vs →
      ∃ (r : List ℝ) (bl : List (Nat × Nat × (Nat → Nat → ℝ))), r.length = flatLenEs es true ∧
        (∀ vv, ∃ parts, flattenFreeEs es vs vv = .ok parts ∧ (es ≠ .nil → parts ≠ []) ∧ parts.flatMap (·.data) = r.map .fin) ∧
        unfreeingJacobianEs ad es vs = .ok (bl.map toMat) ∧ (es ≠ .nil → bl ≠ []) ∧
        (bl.map (·.1)).sum = flatLenEs es false ∧ (bl.map (·.2.1)).sum = flatLenEs es true ∧
        DiffAt E (fun l => foldFreeEs es (vec l) 0 >>= fun vs => .ok (vec (flatEs es vs))) r (flatLenEs es false) (blk bl)) with
  | hnum c s lb ub dv fd =>
    intro hw _ _ v hI
    cases v with
    | dict d => simp [Interior] at hI
    | arr a =>
      obtain ⟨r, M, h1, h2, h3, h4⟩ := unfreeing_numeric (E := E) hw hI
      refine ⟨r, M, by simpa [flatLen] using h1, h2, ?_, by simpa only [flatLen] using h4⟩
      simp only [unfreeingJacobian, Val.asArr, bind, Except.bind, h3, flatLen]; rfl
  | hsim k s dv fd =>
    intro hw _ he v hI
    cases v with
    | dict d => simp [Interior] at hI
    | arr a =>
      obtain ⟨r, M, h1, h2, h3, h4⟩ := unfreeing_simplex (E := E) hw he hI
      refine ⟨r, M, by rw [h1]; simp [flatLen], h2, ?_, by simpa only [flatLen, if_false, Bool.false_eq_true] using h4⟩
      simp only [unfreeingJacobian, Val.asArr, bind, Except.bind, h3, flatLen]; rfl
  | hpsd n lb dv fd =>
    intro hw hf _ v hI
    cases v with
    | dict d => simp [Interior] at hI
    | arr a =>
      obtain ⟨r, h1, h2, _⟩ := psd_free_val hf hw hI
      have hfl : (Pattern.psd n lb dv fd).flatLen true = tri n := by simp [flatLen, tri]
      have hfl' : (Pattern.psd n lb dv fd).flatLen false = n * n := by simp [flatLen, sq]
      obtain ⟨l, hl⟩ := Flt.isFin_iff.mp hf
      refine ⟨r, dMat n r, by rw [h1, hfl], h2, ?_, ?_⟩
      · rw [unfreeing_psd had hw hf h1 (h2 none), hfl, hfl']
      · rw [hfl']; exact diff_psd hl h1
  | harr s b fd ih =>
    intro hw hf he v hI
    cases v with
    | dict d => simp [Interior] at hI
    | arr a =>
    have hw0 := hw
    have hf0 := hf
    have hI0 := hI
    simp only [Pattern.WF] at hw
    simp only [FiniteLb] at hf
    simp only [NoEmptyBlocks] at he
    simp only [Interior] at hI
    obtain ⟨hwf, hsh, hb⟩ := hI
    have hlen : a.data.length = s.prod * b.shape.prod := by rw [hwf, hsh, List.prod_append]
    have hfl := flatLen_false hw.2.1 hw.2.2
    have hB : ∀ i, ∃ (r : List ℝ) (M : Nat → Nat → ℝ), i < s.prod → (r.length = b.flatLen true ∧
        (∀ vv, b.flattenFree (.arr ⟨b.shape, chunk b.shape.prod a.data i⟩) vv = .ok (vec (r.map .fin))) ∧
        unfreeingJacobian ad b (.arr ⟨b.shape, chunk b.shape.prod a.data i⟩) = .ok (toMat (b.flatLen false, b.flatLen true, M)) ∧
        DiffAt E (unfreeG b) r (b.flatLen false) M) := by
      intro i
      by_cases hi : i < s.prod
      · obtain ⟨r, M, h⟩ := ih hw.2.2 hf he.2 _ (hb i hi)
        exact ⟨r, M, fun _ => h⟩
      · exact ⟨[], fun _ _ => 0, fun h => absurd h hi⟩
    choose q M hq using hB
    have hql : ∀ i < s.prod, (q i).length = b.flatLen true := fun i hi => (hq i hi).1
    have hdl := length_flatMap_range q hql
    refine ⟨(List.range s.prod).flatMap q, blk ((List.range s.prod).map fun c => (b.flatLen false, b.flatLen true, M c)),
      by rw [hdl, flatLen], fun vv => ?_, ?_, ?_⟩
    · rw [flattenFree_array_unfold, requireValid_ok_iff.mpr (acc_of_interior _ hw0 hf0 _ vv hI0)]
      simp only [bind, Except.bind, Val.asArr]
      rw [flattenItems_eq hsh (g := fun i => (q i).map .fin) (fun i hi => (hq i hi).2.1 vv) he.1, List.map_flatMap]
    · simp only [unfreeingJacobian, Val.asArr, bind, Except.bind]
      rw [jacobianItems_eq hsh (g := fun i => toMat (b.flatLen false, b.flatLen true, M i)) fun i hi => (hq i hi).2.2.1]
      have : ((List.range s.prod).map fun i => toMat (b.flatLen false, b.flatLen true, M i)) =
          ((List.range s.prod).map fun c => (b.flatLen false, b.flatLen true, M c)).map toMat := by
        rw [List.map_map]; rfl
      have hne : s.prod ≠ 0 := by omega
      rw [this, blockDiag_toMat (by simpa using hne), (sum_replicate_fst _ _ _ M).1, (sum_replicate_fst _ _ _ M).2, flatLen, flatLen]
    · have hd := DiffAt.catN (E := E) q M (List.range s.prod) (fun c hc =>
        ⟨hql c (List.mem_range.mp hc), (hq c (List.mem_range.mp hc)).2.2.2⟩)
      rw [List.length_range] at hd
      rw [flatLen]
      refine hd.mono_fin fun t y hl _ hg => ?_
      rw [hdl] at hl
      obtain ⟨ys, g1, g2⟩ := catN_ok _ _ _ (by simpa using hl) hg
      rw [unfreeG, foldFree_array_unfold, checkFlat_vec (by simpa using hl)]
      simp only [bind, Except.bind]
      rw [foldItems_eq (g := fun i => (ys i).data) (bshape := b.shape)]
      · simp only [pure, Except.pure]
        rw [flat_arr _ _ rfl, g2]
      · intro i hi
        have hg := g1 i hi
        rw [map_fin_chunk] at hg
        obtain ⟨v, k1, _, _, k2, _⟩ := free_vec b hw.2.2 hf (chunk (b.flatLen true) t i) (length_chunk hl hi)
        obtain ⟨d, rfl, hd⟩ := k2 hw.2.1
        simp only [unfreeG, k1, bind, Except.bind, Except.ok.injEq] at hg
        rw [flat_arr _ _ hw.2.1] at hg
        rw [vec_data, map_fin_chunk, k1, ← hg]
        rfl
      · intro i hi
        have hg := g1 i hi
        rw [map_fin_chunk] at hg
        obtain ⟨v, k1, _, _, k2, _⟩ := free_vec b hw.2.2 hf (chunk (b.flatLen true) t i) (length_chunk hl hi)
        obtain ⟨d, rfl, hd⟩ := k2 hw.2.1
        simp only [unfreeG, k1, bind, Except.bind, Except.ok.injEq] at hg
        rw [flat_arr _ _ hw.2.1] at hg
        rw [← hg]
        exact hd
  | hdict es l fd ih =>
    intro hw hf he v hI
    cases v with
    | arr d => simp [Interior] at hI
    | dict vs =>
    have hw0 := hw
    have hf0 := hf
    have hI0 := hI
    simp only [Pattern.WF] at hw
    simp only [FiniteLb] at hf
    simp only [NoEmptyBlocks] at he
    simp only [Interior] at hI
    obtain ⟨r, bl, h1, h2, h3, h4, h5, h6, h7⟩ := ih hw.2 hf he.2 hw.1 vs hI
    refine ⟨r, blk bl, by rw [h1, flatLen], fun vv => ?_, ?_, ?_⟩
    · obtain ⟨parts, k1, k2, k3⟩ := h2 vv
      rw [flattenFree_dict_unfold, requireValid_ok_iff.mpr (acc_of_interior _ hw0 hf0 _ vv hI0)]
      simp only [bind, Except.bind, Val.asDict, k1, hstack]
      have := k2 he.1
      split
      · contradiction
      · rw [k3]
    · simp only [unfreeingJacobian, Val.asDict, bind, Except.bind, h3]
      rw [blockDiag_toMat (h4 he.1), h5, h6, flatLen, flatLen]
    · rw [flatLen]
      refine h7.mono fun l' y hl _ hg => ?_
      obtain ⟨ws, g1, g2⟩ := bind_ok hg
      rw [unfreeG, foldFree_dict_unfold, checkFlat_vec (by rw [hl, h1])]
      simp only [bind, Except.bind, g1, pure, Except.pure]
      rw [flat]
      exact g2
  | hnil hw hf he hk vs hI =>
    refine ⟨[], [], by simp [flatLenEs], fun vv => ⟨[], by simp [flattenFreeEs], by simp, by simp⟩, by simp [unfreeingJacobianEs],
      by simp, by simp [flatLenEs], by simp [flatLenEs], ?_⟩
    refine (DiffAt.nil _).mono fun l y hl _ hg => ?_
    simpa [foldFreeEs, flatEs, bind, Except.bind] using hg
  | hcons k p rest ihp ihr hw hf he hk vs hI =>
    simp only [WFEs] at hw
    simp only [FiniteLbEs] at hf
    simp only [NoEmptyBlocksEs] at he
    simp only [InteriorEs] at hI
    obtain ⟨hk1, hk2⟩ := nodup_keys_cons hk
    obtain ⟨⟨v, hl, hv⟩, hI⟩ := hI
    obtain ⟨r1, M1, a1, a2, a3, a4⟩ := ihp hw.1 hf.1 he.1 v hv
    obtain ⟨r2, bl, b1, b2, b3, _, b5, b6, b7⟩ := ihr hw.2.2 hf.2 he.2 hk2 vs hI
    refine ⟨r1 ++ r2, (p.flatLen false, p.flatLen true, M1) :: bl, by simp [a1, b1, flatLenEs], fun vv => ?_,
      ?_, by simp, by simp [b5, flatLenEs], by simp [b6, flatLenEs], ?_⟩
    · obtain ⟨parts, k1, _, k3⟩ := b2 vv
      refine ⟨vec (r1.map .fin) :: parts, ?_, by simp, by simp [k3]⟩
      simp only [flattenFreeEs, hl, a2 vv, k1, bind, Except.bind]; rfl
    · simp only [unfreeingJacobianEs, hl, a3, b3, bind, Except.bind]; rfl
    · have hd := DiffAt.cat a4 b7
      rw [a1] at hd
      rw [flatLenEs]
      refine hd.mono fun l y hl' _ hg => ?_
      simp only [catG] at hg
      obtain ⟨x1, g1, hg⟩ := bind_ok hg
      obtain ⟨x2, g2, hg⟩ := bind_ok hg
      obtain ⟨w, g3, g4⟩ := bind_ok g1
      obtain ⟨ws, g5, g6⟩ := bind_ok g2
      have hsh := foldFreeEs_shift rest l (p.flatLen true) 0
      simp only [foldFreeEs, slice, vec_data, List.drop_zero, Nat.zero_add, g3, bind, Except.bind]
      rw [Nat.add_zero] at hsh
      rw [hsh, g5]
      simp only [pure, Except.pure, Except.ok.injEq] at hg g4 g6 ⊢
      rw [← hg, ← g4, ← g6]
      simp [flatEs, flatEs_cons_irrel hk1]

end Jac

end Paragami
