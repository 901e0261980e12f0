import Verif.Proofs.Canon
import Verif.Proofs.NumericFree
import Verif.Proofs.SimplexFree
import Verif.Proofs.Cholesky
import Verif.Spec.Interior

/-! # Free folding and flattening for trees -/

set_option linter.unusedSimpArgs false

namespace Paragami

open NDArray Spec

theorem block_eq_chunk {α : Type _} (k : Nat) (l : List α) (i : Nat) : block k l i = chunk k l i := rfl

/-! ### matrices as lists -/

theorem flatMap_range_eq_ofFn {α : Type _} (n : Nat) (f : Nat → List α) :
    (List.range n).flatMap f = (List.ofFn fun i : Fin n => f i).flatten := by
  rw [List.flatMap_def]
  congr 1
  apply List.ext_getElem <;> simp

theorem map_range_eq_ofFn {α : Type _} (n : Nat) (f : Nat → α) :
    (List.range n).map f = List.ofFn fun i : Fin n => f i := by
  apply List.ext_getElem <;> simp

theorem matData_of (n m : Nat) (M : Nat → Nat → ℝ) :
    ofFn2 n m (fun i j => Flt.fin (M i j)) = ⟨[n, m], matData (Matrix.of fun (i : Fin n) (j : Fin m) => M i j)⟩ := by
  simp only [ofFn2, matData, flatMap_range_eq_ofFn, map_range_eq_ofFn, Matrix.of_apply]

/-- A matrix as a function on naturals. -/
def natMat {n m : Nat} (M : Matrix (Fin n) (Fin m) ℝ) (i j : Nat) : ℝ :=
  if h : i < n ∧ j < m then M ⟨i, h.1⟩ ⟨j, h.2⟩ else 0

theorem of_natMat {n m : Nat} (M : Matrix (Fin n) (Fin m) ℝ) :
    (Matrix.of fun (i : Fin n) (j : Fin m) => natMat M i j) = M := by
  ext i j; simp [natMat]

theorem matData_eq {n m : Nat} (M : Matrix (Fin n) (Fin m) ℝ) :
    (⟨[n, m], matData M⟩ : NDArray Flt) = ofFn2 n m (fun i j => Flt.fin (natMat M i j)) := by
  rw [matData_of, of_natMat]

theorem sub_smul_one {n : Nat} (M : Nat → Nat → ℝ) (c : ℝ) :
    (Matrix.of fun (i j : Fin n) => M i j) - c • (1 : Matrix (Fin n) (Fin n) ℝ) =
      Matrix.of fun (i j : Fin n) => (M i j - if (i : Nat) = j then c else 0) := by
  ext i j
  simp only [Matrix.sub_apply, Matrix.of_apply, Matrix.smul_apply, Matrix.one_apply, Fin.ext_iff, smul_eq_mul, mul_ite,
    mul_one, mul_zero]

/-- Interior matrices, in terms of Cholesky factors. -/
theorem interior_psd {n lb dv fd} {a : NDArray Flt} :
    Interior (.psd n lb dv fd) (.arr a) ↔ ∃ M L : Nat → Nat → ℝ, a = ofFn2 n n (fun i j => .fin (M i j)) ∧
      (∀ i j, i < n → j < n → M i j = M j i) ∧ IsChol n (fun i j => M i j - if i = j then lb.toFlt.toReal else 0) L := by
  simp only [Interior]
  constructor
  · rintro ⟨M, rfl, hM⟩
    rw [← of_natMat M, sub_smul_one,
      ← pd_iff_posDef n (fun i j => natMat M i j - if i = j then lb.toFlt.toReal else 0)] at hM
    obtain ⟨L, hL⟩ := hM.isChol
    refine ⟨natMat M, L, matData_eq M, fun i j hi hj => ?_, hL⟩
    have := hM.1 i j hi hj
    simp only [eq_comm (a := j) (b := i)] at this
    linarith
  · rintro ⟨M, L, rfl, hs, hL⟩
    refine ⟨Matrix.of fun (i j : Fin n) => M i j, matData_of n n M, ?_⟩
    rw [sub_smul_one, ← pd_iff_posDef n (fun i j => M i j - if i = j then lb.toFlt.toReal else 0)]
    refine hL.pd fun i j hi hj => ?_
    rw [hs i j hi hj]
    simp only [eq_comm (a := j) (b := i)]

namespace Pattern

/-- Interior values pass validation, whatever the settings. -/
theorem acc_of_interior (p : Pattern) (hw : p.WF) (hf : p.FiniteLb) :
    ∀ (v : Val Flt) (vv), Interior p v → Acc p v vv := by
  revert hw hf
  induction p using Pattern.ind
    (Q := fun es => WFEs es → FiniteLbEs es → ∀ (vs : List (String × Val Flt)) (vv), InteriorEs es vs → AccEs es vs vv) with
  | hnum c s lb ub dv fd =>
    intro hw _ v vv h
    cases v with
    | dict d => simp [Interior] at h
    | arr a =>
      simp only [Interior] at h
      rw [acc_numeric]
      refine ⟨a, rfl, h.2.1, fun _ x hx => ?_⟩
      obtain ⟨h1, h2⟩ := h.2.2 x hx
      generalize lb.toFlt = l at *
      generalize ub.toFlt = u at *
      simp only [Elem.toFlt, id, Flt.gt]
      cases x <;> cases l <;> cases u <;> simp_all [Flt.lt] <;> (try constructor) <;> linarith
  | hsim k s dv fd =>
    intro hw _ v vv h
    cases v with
    | dict d => simp [Interior] at h
    | arr a =>
      simp only [Interior] at h
      obtain ⟨hwf, hs, hr⟩ := h
      rw [acc_simplex]
      have hlen : a.data.length = s.prod * k := by rw [hwf, hs, List.prod_append]; simp
      refine ⟨a, rfl, hs, fun _ => ⟨fun x hx => ?_, fun i hi => ?_⟩⟩
      · rw [← chunk_flatMap _ _ _ hlen, List.mem_flatMap] at hx
        obtain ⟨i, hi, hx⟩ := hx
        obtain ⟨r, hr1, hr2, _⟩ := hr i (List.mem_range.mp hi)
        rw [← block_eq_chunk, hr1, List.mem_map] at hx
        obtain ⟨y, hy, rfl⟩ := hx
        simp [Elem.toFlt, (hr2 y hy).le]
      · obtain ⟨r, hr1, _, hr3⟩ := hr i hi
        rw [← block_eq_chunk, hr1]
        have : (r.map Flt.fin).map (Elem.toFlt : Flt → Flt) = r.map Flt.fin := by simp [Elem.toFlt]
        rw [this, Flt.sum_fin, hr3]
        simp only [Flt.ofNat_fin, Nat.cast_one, Flt.sub_fin, Flt.abs_fin, Flt.gt, Flt.lt_fin]
        norm_num
  | hpsd n lb dv fd =>
    intro hw hf v vv h
    cases v with
    | dict d => simp [Interior] at h
    | arr a =>
      rw [interior_psd] at h
      obtain ⟨M, L, rfl, hs, hL⟩ := h
      simp only [FiniteLb] at hf
      obtain ⟨l, hl⟩ := Flt.isFin_iff.mp hf
      rw [acc_psd]
      refine ⟨_, rfl, rfl, fun _ => ?_⟩
      have e : (ofFn2 n n fun i j => Flt.fin (M i j)).data.map (Elem.toFlt : Flt → Flt) =
        (ofFn2 n n fun i j => Flt.fin (M i j)).data := by
        show List.map id _ = _
        simp
      rw [e]
      refine ⟨fun i hi => ?_, fun i hi j hj => ?_⟩
      · rw [entry_ofFn2 n n _ hi hi, hl]
        simp only [Flt.lt_fin, decide_eq_false_iff_not, not_lt]
        have := hL.2.2 i i hi le_rfl
        simp only [if_true, hl, Flt.toReal_fin] at this
        have h0 : 0 ≤ ∑ k ∈ Finset.range n, L i k * L i k := Finset.sum_nonneg fun k _ => mul_self_nonneg _
        linarith
      · rw [entry_ofFn2 n n _ hi hj, entry_ofFn2 n n _ hj hi]
        simp [hs i j hi hj]
  | harr s b fd ih =>
    intro hw hf v vv h
    cases v with
    | dict d => simp [Interior] at h
    | arr a =>
      simp only [Interior] at h
      simp only [WF] at hw
      simp only [FiniteLb] at hf
      rw [acc_array]
      exact ⟨a, rfl, h.2.1, fun i hi => ih hw.2.2 hf _ vv (h.2.2 i hi)⟩
  | hdict es l fd ih =>
    intro hw hf v vv h
    cases v with
    | arr d => simp [Interior] at h
    | dict vs =>
      simp only [Interior] at h
      simp only [WF] at hw
      simp only [FiniteLb] at hf
      rw [acc_dict]
      exact ⟨vs, rfl, ih hw.2 hf vs vv h⟩
  | hnil => simp [AccEs]
  | hcons k p r ihp ihr hw hf vs vv h =>
    simp only [WFEs] at hw
    simp only [FiniteLbEs] at hf
    simp only [InteriorEs] at h
    obtain ⟨⟨v, h1, h2⟩, h3⟩ := h
    exact ⟨⟨v, h1, ihp hw.1 hf.1 v vv h2⟩, ihr hw.2.2 hf.2 vs vv h3⟩


/-! ### Leaves -/

theorem numeric_free_vec {c s lb ub dv fd} (hw : (Pattern.numeric c s lb ub dv fd).WF) {r : List ℝ}
    (hr : r.length = s.prod) : ∃ d : List Flt,
      (Pattern.numeric c s lb ub dv fd).foldFree (vec (r.map .fin)) = .ok (.arr ⟨s, d⟩) ∧ d.length = s.prod ∧
      Interior (.numeric c s lb ub dv fd) (.arr ⟨s, d⟩) ∧
      ∀ vv, (Pattern.numeric c s lb ub dv fd).flattenFree (.arr ⟨s, d⟩) vv = .ok (vec (r.map .fin)) := by
  have hw0 := hw
  simp only [WF] at hw
  obtain ⟨hs, _, _, h1, h2, h3⟩ := hw
  have hI : Interior (.numeric c s lb ub dv fd) (.arr ⟨s, (r.map Flt.fin).map (constrain1 lb.toFlt ub.toFlt)⟩) := by
    simp only [Interior, NDArray.WF, List.length_map, hr, true_and]
    refine ⟨by rw [atleast1d_of_ne (by exact hs)], ?_⟩
    simp only [List.mem_map]
    rintro x ⟨_, ⟨y, hy, rfl⟩, rfl⟩
    obtain ⟨z, hz, hz1, hz2, _⟩ := unconstrain_constrain h1 h2 h3 y
    rw [hz]; exact ⟨hz1, hz2⟩
  refine ⟨(r.map Flt.fin).map (constrain1 lb.toFlt ub.toFlt), ?_, by simp [hr], hI, fun vv => ?_⟩
  · simp only [foldFree]
    rw [Numeric.foldFree_ok.mpr ⟨by simp, by simpa using hr, rfl⟩]
    rfl
  · simp only [flattenFree, Val.asArr, bind, Except.bind]
    rw [Numeric.flattenFree_ok]
    refine ⟨acc_numeric_arr.mp (acc_of_interior _ hw0 (by simp [FiniteLb]) _ vv hI), ?_⟩
    simp only [vec_inj, List.map_map]
    apply List.map_congr_left
    intro y _
    obtain ⟨z, hz, _, _, hz4⟩ := unconstrain_constrain h1 h2 h3 y
    simp [hz, hz4]

theorem map_fin_chunk (k : Nat) (r : List ℝ) (i : Nat) : chunk k (r.map Flt.fin) i = (chunk k r i).map .fin := by
  rw [map_chunk]

theorem simplex_free_vec {k s dv fd} (hw : (Pattern.simplex k s dv fd).WF) {r : List ℝ}
    (hr : r.length = (s ++ [k - 1]).prod) : ∃ d : List Flt,
      (Pattern.simplex k s dv fd).foldFree (vec (r.map .fin)) = .ok (.arr ⟨s ++ [k], d⟩) ∧ d.length = (s ++ [k]).prod ∧
      Interior (.simplex k s dv fd) (.arr ⟨s ++ [k], d⟩) ∧
      ∀ vv, (Pattern.simplex k s dv fd).flattenFree (.arr ⟨s ++ [k], d⟩) vv = .ok (vec (r.map .fin)) := by
  simp only [WF] at hw
  have hr' : r.length = s.prod * (k - 1) := by rw [hr, List.prod_append]; simp
  set g : Nat → List Flt := fun i => (softmax (0 :: chunk (k - 1) r i)).map .fin with hg
  have hgl : ∀ i < s.prod, (g i).length = k := by
    intro i hi
    simp only [hg, List.length_map, softmax, List.length_cons, length_chunk hr' hi]
    omega
  have hdl := length_flatMap_range g hgl
  have hI : Interior (.simplex k s dv fd) (.arr ⟨s ++ [k], (List.range s.prod).flatMap g⟩) := by
    refine ⟨?_, rfl, fun i hi => ?_⟩
    · simp only [NDArray.WF, hdl, List.prod_append]; simp
    · rw [block_eq_chunk, chunk_of_flatMap g hgl hi]
      exact ⟨_, rfl, fun x hx => softmax_pos hx, softmax_sum _ _⟩
  refine ⟨(List.range s.prod).flatMap g, ?_, by rw [hdl, List.prod_append]; simp, hI, fun vv => ?_⟩
  · simp only [foldFree]
    rw [Simplex.foldFree_ok.mpr ⟨by simp [vec, NDArray.len, hr], by rw [vec_data, List.length_map, hr], rfl⟩]
    simp only [bind, Except.bind, pure, Except.pure, Except.ok.injEq, Val.arr.injEq, NDArray.mk.injEq, true_and]
    apply List.flatMap_congr
    intro i _
    rw [vec_data, map_fin_chunk, constrainSimplexRow_fin]
  · simp only [flattenFree, Val.asArr, bind, Except.bind]
    rw [Simplex.flattenFree_ok]
    refine ⟨acc_simplex_arr.mp (acc_of_interior _ (by simp [WF, *]) (by simp [FiniteLb]) _ vv hI), ?_⟩
    simp only [vec_inj]
    conv_lhs => rw [← chunk_flatMap _ _ _ hr']
    rw [List.map_flatMap]
    apply List.flatMap_congr
    intro i hi
    rw [chunk_of_flatMap g hgl (List.mem_range.mp hi), hg, unconstrainSimplexRow_softmax]

theorem psd_free_vec {n lb dv fd} (hf : (Pattern.psd n lb dv fd).FiniteLb)
    (hw : (Pattern.psd n lb dv fd).WF) {r : List ℝ}
    (hr : r.length = tri n) : ∃ d : List Flt,
      (Pattern.psd n lb dv fd).foldFree (vec (r.map .fin)) = .ok (.arr ⟨[n, n], d⟩) ∧ d.length = n * n ∧
      Interior (.psd n lb dv fd) (.arr ⟨[n, n], d⟩) ∧
      ∀ vv, (Pattern.psd n lb dv fd).flattenFree (.arr ⟨[n, n], d⟩) vv = .ok (vec (r.map .fin)) := by
  have hf' := hf
  simp only [FiniteLb] at hf
  obtain ⟨l, hl⟩ := Flt.isFin_iff.mp hf
  have hch : IsChol n (fun i j => freeMat n l r i j - if i = j then l else 0) (freeFactor r) := by
    have := isChol_freeFactor n r
    simpa only [freeMat, add_sub_cancel_right] using this
  have hI : Interior (.psd n lb dv fd) (.arr (ofFn2 n n fun i j => .fin (freeMat n l r i j))) := by
    rw [interior_psd]
    refine ⟨_, freeFactor r, rfl, fun i j _ _ => ?_, by rw [hl]; exact hch⟩
    simp only [freeMat, eq_comm (a := j) (b := i)]
    congr 1
    exact Finset.sum_congr rfl fun k _ => mul_comm _ _
  refine ⟨(ofFn2 n n fun i j => Flt.fin (freeMat n l r i j)).data, ?_, length_ofFn2 _ _ _, hI, fun vv => ?_⟩
  · simp only [foldFree, bind, Except.bind]
    rw [PSD.foldFree_ok.mpr ⟨by simp, by simpa using hr, by rw [atleast1d_of_ne (by simp [vec]), hl, unpackPosdef_fin hr]⟩]
    rfl
  · simp only [flattenFree, Val.asArr, bind, Except.bind]
    rw [PSD.flattenFree_ok]
    refine ⟨acc_psd_arr.mp (acc_of_interior _ hw hf' _ vv hI), ?_⟩
    rw [hl]
    have := packPosdef_eq hch
    rw [freeVec_freeFactor hr] at this
    exact this

/-! ### Unfoldings -/

theorem foldFree_array_unfold {s : List Nat} {base : Pattern} {fd} {x : NDArray Flt} :
    (Pattern.array s base fd).foldFree x = (do
      let x ← checkFlat x (s.prod * base.flatLen true)
      let a ← foldItems (fun sub => base.foldFree sub) x s (s ++ base.shape) (base.flatLen true)
      return .arr a) := by
  rw [foldFree]

theorem foldFree_dict_unfold {es l fd} {x : NDArray Flt} :
    (Pattern.dict es l fd).foldFree x = (do
      let x ← checkFlat x (flatLenEs es true)
      let vs ← foldFreeEs es x 0
      return .dict vs) := by
  rw [foldFree]

theorem flattenFree_array_unfold {s : List Nat} {base : Pattern} {fd} {v : Val Flt} {vv} :
    (Pattern.array s base fd).flattenFree v vv = (do
      requireValid ((Pattern.array s base fd).validate v vv)
      let a ← v.asArr
      flattenItems (fun sub => base.flattenFree sub vv) a s) := by
  rw [flattenFree]

theorem flattenFree_dict_unfold {es l fd} {v : Val Flt} {vv} :
    (Pattern.dict es l fd).flattenFree v vv = (do
      requireValid ((Pattern.dict es l fd).validate v vv)
      let vs ← v.asDict
      let parts ← flattenFreeEs es vs vv
      NDArray.hstack parts) := by
  rw [flattenFree]

theorem interiorEs_cons_irrel {k : String} {v : Val Flt} {es : Entries} {vs : List (String × Val Flt)}
    (h : k ∉ es.keys) : InteriorEs es ((k, v) :: vs) ↔ InteriorEs es vs := by
  match es with
  | .nil => simp [InteriorEs]
  | .cons k' p r =>
    simp only [Entries.keys, Entries.toList, List.map_cons, List.mem_cons, not_or] at h
    have ih := interiorEs_cons_irrel (k := k) (v := v) (es := r) (vs := vs) h.2
    simp only [InteriorEs, lookup_cons_ne (Ne.symm h.1), ih]

theorem flattenFreeEs_cons_irrel {k : String} {v : Val Flt} {es : Entries} {vs : List (String × Val Flt)} {vv}
    (h : k ∉ es.keys) : flattenFreeEs es ((k, v) :: vs) vv = flattenFreeEs es vs vv := by
  match es with
  | .nil => simp [flattenFreeEs]
  | .cons k' p r =>
    simp only [Entries.keys, Entries.toList, List.map_cons, List.mem_cons, not_or] at h
    have ih := flattenFreeEs_cons_irrel (k := k) (v := v) (es := r) (vs := vs) (vv := vv) h.2
    simp only [flattenFreeEs, lookup_cons_ne (Ne.symm h.1), ih]

/-- Any finite free vector folds to an interior value, and flattening that value gives the vector back. -/
theorem free_vec (p : Pattern) (hw : p.WF) (hf : p.FiniteLb) : ∀ r : List ℝ, r.length = p.flatLen true →
    ∃ v, p.foldFree (vec (r.map .fin)) = .ok v ∧ Interior p v ∧ v.WF ∧
      (p.isDict = false → ∃ d : List Flt, v = .arr ⟨p.shape, d⟩ ∧ d.length = p.shape.prod) ∧
      (p.NoEmpty → ∀ vv, p.flattenFree v vv = .ok (vec (r.map .fin))) := by
  revert hw hf
  induction p using Pattern.ind
    (Q := fun es => WFEs es → FiniteLbEs es → es.keys.Nodup → ∀ (r : List ℝ) (off : Nat),
      off + flatLenEs es true ≤ r.length →
      ∃ vs, foldFreeEs es (vec (r.map .fin)) off = .ok vs ∧ InteriorEs es vs ∧ Val.WFEs vs ∧
        (NoEmptyEs es → ∀ vv, ∃ parts, flattenFreeEs es vs vv = .ok parts ∧ (es ≠ .nil → parts ≠ []) ∧
          parts.flatMap (·.data) = ((r.drop off).take (flatLenEs es true)).map .fin)) with
  | hnum c s lb ub dv fd =>
    intro hw _ r hr
    obtain ⟨d, h1, h2, h3, h4⟩ := numeric_free_vec hw (r := r) (by simpa [flatLen] using hr)
    exact ⟨_, h1, h3, h2, fun _ => ⟨d, rfl, h2⟩, fun _ => h4⟩
  | hsim k s dv fd =>
    intro hw _ r hr
    obtain ⟨d, h1, h2, h3, h4⟩ := simplex_free_vec hw (r := r) (by rw [hr, flatLen, if_pos rfl])
    exact ⟨_, h1, h3, h2, fun _ => ⟨d, rfl, h2⟩, fun _ => h4⟩
  | hpsd n lb dv fd =>
    intro hw hf r hr
    obtain ⟨d, h1, h2, h3, h4⟩ := psd_free_vec hf hw (r := r) (by simpa [flatLen, tri] using hr)
    exact ⟨_, h1, h3, by simpa [Val.WF, NDArray.WF] using h2, fun _ => ⟨d, rfl, by simpa [shape] using h2⟩, fun _ => h4⟩
  | harr s b fd ih =>
    intro hw hf r hr
    have hw0 := hw
    have hf0 := hf
    simp only [WF] at hw
    simp only [FiniteLb] at hf
    simp only [flatLen] at hr
    have hB : ∀ i, ∃ d : List Flt, i < s.prod → (b.foldFree (vec ((chunk (b.flatLen true) r i).map .fin)) =
        .ok (.arr ⟨b.shape, d⟩) ∧ Interior b (.arr ⟨b.shape, d⟩) ∧ d.length = b.shape.prod ∧
        (b.NoEmpty → ∀ vv, b.flattenFree (.arr ⟨b.shape, d⟩) vv =
          .ok (vec ((chunk (b.flatLen true) r i).map .fin)))) := by
      intro i
      by_cases hi : i < s.prod
      · obtain ⟨v, h1, h2, h3, h4, h5⟩ := ih hw.2.2 hf (chunk (b.flatLen true) r i) (length_chunk hr hi)
        obtain ⟨d, rfl, hd⟩ := h4 hw.2.1
        exact ⟨d, fun _ => ⟨h1, h2, hd, h5⟩⟩
      · exact ⟨[], fun h => absurd h hi⟩
    choose g hg using hB
    have hgl : ∀ i < s.prod, (g i).length = b.shape.prod := fun i hi => (hg i hi).2.2.1
    have hdl := length_flatMap_range g hgl
    have hfold : foldItems (fun sub => b.foldFree sub) (vec (r.map Flt.fin)) s (s ++ b.shape) (b.flatLen true) =
        .ok ⟨s ++ b.shape, (List.range s.prod).flatMap g⟩ := by
      apply foldItems_eq
      · intro i hi
        rw [vec_data, map_fin_chunk]
        exact (hg i hi).1
      · exact hgl
    have hwf : (⟨s ++ b.shape, (List.range s.prod).flatMap g⟩ : NDArray Flt).WF := by
      simp only [NDArray.WF, hdl, List.prod_append]
    have hI : Interior (.array s b fd) (.arr ⟨s ++ b.shape, (List.range s.prod).flatMap g⟩) := by
      refine ⟨hwf, rfl, fun i hi => ?_⟩
      rw [block_eq_chunk, chunk_of_flatMap g hgl hi]
      exact (hg i hi).2.1
    refine ⟨_, ?_, hI, hwf, fun _ => ⟨_, rfl, hwf⟩, fun hne vv => ?_⟩
    · rw [foldFree_array_unfold, checkFlat_vec (by simpa using hr)]
      simp only [bind, Except.bind, hfold]
      rfl
    · simp only [NoEmpty] at hne
      rw [flattenFree_array_unfold, requireValid_ok_iff.mpr (acc_of_interior _ hw0 hf0 _ vv hI)]
      simp only [bind, Except.bind, Val.asArr]
      rw [flattenItems_eq rfl (g := fun i => (chunk (b.flatLen true) r i).map .fin) (fun i hi => ?_) hne.1]
      · rw [← List.map_flatMap, chunk_flatMap _ _ _ hr]
      · rw [chunk_of_flatMap g hgl hi]
        exact (hg i hi).2.2.2 hne.2 vv
  | hdict es l fd ih =>
    intro hw hf r hr
    have hw0 := hw
    have hf0 := hf
    simp only [WF] at hw
    simp only [FiniteLb] at hf
    simp only [flatLen] at hr
    obtain ⟨vs, h1, h2, h3, h4⟩ := ih hw.2 hf hw.1 r 0 (by omega)
    have hI : Interior (.dict es l fd) (.dict vs) := h2
    refine ⟨.dict vs, ?_, hI, h3, by simp [isDict], fun hne vv => ?_⟩
    · rw [foldFree_dict_unfold, checkFlat_vec (by simpa using hr)]
      simp only [bind, Except.bind, h1]
      rfl
    · simp only [NoEmpty] at hne
      obtain ⟨parts, h5, h6, h7⟩ := h4 hne.2 vv
      rw [flattenFree_dict_unfold, requireValid_ok_iff.mpr (acc_of_interior _ hw0 hf0 _ vv hI)]
      simp only [bind, Except.bind, Val.asDict, h5, hstack]
      have := h6 hne.1
      split
      · contradiction
      · rw [h7, ← hr]; simp
  | hnil hw hf hk r off hr =>
    exact ⟨[], by simp [foldFreeEs], by simp [InteriorEs], by simp [Val.WFEs], fun _ vv =>
      ⟨[], by simp [flattenFreeEs], by simp, by simp [flatLenEs]⟩⟩
  | hcons k p rest ihp ihr hw hf hk r off hr =>
    simp only [WFEs] at hw
    simp only [FiniteLbEs] at hf
    simp only [flatLenEs] at hr
    obtain ⟨hk1, hk2⟩ := nodup_keys_cons hk
    obtain ⟨vs, h1, h2, h3, h4⟩ := ihr hw.2.2 hf.2 hk2 r (off + p.flatLen true) (by omega)
    obtain ⟨v, g1, g2, g3, _, g5⟩ := ihp hw.1 hf.1 ((r.drop off).take (p.flatLen true)) (by simp; omega)
    refine ⟨(k, v) :: vs, ?_, ?_, ⟨g3, h3⟩, fun hne vv => ?_⟩
    · simp only [foldFreeEs, slice, vec_data, List.map_take, List.map_drop] at g1 ⊢
      simp only [g1, bind, Except.bind, h1]
      rfl
    · exact ⟨⟨v, by simp, g2⟩, (interiorEs_cons_irrel hk1).mpr h2⟩
    · simp only [NoEmptyEs] at hne
      obtain ⟨parts, h5, _, h6⟩ := h4 hne.2 vv
      refine ⟨vec (((r.drop off).take (p.flatLen true)).map .fin) :: parts, ?_, by simp, ?_⟩
      · simp only [flattenFreeEs, List.lookup, beq_self_eq_true, g5 hne.1 vv, bind, Except.bind,
          flattenFreeEs_cons_irrel hk1, h5]
        rfl
      · simp only [List.flatMap_cons, vec_data, h6, flatLenEs]
        rw [← List.map_append, List.take_add, List.drop_drop]

end Pattern

end Paragami
