import Verif.Proofs.JacobianLeaf
import Verif.Spec.Jacobian

/-! # Jacobians of trees of patterns -/

set_option linter.unusedSimpArgs false
set_option linter.unusedSectionVars false
set_option linter.unusedVariables false

namespace Paragami
open NDArray Pattern Topology Spec ContDiff

namespace Jac

theorem noEmpty_of_blocks (p : Pattern) : NoEmptyBlocks p → p.NoEmpty := by
  induction p using Pattern.ind (Q := fun es => NoEmptyBlocksEs es → NoEmptyEs es) with
  | hnum c s lb ub dv fd => intro _; simp [NoEmpty]
  | hsim k s dv fd => intro _; simp [NoEmpty]
  | hpsd n lb dv fd => intro _; simp [NoEmpty]
  | harr s b fd ih => intro h; simp only [NoEmptyBlocks] at h; exact ⟨h.1, ih h.2⟩
  | hdict es l fd ih => intro h; simp only [NoEmptyBlocks] at h; exact ⟨h.1, ih h.2⟩
  | hnil h => trivial
  | hcons k p r ihp ihr h => exact ⟨ihp h.1, ihr h.2⟩

/-- Unvalidated values of the right size are accepted. -/
theorem acc_unflat (p : Pattern) (hw : p.WF) : ∀ l : List Flt, l.length = p.flatLen false → Acc p (p.unflat l) (some false) := by
  revert hw
  induction p using Pattern.ind
    (Q := fun es => WFEs es → es.keys.Nodup → ∀ l : List Flt, flatLenEs es false ≤ l.length → AccEs es (unflatEs es l) (some false)) with
  | hnum c s lb ub dv fd =>
    intro hw l hl
    rw [acc_numeric]
    exact ⟨_, rfl, by rw [atleast1d_of_ne (by exact hw.1)]; rfl, by simp⟩
  | hsim k s dv fd => intro hw l hl; rw [acc_simplex]; exact ⟨_, rfl, rfl, by simp⟩
  | hpsd n lb dv fd => intro hw l hl; rw [acc_psd]; exact ⟨_, rfl, rfl, by simp⟩
  | harr s b fd ih =>
    intro hw l hl
    simp only [Pattern.WF] at hw
    simp only [flatLen, flatLen_false hw.2.1 hw.2.2] at hl
    rw [acc_array]
    refine ⟨_, rfl, rfl, fun i hi => ?_⟩
    have := ih hw.2.2 (chunk b.shape.prod l i) (by rw [length_chunk hl hi, flatLen_false hw.2.1 hw.2.2])
    rwa [unflat_of_not_dict hw.2.1] at this
  | hdict es l fd ih =>
    intro hw l' hl
    simp only [Pattern.WF] at hw
    rw [acc_dict]
    exact ⟨_, rfl, ih hw.2 hw.1 l' (by rw [hl, flatLen])⟩
  | hnil hw hk l hl => simp [AccEs]
  | hcons k p r ihp ihr hw hk l hl =>
    simp only [WFEs] at hw
    simp only [flatLenEs] at hl
    obtain ⟨hk1, hk2⟩ := nodup_keys_cons hk
    refine ⟨⟨p.unflat (l.take (p.flatLen false)), by simp [unflatEs], ihp hw.1 _ (by simp; omega)⟩, ?_⟩
    rw [unflatEs, accEs_cons_irrel hk1]
    exact ihr hw.2.2 hk2 _ (by simp; omega)

theorem fin_list {lb ub : Flt} {l : List Flt} (h : ∀ x ∈ l, lb.lt x = true ∧ x.lt ub = true) : ∃ r : List ℝ, l = r.map .fin := by
  induction l with
  | nil => exact ⟨[], rfl⟩
  | cons x l ih =>
    obtain ⟨r, hr⟩ := ih fun y hy => h y (by simp [hy])
    obtain ⟨y, hy⟩ := fin_of_between (h x (by simp)).1 (h x (by simp)).2
    exact ⟨y :: r, by simp [hr, hy]⟩

variable {E : Type} [NormedAddCommGroup E] [NormedSpace ℝ E]

/-! ### Leaves -/

theorem freeing_numeric {c s lb ub dv fd} (hw : (Pattern.numeric c s lb ub dv fd).WF) {a : NDArray Flt}
    (hI : Interior (.numeric c s lb ub dv fd) (.arr a)) :
    ∃ (r : List ℝ) (M : Nat → Nat → ℝ), a.data = r.map .fin ∧ r.length = s.prod ∧
      Numeric.freeingJacobian lb.toFlt ub.toFlt a = toMat (s.prod, s.prod, M) ∧
      DiffAt E (fun l => (Pattern.numeric c s lb ub dv fd).flattenFree (unflat (Pattern.numeric c s lb ub dv fd) l) (some false))
        r s.prod M := by
  have hw0 := hw
  simp only [Pattern.WF] at hw
  obtain ⟨hs, _, _, h1, h2, h3⟩ := hw
  simp only [Interior] at hI
  obtain ⟨hwf, hsh, hb⟩ := hI
  obtain ⟨r, hr⟩ := fin_list hb
  have hlen : r.length = s.prod := by
    have := congrArg List.length hr
    rw [List.length_map] at this
    rw [← this, ← hsh, ← atleast1d_data, atleast1d_wf hwf]
  rw [hr] at hb
  have hd : ∀ j, ∃ d : ℝ, j < r.length → unconstrainJac1 lb.toFlt ub.toFlt (.fin (r.getD j 0)) = .fin d ∧
      ∃ φ : ℝ → ℝ, (∀ᶠ t in 𝓝 (r.getD j 0), unconstrain1 lb.toFlt ub.toFlt (.fin t) = .fin (φ t)) ∧
        HasDerivAt φ d (r.getD j 0) ∧ ContDiffAt ℝ ω φ (r.getD j 0) := by
    intro j
    by_cases hj : j < r.length
    · have := hb (.fin (r.getD j 0)) (List.mem_map.mpr ⟨r[j], List.getElem_mem _, by simp [hj]⟩)
      obtain ⟨φ, d, e1, e2, e3, _, e4⟩ := unconstrain1_deriv h1 h2 h3 this.1 this.2
      exact ⟨d, fun _ => ⟨e2, φ, e1, e3, e4⟩⟩
    · exact ⟨0, fun h => absurd h hj⟩
  choose d hd using hd
  refine ⟨r, fun i j => if i = j then d i else 0, hr, hlen, ?_, ?_⟩
  · have : a.data.map (unconstrainJac1 lb.toFlt ub.toFlt) = ((List.range r.length).map d).map .fin := by
      rw [hr]
      apply List.ext_getElem
      · simp
      · intro j g1 g2
        have hj : j < r.length := by simpa using g1
        have := (hd j hj).1
        simpa [hj] using this
    rw [Numeric.freeingJacobian, this, diagMat_fin]
    simp only [toMat, List.length_map, List.length_range, hlen]
    apply ofFn2_congr
    intro i hi j hj
    by_cases h : i = j
    · simp [h, hj]
    · simp [h]
  · have := DiffAt.map (E := E) (F := unconstrain1 lb.toFlt ub.toFlt) (r := r) (d := d) fun j hj => (hd j hj).2
    rw [← hlen]
    refine this.mono fun l y hl _ hg => ?_
    rw [← hg]
    simp only [unflat, flattenFree, Val.asArr, bind, Except.bind]
    rw [Numeric.flattenFree_ok]
    refine ⟨acc_numeric_arr.mp (acc_unflat _ hw0 l (by rw [hl, hlen, flatLen])), rfl⟩

theorem simplexItems_eq {f : List Flt → NDArray Flt} {s : List Nat} {k : Nat} {a : NDArray Flt} (hk : 0 < k)
    (hsh : a.shape = s ++ [k]) (hwf : a.WF) :
    Simplex.jacobian f s a = blockDiag ((List.range s.prod).map fun i => f (chunk k a.data i)) := by
  have hlen : a.data.length = s.prod * k := by rw [hwf, hsh, List.prod_append]; simp
  have h0 : mapE (fun item => (a.getItem item >>= fun sub =>
        if sub.shape.length = 1 ∧ sub.data ≠ [] then (.ok (f sub.data) : Except Err (NDArray Flt)) else .error .unmodelled)) (productRanges s) =
      mapE (fun item => (fun i => (.ok (f (chunk k a.data i)) : Except Err (NDArray Flt))) (ravel s item)) (productRanges s) := by
    apply mapE_congr
    intro item hitem
    have hmem : ravel s item ∈ List.range s.prod := by
      rw [← map_ravel_productRanges]; exact List.mem_map_of_mem hitem
    have hi := List.mem_range.mp hmem
    have hc : (chunk k a.data (ravel s item)).length = k := length_chunk hlen hi
    rw [getItem_eq hsh hitem]
    simp only [bind, Except.bind, List.prod_singleton]
    rw [if_pos]
    refine ⟨rfl, fun h => ?_⟩
    rw [h] at hc
    simp at hc; omega
  unfold Simplex.jacobian
  rw [h0, mapE_productRanges s (fun i => (.ok (f (chunk k a.data i)) : Except Err (NDArray Flt))), mapE_ok_of (g := fun i => f (chunk k a.data i)) (fun i _ => rfl)]
  rfl

/-- Every row of an interior simplex array. -/
theorem simplex_rows {k s dv fd} {a : NDArray Flt} (hI : Interior (.simplex k s dv fd) (.arr a)) :
    ∃ q : Nat → List ℝ, ∀ i < s.prod, (q i).length = k ∧ chunk k a.data i = (q i).map .fin ∧ (∀ x ∈ q i, 0 < x) ∧ (q i).sum = 1 := by
  simp only [Interior] at hI
  obtain ⟨hwf, hsh, hb⟩ := hI
  have hlen : a.data.length = s.prod * k := by rw [hwf, hsh, List.prod_append]; simp
  have : ∀ i, ∃ q : List ℝ, i < s.prod → q.length = k ∧ chunk k a.data i = q.map .fin ∧ (∀ x ∈ q, 0 < x) ∧ q.sum = 1 := by
    intro i
    by_cases hi : i < s.prod
    · obtain ⟨q, h1, h2, h3⟩ := hb i hi
      rw [block_eq_chunk] at h1
      refine ⟨q, fun _ => ⟨?_, h1, h2, h3⟩⟩
      have := congrArg List.length h1
      rwa [length_chunk hlen hi, List.length_map, eq_comm] at this
    · exact ⟨[], fun h => absurd h hi⟩
  choose q hq using this
  exact ⟨q, hq⟩

theorem sum_replicate_fst (N m n : Nat) (M : Nat → Nat → Nat → ℝ) :
    (((List.range N).map fun c => ((m, n, M c) : Nat × Nat × (Nat → Nat → ℝ))).map (·.1)).sum = N * m ∧
    (((List.range N).map fun c => ((m, n, M c) : Nat × Nat × (Nat → Nat → ℝ))).map (·.2.1)).sum = N * n := by
  simp [Function.comp_def]

theorem freeing_simplex {k s dv fd} (hw : (Pattern.simplex k s dv fd).WF) (hs : 0 < s.prod) {a : NDArray Flt}
    (hI : Interior (.simplex k s dv fd) (.arr a)) :
    ∃ (r : List ℝ) (M : Nat → Nat → ℝ), a.data = r.map .fin ∧ r.length = (s ++ [k]).prod ∧
      Simplex.jacobian Simplex.unconstrainJacobian s a = .ok (toMat ((s ++ [k - 1]).prod, (s ++ [k]).prod, M)) ∧
      DiffAt E (fun l => (Pattern.simplex k s dv fd).flattenFree (unflat (Pattern.simplex k s dv fd) l) (some false))
        r (s ++ [k - 1]).prod M := by
  have hw0 := hw
  simp only [Pattern.WF] at hw
  obtain ⟨q, hq⟩ := simplex_rows hI
  simp only [Interior] at hI
  obtain ⟨hwf, hsh, _⟩ := hI
  have hlen : a.data.length = s.prod * k := by rw [hwf, hsh, List.prod_append]; simp
  obtain ⟨n, rfl⟩ : ∃ n, k = n + 1 := ⟨k - 1, by omega⟩
  have hp1 : (s ++ [n + 1 - 1]).prod = s.prod * n := by simp
  have hp2 : (s ++ [n + 1]).prod = s.prod * (n + 1) := by simp
  have hql : ∀ i < s.prod, (q i).length = n + 1 := fun i hi => (hq i hi).1
  have hdl := length_flatMap_range q hql
  set M : Nat → Nat → Nat → ℝ := fun c i j => if j = 0 then -1 / (q c).getD 0 0 else if j = i + 1 then 1 / (q c).getD j 0 else 0 with hM
  refine ⟨(List.range s.prod).flatMap q, blk ((List.range s.prod).map fun c => (n, n + 1, M c)), ?_, by rw [hdl, hp2], ?_, ?_⟩
  · rw [← chunk_flatMap _ _ _ hlen, List.map_flatMap]
    exact List.flatMap_congr fun i hi => (hq i (List.mem_range.mp hi)).2.1
  · rw [simplexItems_eq (by omega) hsh hwf]
    have : ((List.range s.prod).map fun i => Simplex.unconstrainJacobian (chunk (n + 1) a.data i)) =
        ((List.range s.prod).map fun c => (n, n + 1, M c)).map toMat := by
      rw [List.map_map]
      apply List.map_congr_left
      intro i hi
      have hi := List.mem_range.mp hi
      rw [(hq i hi).2.1, unconstrainJacobian_fin (hq i hi).1 (hq i hi).2.2.1]
      rfl
    have hne : s.prod ≠ 0 := by omega
    rw [this, blockDiag_toMat (by simpa using hne), (sum_replicate_fst _ _ _ M).1, (sum_replicate_fst _ _ _ M).2, hp1, hp2]
  · have hd := DiffAt.catN (E := E) (g := fun l => .ok (vec (unconstrainSimplexRow l))) (m := n) (n := n + 1) q M
      (List.range s.prod) (fun c hc => ⟨hql c (List.mem_range.mp hc),
        diff_unconstrainRow (hql c (List.mem_range.mp hc)) (hq c (List.mem_range.mp hc)).2.2.1⟩)
    rw [List.length_range] at hd
    rw [hp1]
    refine hd.mono fun l y hl _ hg => ?_
    rw [hdl] at hl
    obtain ⟨ys, g1, g2⟩ := catN_ok _ _ _ hl hg
    simp only [unflat, flattenFree, Val.asArr, bind, Except.bind]
    rw [Simplex.flattenFree_ok]
    refine ⟨acc_simplex_arr.mp (acc_unflat _ hw0 l (by rw [hl, flatLen]; simp)), ?_⟩
    rw [g2]
    congr 1
    apply List.flatMap_congr
    intro i hi
    have := g1 i (List.mem_range.mp hi)
    simp only [Except.ok.injEq] at this
    rw [← this, vec_data]

/-! ### Containers -/

theorem jacobianItems_eq {f : Val Flt → Except Err (NDArray Flt)} {a : NDArray Flt} {s bs : List Nat} (hsh : a.shape = s ++ bs)
    {g : Nat → NDArray Flt} (hg : ∀ i < s.prod, f (.arr ⟨bs, chunk bs.prod a.data i⟩) = .ok (g i)) :
    jacobianItems f a s = blockDiag ((List.range s.prod).map g) := by
  have h0 : mapE (fun item => (a.getItem item >>= fun sub => f (.arr sub))) (productRanges s) =
      mapE (fun item => (fun i => f (.arr ⟨bs, chunk bs.prod a.data i⟩)) (ravel s item)) (productRanges s) := by
    apply mapE_congr
    intro item hitem
    rw [getItem_eq hsh hitem]; rfl
  unfold jacobianItems
  rw [h0, mapE_productRanges s (fun i => f (.arr ⟨bs, chunk bs.prod a.data i⟩)), mapE_ok_of (g := g) (fun i hi => hg i (List.mem_range.mp hi))]
  rfl

/-- The freeing map of every tree is differentiable if those of its matrix leaves are; without matrix leaves the method returns the
derivatives. -/
theorem freeing_tree_of (ad : AutogradJacobian)
    (hpsd : ∀ n lb dv fd (a : NDArray Flt), (Pattern.psd n lb dv fd).WF → lb.toFlt.IsFin → Interior (.psd n lb dv fd) (.arr a) →
      ∃ (r : List ℝ) (M : Nat → Nat → ℝ), a.data = r.map .fin ∧ r.length = n * n ∧
        DiffAt E (fun l => (Pattern.psd n lb dv fd).flattenFree ((Pattern.psd n lb dv fd).unflat l) (some false)) r (tri n) M)
    (p : Pattern) (hw : p.WF) (hf : p.FiniteLb) (he : NoEmptyBlocks p) :
    ∀ v : Val Flt, Interior p v → ∃ (r : List ℝ) (M : Nat → Nat → ℝ), p.flat v = r.map .fin ∧ r.length = p.flatLen false ∧
      (NoPSD p → freeingJacobian ad p v = .ok (toMat (p.flatLen true, p.flatLen false, M))) ∧
      DiffAt E (fun l => p.flattenFree (p.unflat l) (some false)) r (p.flatLen true) M := by
  revert hw hf he
  induction p using Pattern.ind
    (Q := fun es => WFEs es → FiniteLbEs es → NoEmptyBlocksEs es → es.keys.Nodup → ∀ vs : List (String × Val Flt), InteriorEs es vs →
      ∃ (r : List ℝ) (bl : List (Nat × Nat × (Nat → Nat → ℝ))), flatEs es vs = r.map .fin ∧ r.length = flatLenEs es false ∧
        (NoPSDEs es → freeingJacobianEs ad es vs = .ok (bl.map toMat)) ∧ (es ≠ .nil → bl ≠ []) ∧
        (bl.map (·.1)).sum = flatLenEs es true ∧ (bl.map (·.2.1)).sum = flatLenEs es false ∧
        DiffAt E (fun l => flattenFreeEs es (unflatEs es l) (some false) >>= fun parts => .ok (vec (parts.flatMap (·.data))))
          r (flatLenEs es true) (blk bl)) with
  | hnum c s lb ub dv fd =>
    intro hw _ _ v hI
    cases v with
    | dict d => simp [Interior] at hI
    | arr a =>
      obtain ⟨r, M, h1, h2, h3, h4⟩ := freeing_numeric (E := E) hw hI
      refine ⟨r, M, by rw [flat_arr _ _ rfl]; exact h1, by simpa [flatLen] using h2, fun _ => ?_, by simpa only [flatLen] using h4⟩
      simp only [freeingJacobian, Val.asArr, bind, Except.bind, h3, flatLen]; rfl
  | hsim k s dv fd =>
    intro hw _ he v hI
    cases v with
    | dict d => simp [Interior] at hI
    | arr a =>
      obtain ⟨r, M, h1, h2, h3, h4⟩ := freeing_simplex (E := E) hw he hI
      refine ⟨r, M, by rw [flat_arr _ _ rfl]; exact h1, by rw [h2]; simp [flatLen], fun _ => ?_, by simpa only [flatLen, if_true] using h4⟩
      simp only [freeingJacobian, Val.asArr, bind, Except.bind, h3, flatLen]; rfl
  | hpsd n lb dv fd =>
    intro hw hf _ v hI
    cases v with
    | dict d => simp [Interior] at hI
    | arr a =>
      obtain ⟨r, M, h1, h2, h3⟩ := hpsd n lb dv fd a hw hf hI
      exact ⟨r, M, by rw [flat_arr _ _ rfl]; exact h1, by rw [h2]; simp [flatLen, sq], fun h => absurd h (by simp [NoPSD]),
        by simpa only [flatLen, if_true, tri] using h3⟩
  | harr s b fd ih =>
    intro hw hf he v hI
    cases v with
    | dict d => simp [Interior] at hI
    | arr a =>
    have hw0 := hw
    simp only [Pattern.WF] at hw
    simp only [FiniteLb] at hf
    simp only [NoEmptyBlocks] at he
    simp only [Interior] at hI
    obtain ⟨hwf, hsh, hb⟩ := hI
    have hlen : a.data.length = s.prod * b.shape.prod := by rw [hwf, hsh, List.prod_append]
    have hfl := flatLen_false hw.2.1 hw.2.2
    have hB : ∀ i, ∃ (r : List ℝ) (M : Nat → Nat → ℝ), i < s.prod → (chunk b.shape.prod a.data i = r.map .fin ∧
        r.length = b.flatLen false ∧
        (NoPSD b → freeingJacobian ad b (.arr ⟨b.shape, chunk b.shape.prod a.data i⟩) = .ok (toMat (b.flatLen true, b.flatLen false, M))) ∧
        DiffAt E (fun l => b.flattenFree (b.unflat l) (some false)) r (b.flatLen true) M) := by
      intro i
      by_cases hi : i < s.prod
      · obtain ⟨r, M, h1, h2, h3, h4⟩ := ih hw.2.2 hf he.2 _ (hb i hi)
        rw [flat_arr _ _ hw.2.1] at h1
        exact ⟨r, M, fun _ => ⟨h1, h2, h3, h4⟩⟩
      · exact ⟨[], fun _ _ => 0, fun h => absurd h hi⟩
    choose q M hq using hB
    have hql : ∀ i < s.prod, (q i).length = b.flatLen false := fun i hi => (hq i hi).2.1
    have hdl := length_flatMap_range q hql
    refine ⟨(List.range s.prod).flatMap q, blk ((List.range s.prod).map fun c => (b.flatLen true, b.flatLen false, M c)), ?_,
      by rw [hdl, flatLen], fun hn => ?_, ?_⟩
    · rw [flat_arr _ _ rfl, ← chunk_flatMap _ _ _ hlen, List.map_flatMap]
      exact List.flatMap_congr fun i hi => (hq i (List.mem_range.mp hi)).1
    · simp only [freeingJacobian, Val.asArr, bind, Except.bind]
      rw [jacobianItems_eq hsh (g := fun i => toMat (b.flatLen true, b.flatLen false, M i)) fun i hi => (hq i hi).2.2.1 hn]
      have : ((List.range s.prod).map fun i => toMat (b.flatLen true, b.flatLen false, M i)) =
          ((List.range s.prod).map fun c => (b.flatLen true, b.flatLen false, M c)).map toMat := by
        rw [List.map_map]; rfl
      have hne : s.prod ≠ 0 := by omega
      rw [this, blockDiag_toMat (by simpa using hne), (sum_replicate_fst _ _ _ M).1, (sum_replicate_fst _ _ _ M).2, flatLen, flatLen]
    · have hd := DiffAt.catN (E := E) q M (List.range s.prod) (fun c hc =>
        ⟨hql c (List.mem_range.mp hc), (hq c (List.mem_range.mp hc)).2.2.2⟩)
      rw [List.length_range] at hd
      rw [flatLen]
      refine hd.mono fun l y hl _ hg => ?_
      rw [hdl] at hl
      obtain ⟨ys, g1, g2⟩ := catN_ok _ _ _ hl hg
      rw [flattenFree_array_unfold, requireValid_ok_iff.mpr (acc_unflat _ hw0 l (by rw [hl, flatLen]))]
      simp only [unflat, Pattern.shape, bind, Except.bind, Val.asArr]
      have hys : ∀ i < s.prod, ys i = vec (ys i).data := by
        intro i hi
        have hg := g1 i hi
        rw [unflat_of_not_dict hw.2.1] at hg
        exact (flattenFree_ok_len b hw.2.2 _ _ _ (by
          simp only [Val.WF, NDArray.WF]
          rw [length_chunk hl hi, hfl]) hg).2.1
      rw [flattenItems_eq rfl (g := fun i => (ys i).data) (fun i hi => ?_) he.1, ← g2]
      rw [← hfl, ← hys i hi, ← g1 i hi, unflat_of_not_dict hw.2.1]
  | hdict es l fd ih =>
    intro hw hf he v hI
    cases v with
    | arr d => simp [Interior] at hI
    | dict vs =>
    have hw0 := hw
    simp only [Pattern.WF] at hw
    simp only [FiniteLb] at hf
    simp only [NoEmptyBlocks] at he
    simp only [Interior] at hI
    obtain ⟨r, bl, h1, h2, h3, h4, h5, h6, h7⟩ := ih hw.2 hf he.2 hw.1 vs hI
    refine ⟨r, blk bl, by rw [flat, h1], by rw [h2, flatLen], fun hn => ?_, ?_⟩
    · simp only [freeingJacobian, Val.asDict, bind, Except.bind, h3 hn]
      rw [blockDiag_toMat (h4 he.1), h5, h6, flatLen, flatLen]
    · rw [flatLen]
      refine h7.mono fun l' y hl _ hg => ?_
      obtain ⟨parts, g1, g2⟩ := bind_ok hg
      rw [flattenFree_dict_unfold, requireValid_ok_iff.mpr (acc_unflat _ hw0 l' (by rw [hl, h2, flatLen]))]
      simp only [unflat, bind, Except.bind, Val.asDict, g1, hstack]
      have hp : parts ≠ [] := by
        cases es with
        | nil => exact absurd rfl he.1
        | cons k p r =>
          intro hp
          subst hp
          simp only [unflatEs, flattenFreeEs, List.lookup, beq_self_eq_true] at g1
          obtain ⟨_, _, g1⟩ := bind_ok g1
          obtain ⟨_, _, g1⟩ := bind_ok g1
          simp [pure, Except.pure] at g1
      split
      · contradiction
      · exact g2
  | hnil hw hf he hk vs hI =>
    refine ⟨[], [], by simp [flatEs], by simp [flatLenEs], by simp [freeingJacobianEs], by simp, by simp [flatLenEs],
      by simp [flatLenEs], ?_⟩
    refine (DiffAt.nil _).mono fun l y hl _ hg => ?_
    simpa [flattenFreeEs, bind, Except.bind] using hg
  | hcons k p rest ihp ihr hw hf he hk vs hI =>
    simp only [WFEs] at hw
    simp only [FiniteLbEs] at hf
    simp only [NoEmptyBlocksEs] at he
    simp only [InteriorEs] at hI
    obtain ⟨hk1, hk2⟩ := nodup_keys_cons hk
    obtain ⟨⟨v, hl, hv⟩, hI⟩ := hI
    obtain ⟨r1, M1, a1, a2, a3, a4⟩ := ihp hw.1 hf.1 he.1 v hv
    obtain ⟨r2, bl, b1, b2, b3, _, b5, b6, b7⟩ := ihr hw.2.2 hf.2 he.2 hk2 vs hI
    refine ⟨r1 ++ r2, (p.flatLen true, p.flatLen false, M1) :: bl, by simp [flatEs, hl, a1, b1], by simp [a2, b2, flatLenEs],
      fun hn => ?_, by simp, by simp [b5, flatLenEs], by simp [b6, flatLenEs], ?_⟩
    · simp only [freeingJacobianEs, hl, a3 hn.1, b3 hn.2, bind, Except.bind]; rfl
    · have hd := DiffAt.cat a4 b7
      rw [a2] at hd
      rw [flatLenEs]
      refine hd.mono fun l y hl' _ hg => ?_
      simp only [catG] at hg
      obtain ⟨x1, g1, hg⟩ := bind_ok hg
      obtain ⟨x2, g2, hg⟩ := bind_ok hg
      obtain ⟨parts, g3, g4⟩ := bind_ok g2
      simp only [unflatEs, flattenFreeEs, List.lookup, beq_self_eq_true, g1, bind, Except.bind]
      rw [flattenFreeEs_cons_irrel hk1, g3]
      simp only [pure, Except.pure, Except.ok.injEq] at hg g4 ⊢
      rw [← hg, ← g4]
      simp

end Jac

end Paragami
