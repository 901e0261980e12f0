import Verif.Proofs.Indices

/-! # C36–C38: `flat_indices` -/

set_option linter.unusedSimpArgs false

namespace Paragami
open Pattern NDArray

theorem maskSelect_append {α : Type} {d d' : List α} {m m' : List Bool} (h : d.length = m.length) :
    maskSelect (d ++ d') (m ++ m') = maskSelect d m ++ maskSelect d' m' := by
  simp [maskSelect, List.zip_append h]

theorem maskSelect_flatMap {α : Type} {n k : Nat} (f : Nat → List α) (g : Nat → List Bool)
    (hf : ∀ i < n, (f i).length = k) (hg : ∀ i < n, (g i).length = k) :
    maskSelect ((List.range n).flatMap f) ((List.range n).flatMap g) =
      (List.range n).flatMap fun i => maskSelect (f i) (g i) := by
  induction n with
  | zero => rfl
  | succ n ih =>
    simp only [List.range_succ, List.flatMap_append, List.flatMap_cons, List.flatMap_nil, List.append_nil]
    rw [maskSelect_append, ih (fun i hi => hf i (by omega)) (fun i hi => hg i (by omega))]
    rw [length_flatMap_range f (fun i hi => hf i (by omega)), length_flatMap_range g (fun i hi => hg i (by omega))]

theorem maskSelect_congr {α : Type} {d d' : List α} {m : List Bool} (h : d.length = m.length) (h' : d'.length = m.length)
    (he : ∀ i ∈ positions m, d[i]? = d'[i]?) : maskSelect d m = maskSelect d' m := by
  have e : (maskSelect d m).map some = (maskSelect d' m).map some := by
    rw [← maskSelect_positions d m h, ← maskSelect_positions d' m h']
    exact List.map_congr_left he
  exact List.map_injective_iff.mpr (Option.some_injective _) e

theorem maskSelect_none {α : Type} {d : List α} {m : List Bool} (h : m.any id = false) : maskSelect d m = [] := by
  simp only [maskSelect, List.map_eq_nil_iff, List.filter_eq_nil_iff]
  rintro ⟨x, b⟩ hx
  have := (List.of_mem_zip hx).2
  rw [List.any_eq_false] at h
  exact h b this

theorem marked_arr {α : Type} {p : Pattern} (hd : p.isDict = false) (b : NDArray Bool) (a : NDArray α) :
    Spec.marked p (.arr b) (.arr a) = maskSelect a.data b.data := by
  cases p <;> simp_all [isDict, Spec.marked, maskSelect]

/-! ### Non-free masks -/

theorem flatMask_false (p : Pattern) (hw : p.WF) : ∀ b : Val Bool, b.WF → Spec.ShapeOk p b →
    flatMask false p b = p.flat b := by
  revert hw
  induction p using Pattern.ind
    (Q := fun es => WFEs es → ∀ bs : List (String × Val Bool), Val.WFEs bs → Spec.ShapeOkEs es bs →
      flatMaskEs false es bs = flatEs es bs) with
  | hnum c s lb ub dv fd =>
    intro _ b hb hs
    cases b with
    | dict d => simp [Spec.ShapeOk] at hs
    | arr a => rfl
  | hsim k s dv fd =>
    intro _ b hb hs
    cases b with
    | dict d => simp [Spec.ShapeOk] at hs
    | arr a => simp [flatMask, flat]
  | hpsd n lb dv fd =>
    intro _ b hb hs
    cases b with
    | dict d => simp [Spec.ShapeOk] at hs
    | arr a => simp [flatMask, flat]
  | harr s q fd ih =>
    intro hw b hb hs
    cases b with
    | dict d => simp [Spec.ShapeOk] at hs
    | arr a =>
      simp only [Pattern.WF] at hw
      simp only [Spec.ShapeOk] at hs
      have hl : a.data.length = s.prod * q.shape.prod := by
        have : a.data.length = a.shape.prod := hb
        rw [this, hs, List.prod_append]
      simp only [flatMask, flat]
      conv_rhs => rw [← chunk_flatMap _ _ _ hl]
      apply List.flatMap_congr
      intro i hi
      rw [ih hw.2.2 _ (chunk_wf hb hs (List.mem_range.mp hi)) (shapeOk_of_shape hw.2.2 hw.2.1 _), flat_arr _ _ hw.2.1]
  | hdict es l fd ih =>
    intro hw b hb hs
    cases b with
    | arr a => simp [Spec.ShapeOk] at hs
    | dict bs =>
      simp only [Pattern.WF] at hw
      simp only [flatMask, flat]
      exact ih hw.2 bs hb hs
  | hnil _ bs _ _ => simp [flatMaskEs, flatEs]
  | hcons k p r ihp ihr hw bs hb hs =>
    simp only [WFEs] at hw
    simp only [Spec.ShapeOkEs] at hs
    obtain ⟨⟨b, hl, hb1⟩, hs⟩ := hs
    simp only [flatMaskEs, flatEs, hl]
    rw [ihp hw.1 b (WFEs_lookup hb hl) hb1, ihr hw.2.2 bs hb hs]

theorem marked_eq {α : Type} [Elem α] (p : Pattern) (hw : p.WF) : ∀ (b : Val Bool) (v : Val α) (vv : Option Bool),
    b.WF → v.WF → Acc p b (some false) → Acc p v vv → Spec.marked p b v = maskSelect (p.flat v) (p.flat b) := by
  revert hw
  induction p using Pattern.ind
    (Q := fun es => WFEs es → ∀ (bs : List (String × Val Bool)) (vs : List (String × Val α)) (vv : Option Bool),
      Val.WFEs bs → Val.WFEs vs → AccEs es bs (some false) → AccEs es vs vv →
      Spec.markedEs es bs vs = maskSelect (flatEs es vs) (flatEs es bs)) with
  | hnum c s lb ub dv fd =>
    intro _ b v vv _ _ hb hv
    rw [acc_numeric] at hb hv
    obtain ⟨a, rfl, _⟩ := hb
    obtain ⟨c, rfl, _⟩ := hv
    rw [marked_arr rfl]; rfl
  | hsim k s dv fd =>
    intro _ b v vv _ _ hb hv
    rw [acc_simplex] at hb hv
    obtain ⟨a, rfl, _⟩ := hb
    obtain ⟨c, rfl, _⟩ := hv
    rw [marked_arr rfl]; rfl
  | hpsd n lb dv fd =>
    intro _ b v vv _ _ hb hv
    rw [acc_psd] at hb hv
    obtain ⟨a, rfl, _⟩ := hb
    obtain ⟨c, rfl, _⟩ := hv
    rw [marked_arr rfl]; rfl
  | harr s q fd ih =>
    intro _ b v vv _ _ hb hv
    rw [acc_array] at hb hv
    obtain ⟨a, rfl, _⟩ := hb
    obtain ⟨c, rfl, _⟩ := hv
    rw [marked_arr rfl]; rfl
  | hdict es l fd ih =>
    intro hw b v vv hb hv hab hav
    rw [acc_dict] at hab hav
    obtain ⟨a, rfl, h1⟩ := hab
    obtain ⟨c, rfl, h2⟩ := hav
    simp only [Pattern.WF] at hw
    simp only [Spec.marked, flat]
    exact ih hw.2 a c vv hb hv h1 h2
  | hnil _ bs vs vv _ _ _ _ => simp [Spec.markedEs, flatEs, maskSelect]
  | hcons k p r ihp ihr hw bs vs vv hb hv hab hav =>
    simp only [WFEs] at hw
    simp only [AccEs] at hab hav
    obtain ⟨⟨b, hl, hb1⟩, hab⟩ := hab
    obtain ⟨⟨v, hl', hv1⟩, hav⟩ := hav
    simp only [Spec.markedEs, flatEs, hl, hl']
    rw [ihp hw.1 b v vv (WFEs_lookup hb hl) (WFEs_lookup hv hl') hb1 hv1, ihr hw.2.2 bs vs vv hb hv hab hav,
      maskSelect_append]
    rw [length_flat p hw.1 v vv (WFEs_lookup hv hl') hv1, length_flat p hw.1 b _ (WFEs_lookup hb hl) hb1]

theorem countMarked_eq (p : Pattern) (b : Val Bool) (hs : Spec.ShapeOk p b) :
    Spec.countMarked p b = (p.flat b).count true := by
  revert b hs
  induction p using Pattern.ind
    (Q := fun es => ∀ bs : List (String × Val Bool), Spec.ShapeOkEs es bs →
      Spec.countMarkedEs es bs = (flatEs es bs).count true) with
  | hdict es l fd ih =>
    intro b hs
    cases b with
    | arr a => simp [Spec.ShapeOk] at hs
    | dict bs => simp only [Spec.countMarked, flat]; exact ih bs hs
  | hnil bs _ => simp [Spec.countMarkedEs, flatEs]
  | hcons k p r ihp ihr bs hs =>
    simp only [Spec.ShapeOkEs] at hs
    obtain ⟨⟨b, hl, hb1⟩, hs⟩ := hs
    simp only [Spec.countMarkedEs, flatEs, hl, List.count_append]
    rw [ihp b hb1, ihr bs hs]
  | _ =>
    intro b hs
    cases b with
    | dict d => simp [Spec.ShapeOk] at hs
    | arr a => simp only [Spec.countMarked, flat]

/-! ### Free masks -/

theorem markedEs_cons_irrel {k : String} {v : Val Flt} {es : Entries} {bs} {vs : List (String × Val Flt)}
    (h : k ∉ es.keys) : Spec.markedEs es bs ((k, v) :: vs) = Spec.markedEs es bs vs := by
  match es with
  | .nil => simp [Spec.markedEs]
  | .cons k' p r =>
    simp only [Entries.keys, Entries.toList, List.map_cons, List.mem_cons, not_or] at h
    have ih := markedEs_cons_irrel (k := k) (v := v) (es := r) (bs := bs) (vs := vs) h.2
    simp only [Spec.markedEs, lookup_cons_ne (Ne.symm h.1), ih]

theorem agree_chunk {l l' : List Flt} {k i : Nat}
    (h : ∀ j < k, l[i * k + j]? = l'[i * k + j]?) : chunk k l i = chunk k l' i := by
  apply List.ext_getElem?
  intro j
  simp only [chunk, List.getElem?_take, List.getElem?_drop]
  split
  · next hj => exact h j hj
  · rfl

theorem free_marked (p : Pattern) (hw : p.WF) : ∀ (b : Val Bool) (l l' : List Flt) (v v' : Val Flt), b.WF →
    Spec.ShapeOk p b → p.foldFree (vec l) = .ok v → p.foldFree (vec l') = .ok v' →
    (∀ i ∈ positions (flatMask true p b), l[i]? = l'[i]?) → Spec.marked p b v = Spec.marked p b v' := by
  revert hw
  induction p using Pattern.ind
    (Q := fun es => WFEs es → es.keys.Nodup → ∀ (bs : List (String × Val Bool)) (l l' : List Flt) (off : Nat) vs vs',
      Val.WFEs bs → Spec.ShapeOkEs es bs → foldFreeEs es (vec l) off = .ok vs → foldFreeEs es (vec l') off = .ok vs' →
      (∀ i ∈ positions (flatMaskEs true es bs), l[off + i]? = l'[off + i]?) →
      Spec.markedEs es bs vs = Spec.markedEs es bs vs') with
  | hnum c s lb ub dv fd =>
    intro _ b l l' v v' hb hs h h' he
    cases b with
    | dict d => simp [Spec.ShapeOk] at hs
    | arr a =>
      simp only [Spec.ShapeOk] at hs
      simp only [foldFree] at h h'
      replace h := bind_ok h; obtain ⟨c, h1, h⟩ := h; cases h
      replace h' := bind_ok h'; obtain ⟨c', h1', h'⟩ := h'; cases h'
      rw [Numeric.foldFree_ok] at h1 h1'
      obtain ⟨_, h2, rfl⟩ := h1
      obtain ⟨_, h2', rfl⟩ := h1'
      have hl : a.data.length = s.prod := by rw [← hs, ← atleast1d_data, atleast1d_wf hb]
      rw [marked_arr rfl, marked_arr rfl]
      simp only [vec_data] at h2 h2' ⊢
      refine maskSelect_congr (by simp [hl, h2]) (by simp [hl, h2']) fun i hi => ?_
      rw [List.getElem?_map, List.getElem?_map, he i hi]
  | hsim k s dv fd =>
    intro hw b l l' v v' hb hs h h' he
    have hsh := fold_shape (p := .simplex k s dv fd) hw rfl (vv := none) (by rw [fold_true]; exact h)
    have hsh' := fold_shape (p := .simplex k s dv fd) hw rfl (vv := none) (by rw [fold_true]; exact h')
    cases b with
    | dict d => simp [Spec.ShapeOk] at hs
    | arr a =>
      simp only [Spec.ShapeOk] at hs
      simp only [foldFree] at h h'
      replace h := bind_ok h; obtain ⟨c, h1, h⟩ := h; cases h
      replace h' := bind_ok h'; obtain ⟨c', h1', h'⟩ := h'; cases h'
      rw [Simplex.foldFree_ok] at h1 h1'
      obtain ⟨_, h2, rfl⟩ := h1
      obtain ⟨_, h2', rfl⟩ := h1'
      have hl : a.data.length = s.prod * k := by
        have : a.data.length = a.shape.prod := hb
        rw [this, hs, List.prod_append]; simp
      have hk : 2 ≤ k := hw
      simp only [vec_data, List.prod_append, List.prod_cons, List.prod_nil, mul_one] at h2 h2'
      have hr : ∀ (l : List Flt), l.length = s.prod * (k - 1) → ∀ i < s.prod,
          (constrainSimplexRow (chunk (k - 1) l i)).length = k := by
        intro l hl i hi
        have := length_chunk hl hi
        simp [constrainSimplexRow, this]; omega
      have hmask : a.data = (List.range s.prod).flatMap (chunk k a.data) := (chunk_flatMap _ _ _ hl).symm
      rw [marked_arr rfl, marked_arr rfl, hmask]
      change maskSelect (List.flatMap (fun i => constrainSimplexRow (chunk (k - 1) l i)) _)
          (List.flatMap (fun i => chunk k a.data i) _) =
        maskSelect (List.flatMap (fun i => constrainSimplexRow (chunk (k - 1) l' i)) _)
          (List.flatMap (fun i => chunk k a.data i) _)
      rw [maskSelect_flatMap (k := k) _ _ (hr _ h2) (fun i hi => length_chunk hl hi),
        maskSelect_flatMap (k := k) _ _ (hr _ h2') (fun i hi => length_chunk hl hi)]
      apply List.flatMap_congr
      intro i hi
      have hi := List.mem_range.mp hi
      by_cases hb : (chunk k a.data i).any id = true
      · congr 2
        refine agree_chunk fun j hj => he _ ?_
        simp only [flatMask, if_true]
        rw [positions_flatMap (k := k - 1) _ (fun i _ => by simp), List.mem_flatMap]
        refine ⟨i, List.mem_range.mpr hi, ?_⟩
        rw [hb, positions_replicate_true, List.mem_map]
        exact ⟨j, List.mem_range.mpr hj, by omega⟩
      · rw [maskSelect_none (by simpa using hb), maskSelect_none (by simpa using hb)]
  | hpsd n lb dv fd =>
    intro hw b l l' v v' hb hs h h' he
    obtain ⟨c, rfl, _⟩ := fold_shape (p := .psd n lb dv fd) hw rfl (vv := none) (by rw [fold_true]; exact h)
    obtain ⟨c', rfl, _⟩ := fold_shape (p := .psd n lb dv fd) hw rfl (vv := none) (by rw [fold_true]; exact h')
    cases b with
    | dict d => simp [Spec.ShapeOk] at hs
    | arr a =>
      by_cases hb : a.data.any id = true
      · have h1 := foldFree_ok_len h
        have h1' := foldFree_ok_len h'
        simp only [vec_data, flatLen, if_true] at h1 h1'
        have : l = l' := by
          apply List.ext_getElem?
          intro i
          by_cases hi : i < tri n
          · apply he
            simp only [flatMask, if_true, hb, positions_replicate_true, List.mem_range]
            exact hi
          · rw [List.getElem?_eq_none (by rw [h1]; simp [tri] at hi ⊢; omega),
              List.getElem?_eq_none (by rw [h1']; simp [tri] at hi ⊢; omega)]
        subst this
        rw [h] at h'
        cases h'; rfl
      · rw [marked_arr rfl, marked_arr rfl, maskSelect_none (by simpa using hb), maskSelect_none (by simpa using hb)]
  | harr s q fd ih =>
    intro hw b l l' v v' hb hs h h' he
    cases b with
    | dict d => simp [Spec.ShapeOk] at hs
    | arr a =>
      simp only [Pattern.WF] at hw
      simp only [Spec.ShapeOk] at hs
      have hlen := foldFree_ok_len h
      have hlen' := foldFree_ok_len h'
      simp only [vec_data, flatLen] at hlen hlen'
      rw [foldFree_array_unfold, checkFlat_vec (by simpa [flatLen] using hlen)] at h
      rw [foldFree_array_unfold, checkFlat_vec (by simpa [flatLen] using hlen')] at h'
      replace h := bind_ok h; obtain ⟨_, e, h⟩ := h; cases e
      replace h := bind_ok h; obtain ⟨c, h1, h⟩ := h; cases h
      replace h' := bind_ok h'; obtain ⟨_, e, h'⟩ := h'; cases e
      replace h' := bind_ok h'; obtain ⟨c', h1', h'⟩ := h'; cases h'
      have hf : ∀ y b, q.foldFree y = .ok (.arr b) → b.shape = q.shape ∧ b.data.length = q.shape.prod := by
        intro y b hy
        obtain ⟨b', e, h3⟩ := fold_shape hw.2.2 hw.2.1 (vv := none) (by rw [fold_true]; exact hy)
        cases e; exact h3
      obtain ⟨g1, g2, g3⟩ := foldItems_items hf h1
      obtain ⟨g1', g2', g3'⟩ := foldItems_items hf h1'
      have hla : a.data.length = s.prod * q.shape.prod := by
        have : a.data.length = a.shape.prod := hb
        rw [this, hs, List.prod_append]
      have hlc : c.data.length = s.prod * q.shape.prod := by
        have : c.data.length = c.shape.prod := g2
        rw [this, g1, List.prod_append]
      have hlc' : c'.data.length = s.prod * q.shape.prod := by
        have : c'.data.length = c'.shape.prod := g2'
        rw [this, g1', List.prod_append]
      rw [marked_arr rfl, marked_arr rfl, ← chunk_flatMap _ _ _ hla, ← chunk_flatMap _ _ _ hlc,
        ← chunk_flatMap _ _ _ hlc', maskSelect_flatMap _ _ (fun i hi => length_chunk hlc hi) (fun i hi => length_chunk hla hi),
        maskSelect_flatMap _ _ (fun i hi => length_chunk hlc' hi) (fun i hi => length_chunk hla hi)]
      apply List.flatMap_congr
      intro i hi
      have hi := List.mem_range.mp hi
      have hso := shapeOk_of_shape hw.2.2 hw.2.1 (chunk q.shape.prod a.data i)
      have := ih hw.2.2 (.arr ⟨q.shape, chunk q.shape.prod a.data i⟩) _ _ _ _ (chunk_wf hb hs hi) hso (g3 i hi) (g3' i hi)
        (fun j hj => by
          have hj' : j < q.flatLen true := by
            have := (List.mem_filter.mp hj).1
            rw [List.mem_range, length_flatMask true q hw.2.2 _ (chunk_wf hb hs hi) hso] at this
            exact this
          simp only [vec_data, chunk, List.getElem?_take, List.getElem?_drop, hj', if_true]
          apply he
          simp only [flatMask]
          rw [positions_flatMap (k := q.flatLen true) _ (fun i hi => length_flatMask true q hw.2.2 _
            (chunk_wf hb hs hi) (shapeOk_of_shape hw.2.2 hw.2.1 _)), List.mem_flatMap]
          exact ⟨i, List.mem_range.mpr hi, List.mem_map.mpr ⟨j, hj, by omega⟩⟩)
      rwa [marked_arr hw.2.1, marked_arr hw.2.1] at this
  | hdict es lk fd ih =>
    intro hw b l l' v v' hb hs h h' he
    cases b with
    | arr a => simp [Spec.ShapeOk] at hs
    | dict bs =>
      simp only [Pattern.WF] at hw
      have hlen := foldFree_ok_len h
      have hlen' := foldFree_ok_len h'
      simp only [vec_data, flatLen] at hlen hlen'
      rw [foldFree_dict_unfold, checkFlat_vec (by simpa [flatLen] using hlen)] at h
      rw [foldFree_dict_unfold, checkFlat_vec (by simpa [flatLen] using hlen')] at h'
      replace h := bind_ok h; obtain ⟨_, e, h⟩ := h; cases e
      replace h := bind_ok h; obtain ⟨c, h1, h⟩ := h; cases h
      replace h' := bind_ok h'; obtain ⟨_, e, h'⟩ := h'; cases e
      replace h' := bind_ok h'; obtain ⟨c', h1', h'⟩ := h'; cases h'
      simp only [Spec.marked]
      exact ih hw.2 hw.1 bs l l' 0 c c' hb hs h1 h1' (by simpa [flatMask] using he)
  | hnil _ _ bs l l' off vs vs' _ _ _ _ _ => simp [Spec.markedEs]
  | hcons k p r ihp ihr hw hnd bs l l' off vs vs' hb hs h h' he =>
    simp only [WFEs] at hw
    obtain ⟨hk, hnd⟩ := nodup_keys_cons hnd
    simp only [Spec.ShapeOkEs] at hs
    obtain ⟨⟨b, hl, hb1⟩, hs⟩ := hs
    simp only [foldFreeEs] at h h'
    replace h := bind_ok h; obtain ⟨c, h1, h⟩ := h
    replace h := bind_ok h; obtain ⟨d, h2, h⟩ := h; cases h
    replace h' := bind_ok h'; obtain ⟨c', h1', h'⟩ := h'
    replace h' := bind_ok h'; obtain ⟨d', h2', h'⟩ := h'; cases h'
    simp only [flatMaskEs, hl, positions_append, List.mem_append] at he
    simp only [Spec.markedEs, hl, List.lookup, beq_self_eq_true, markedEs_cons_irrel hk]
    have hml := length_flatMask true p hw.1 b (WFEs_lookup hb hl) hb1
    rw [ihp hw.1 b _ _ c c' (WFEs_lookup hb hl) hb1 h1 h1' (fun j hj => by
        have hj' : j < p.flatLen true := by
          have := (List.mem_filter.mp hj).1
          rwa [List.mem_range, hml] at this
        simp only [vec_data, List.getElem?_take, List.getElem?_drop, hj', if_true]
        exact he j (Or.inl hj)),
      ihr hw.2.2 hnd bs l l' _ d d' hb hs h2 h2' (fun j hj => by
        have := he (j + p.flatLen true) (Or.inr (List.mem_map.mpr ⟨j, hj, by rw [hml]⟩))
        rwa [show off + p.flatLen true + j = off + (j + p.flatLen true) by omega])]

/-! ### The theorems -/

/-- **C36.**  For every pattern, every boolean mask of the pattern's folded structure and every value that flattens:
`flat_indices(mask, free=False)` succeeds, and the entries of the non-free flat vector at those indices are, in order,
exactly the entries of the value where the mask is true. -/
theorem C36_nonfree_indices {p : Pattern} (hp : Built p) {b : Val Bool} (hb : b.WF) (hs : Spec.ShapeOk p b)
    {v : Val Flt} (hv : v.WF) {vv : Option Bool} {x : NDArray Flt} (h : p.flatten v (some false) vv = .ok x) :
    ∃ idx, p.flatIndices b (some false) = .ok idx ∧ idx.map (x.data[·]?) = (Spec.marked p b v).map some := by
  rw [flatten_false] at h
  obtain ⟨hacc, hne⟩ := flattenNF_ok_imp p hp.wf v vv x hv h
  rw [flattenNF_eq p hp.wf v vv hv hne hacc] at h
  cases h
  have hab := (shapeOk_iff_acc p hp.wf b).mpr hs
  refine ⟨_, by rw [flatIndices_some, flatIdx_eq false p hp.wf b hb hs], ?_⟩
  rw [marked_eq p hp.wf b v vv hb hv hab hacc, flatMask_false p hp.wf b hb hs, vec_data]
  exact maskSelect_positions _ _ (by rw [length_flat p hp.wf v vv hv hacc, length_flat p hp.wf b _ hb hab])

/-- C36 is not vacuous: the nested example has a mask with every entry marked and a value that flattens. -/
example : ∃ (b : Val Bool) (v : Val Flt) (x : NDArray Flt), b.WF ∧ Spec.ShapeOk exPat b ∧ v.WF ∧
    exPat.flatten v (some false) none = .ok x ∧ Spec.countMarked exPat b = 14 := by
  obtain ⟨v, x, _, h1, _, h2, _⟩ := exPat_value
  refine ⟨unflat exPat (List.replicate 14 true), v, x, ?_, unflat_shapeOk _ exPat_wf _, h1, h2, ?_⟩
  · exact unflat_wf _ exPat_wf _ (by simp [exPat, exInner, flatLen, flatLenEs])
  · rw [countMarked_eq _ _ (unflat_shapeOk _ exPat_wf _), flat_unflat _ exPat_wf _
      (by simp [exPat, exInner, flatLen, flatLenEs])]
    simp

/-- **C37.**  For every pattern and every boolean mask of the pattern's folded structure, `flat_indices(mask,
free=True)` succeeds; and if two free vectors both fold and agree on the listed coordinates, the folded values agree at
every marked entry.  A coordinate that is not listed cannot influence a marked entry. -/
theorem C37_free_indices {p : Pattern} (hp : Built p) {b : Val Bool} (hb : b.WF) (hs : Spec.ShapeOk p b) :
    ∃ idx, p.flatIndices b (some true) = .ok idx ∧
      ∀ (l l' : List Flt) (vv vv' : Option Bool) (v v' : Val Flt), p.fold (vec l) (some true) vv = .ok v →
        p.fold (vec l') (some true) vv' = .ok v' → (∀ i ∈ idx, l[i]? = l'[i]?) →
        Spec.marked p b v = Spec.marked p b v' := by
  refine ⟨_, by rw [flatIndices_some, flatIdx_eq true p hp.wf b hb hs], fun l l' vv vv' v v' h h' he => ?_⟩
  rw [fold_true] at h h'
  exact free_marked p hp.wf b l l' v v' hb hs h h' he

/-- C37 is not vacuous and not trivial: in `{"a": vector of 2, "s": simplex of 3}` with only an entry of `s` marked, the
listed free coordinates are 2 and 3, so free vectors may differ at 0 and 1. -/
example : let p : Pattern := .dict (.cons "a" (.numeric .vector [2] (.flt .ninf) (.flt .pinf) true none)
      (.cons "s" (.simplex 3 [] true none) .nil)) false none
    let b : Val Bool := .dict [("a", .arr (vec [false, false])), ("s", .arr (vec [false, false, true]))]
    Built p ∧ b.WF ∧ Spec.ShapeOk p b ∧ p.flatIndices b (some true) = .ok [2, 3] ∧
      (∃ v, p.fold (vec ([0, 1, 2, 3].map Flt.fin)) (some true) none = .ok v) ∧
      ∃ v, p.fold (vec ([5, 6, 2, 3].map Flt.fin)) (some true) none = .ok v := by
  intro p b
  have hw : p.WF := by
    simp [p, Pattern.WF, WFEs, Entries.keys, Entries.toList, lock, isDict, PyNum.toFlt, Flt.lt]
  have hf : p.FiniteLb := by simp [p, FiniteLb, FiniteLbEs]
  have hb : b.WF := by simp [b, Val.WF, Val.WFEs, NDArray.WF, vec]
  have hs : Spec.ShapeOk p b := by
    rw [Spec.ShapeOk, Spec.ShapeOkEs, Spec.ShapeOkEs, Spec.ShapeOkEs]
    exact ⟨⟨_, rfl, by rw [Spec.ShapeOk]; rfl⟩, ⟨_, rfl, by rw [Spec.ShapeOk]; rfl⟩, trivial⟩
  refine ⟨WF.built _ hw, hb, hs, ?_, ?_, ?_⟩
  · rw [flatIndices_some, flatIdx_eq true p hw b hb hs]
    simp [p, b, flatMask, flatMaskEs, List.lookup, positions, chunk, List.range_succ]
  · obtain ⟨v, h, _⟩ := free_vec p hw hf [0, 1, 2, 3] (by simp [p, flatLen, flatLenEs])
    exact ⟨v, by rw [fold_true]; exact h⟩
  · obtain ⟨v, h, _⟩ := free_vec p hw hf [5, 6, 2, 3] (by simp [p, flatLen, flatLenEs])
    exact ⟨v, by rw [fold_true]; exact h⟩

/-- **C38.**  For every pattern, mask of the pattern's structure and explicit `free`: `flat_indices` succeeds, its
elements are strictly increasing and smaller than `flat_length(free)`; it is empty when nothing is marked; and with
`free=False` it has as many elements as there are marked entries. -/
theorem C38_indices_sorted {p : Pattern} (hp : Built p) {b : Val Bool} (hb : b.WF) (hs : Spec.ShapeOk p b) (free : Bool) :
    ∃ idx n, p.flatIndices b (some free) = .ok idx ∧ p.flatLength (some free) = .ok n ∧ idx.Pairwise (· < ·) ∧
      (∀ i ∈ idx, i < n) ∧ (Spec.countMarked p b = 0 → idx = []) ∧
      (free = false → idx.length = Spec.countMarked p b) := by
  refine ⟨_, _, by rw [flatIndices_some, flatIdx_eq free p hp.wf b hb hs], flatLength_some _ _, positions_sorted _,
    fun i hi => ?_, fun h => ?_, ?_⟩
  · have := (List.mem_filter.mp hi).1
    rwa [List.mem_range, length_flatMask free p hp.wf b hb hs] at this
  · apply positions_eq_nil
    have hw := hp.wf
    clear hp
    revert b hw
    induction p using Pattern.ind
      (Q := fun es => ∀ bs : List (String × Val Bool), Val.WFEs bs → Spec.ShapeOkEs es bs → WFEs es →
        Spec.countMarkedEs es bs = 0 → (flatMaskEs free es bs).any id = false) with
    | hdict es l fd ih =>
      intro b hb hs h hw
      cases b with
      | arr a => simp [Spec.ShapeOk] at hs
      | dict bs => exact ih bs hb hs hw.2 h
    | hnil bs _ _ _ _ => simp [flatMaskEs]
    | hcons k p r ihp ihr bs hb hs hw h =>
      simp only [WFEs] at hw
      simp only [Spec.ShapeOkEs] at hs
      obtain ⟨⟨b, hl, hb1⟩, hs⟩ := hs
      simp only [Spec.countMarkedEs, hl, Nat.add_eq_zero_iff] at h
      simp only [flatMaskEs, hl, List.any_append, Bool.or_eq_false_iff]
      exact ⟨ihp (WFEs_lookup hb hl) hb1 h.1 hw.1, ihr bs hb hs hw.2.2 h.2⟩
    | _ =>
      intro b hb hs h hw
      cases b with
      | dict d => simp [Spec.ShapeOk] at hs
      | arr a =>
        apply flatMask_none
        simp only [Spec.countMarked, List.count_eq_zero] at h
        rw [List.any_eq_false]
        intro x hx
        cases x
        · simp
        · exact absurd hx h
  · rintro rfl
    rw [length_positions, countMarked_eq p b hs, flatMask_false p hp.wf b hb hs]

/-- C38 is not vacuous: see the mask of the example to C36; here a mask of a 2-vector with one mark. -/
example : let p : Pattern := .numeric .vector [2] (.flt .ninf) (.flt .pinf) true none
    p.flatIndices (.arr (vec [false, true])) (some false) = .ok [1] ∧ Spec.countMarked p (.arr (vec [false, true])) = 1 := by
  intro p
  have hw : p.WF := by simp [p, Pattern.WF, PyNum.toFlt, Flt.lt]
  refine ⟨?_, by simp [p, Spec.countMarked]⟩
  rw [flatIndices_some, flatIdx_eq false p hw _ (by simp [Val.WF, NDArray.WF, vec])
    (by simp [p, Spec.ShapeOk, vec, NDArray.atleast1d])]
  simp [p, flatMask, positions, List.range_succ]

/-- **C38, bad masks.**  A mask of the wrong structure is refused by every container, and by a leaf as soon as something
in it is marked. -/
theorem C38_bad_mask {p : Pattern} (hp : Built p) {b : Val Bool} (hs : ¬ Spec.ShapeOk p b) (free : Option Bool)
    (hm : ∀ a, b = .arr a → p.isDict = false → (∀ s q fd, p ≠ .array s q fd) → true ∈ a.data) :
    ∃ e, p.flatIndices b free = .error e := by
  have hacc := mt (shapeOk_iff_acc p hp.wf b).mp hs
  cases hr : p.flatIndices b free with
  | error e => exact ⟨e, rfl⟩
  | ok idx =>
    exfalso
    have key : ∃ f, p.flatIdx b f = .ok idx := by
      cases p with
      | dict es l fd => simp only [flatIndices] at hr; obtain ⟨f, _, h⟩ := bind_ok hr; exact ⟨f, h⟩
      | array s q fd => simp only [flatIndices] at hr; obtain ⟨f, _, h⟩ := bind_ok hr; exact ⟨f, h⟩
      | _ =>
        cases b with
        | dict d => simp [flatIndices] at hr
        | arr a =>
          have ht : a.data.any id = true := List.any_eq_true.mpr ⟨true, hm a rfl rfl (by simp), rfl⟩
          simp only [flatIndices, ht, Bool.not_true, Bool.false_eq_true, if_false] at hr
          obtain ⟨f, _, h⟩ := bind_ok hr
          exact ⟨f, h⟩
    obtain ⟨f, hf⟩ := key
    cases p with
    | dict es l fd =>
      rw [flatIdx] at hf; obtain ⟨_, h, _⟩ := bind_ok hf
      exact hacc (requireValid_ok_iff.mp h)
    | array s q fd =>
      rw [flatIdx] at hf; obtain ⟨_, h, _⟩ := bind_ok hf
      exact hacc (requireValid_ok_iff.mp h)
    | numeric c s lb ub dv fd =>
      cases b with
      | dict d => simp [flatIdx, Val.asArr, bind, Except.bind] at hf
      | arr a =>
        have ht : a.data.any id = true := List.any_eq_true.mpr ⟨true, hm a rfl rfl (by simp), rfl⟩
        simp only [Spec.ShapeOk] at hs
        simp [flatIdx, Val.asArr, bind, Except.bind, Numeric.flatIndices, ht, Numeric.validateShape, hs] at hf
    | simplex k s dv fd =>
      cases b with
      | dict d => simp [flatIdx, Val.asArr, bind, Except.bind] at hf
      | arr a =>
        have ht : a.data.any id = true := List.any_eq_true.mpr ⟨true, hm a rfl rfl (by simp), rfl⟩
        simp only [Spec.ShapeOk] at hs
        simp [flatIdx, Val.asArr, bind, Except.bind, Simplex.flatIndices, ht, Simplex.validateShape, hs] at hf
    | psd n lb dv fd =>
      cases b with
      | dict d => simp [flatIdx, Val.asArr, bind, Except.bind] at hf
      | arr a =>
        have ht : a.data.any id = true := List.any_eq_true.mpr ⟨true, hm a rfl rfl (by simp), rfl⟩
        simp only [Spec.ShapeOk] at hs
        simp [flatIdx, Val.asArr, bind, Except.bind, PSD.flatIndices, ht, PSD.validateShape, hs] at hf

/-- `C38_bad_mask` is not vacuous: a mask with three entries for a vector of two. -/
example : ∃ e, (Pattern.numeric .vector [2] (.flt .ninf) (.flt .pinf) true none).flatIndices
    (.arr (vec [true, false, false])) (some true) = .error e :=
  C38_bad_mask (WF.built _ (by simp [Pattern.WF, PyNum.toFlt, Flt.lt]))
    (by simp [Spec.ShapeOk, vec, NDArray.atleast1d]) _ (by intro a h _ _; cases h; simp)

end Paragami
