import Verif.Proofs.FreeTrip

/-! # Free flattening then folding, and the sizes of free vectors -/

set_option linter.unusedSimpArgs false

namespace Paragami

open NDArray Spec

namespace Pattern

theorem canon_arr {p : Pattern} (hd : p.isDict = false) (hw : p.WF) (d : List Flt) :
    canon p (.arr ⟨p.shape, d⟩) = .arr ⟨p.shape, d⟩ := by
  cases p with
  | numeric c s lb ub dv fd => simp only [canon, shape]; rw [atleast1d_of_ne (by exact hw.1)]
  | dict es l fd => simp [isDict] at hd
  | _ => simp [canon]

theorem numeric_free_val {c s lb ub dv fd} (hw : (Pattern.numeric c s lb ub dv fd).WF) {a : NDArray Flt}
    (hI : Interior (.numeric c s lb ub dv fd) (.arr a)) : ∃ r : List ℝ, r.length = s.prod ∧
      (∀ vv, (Pattern.numeric c s lb ub dv fd).flattenFree (.arr a) vv = .ok (vec (r.map .fin))) ∧
      (Pattern.numeric c s lb ub dv fd).foldFree (vec (r.map .fin)) = .ok (.arr a.atleast1d) := by
  have hw0 := hw
  have hI0 := hI
  simp only [WF] at hw
  obtain ⟨hs, _, _, h1, h2, h3⟩ := hw
  simp only [Interior] at hI
  obtain ⟨hwf, hsh, hb⟩ := hI
  have hr : ∃ r : List ℝ, a.data.map (unconstrain1 lb.toFlt ub.toFlt) = r.map .fin ∧
      (r.map Flt.fin).map (constrain1 lb.toFlt ub.toFlt) = a.data := by
    generalize a.data = l at hb
    clear hwf hI0
    induction l with
    | nil => exact ⟨[], rfl, rfl⟩
    | cons x l ih =>
      obtain ⟨r, e1, e2⟩ := ih (fun y hy => hb y (by simp [hy]))
      obtain ⟨y, hy1, hy2⟩ := constrain_unconstrain h1 h2 h3 (hb x (by simp)).1 (hb x (by simp)).2
      exact ⟨y :: r, by simp [e1, hy1], by simp only [List.map_cons, e2, hy2]⟩
  obtain ⟨r, e1, e2⟩ := hr
  have hlen : r.length = s.prod := by
    have := congrArg List.length e1
    simp only [List.length_map] at this
    rw [← this, ← hsh, ← atleast1d_data, atleast1d_wf hwf]
  refine ⟨r, hlen, fun vv => ?_, ?_⟩
  · simp only [flattenFree, Val.asArr, bind, Except.bind]
    rw [Numeric.flattenFree_ok]
    exact ⟨acc_numeric_arr.mp (acc_of_interior _ hw0 (by simp [FiniteLb]) _ vv hI0), by rw [e1]⟩
  · simp only [foldFree]
    rw [Numeric.foldFree_ok.mpr ⟨by simp, by simpa using hlen, rfl⟩, vec_data, e2]
    simp only [bind, Except.bind, pure, Except.pure, Except.ok.injEq, Val.arr.injEq, ← hsh]
    rw [← atleast1d_data]

theorem simplex_free_val {k s dv fd} (hw : (Pattern.simplex k s dv fd).WF) {a : NDArray Flt}
    (hI : Interior (.simplex k s dv fd) (.arr a)) : ∃ r : List ℝ, r.length = (s ++ [k - 1]).prod ∧
      (∀ vv, (Pattern.simplex k s dv fd).flattenFree (.arr a) vv = .ok (vec (r.map .fin))) ∧
      (Pattern.simplex k s dv fd).foldFree (vec (r.map .fin)) = .ok (.arr a) := by
  have hw0 := hw
  have hI0 := hI
  simp only [WF] at hw
  simp only [Interior] at hI
  obtain ⟨hwf, hsh, hb⟩ := hI
  have hlen : a.data.length = s.prod * k := by rw [hwf, hsh, List.prod_append]; simp
  have hB : ∀ i, ∃ r : List ℝ, i < s.prod → (r.length = k - 1 ∧
      unconstrainSimplexRow (chunk k a.data i) = r.map .fin ∧ constrainSimplexRow (r.map .fin) = chunk k a.data i) := by
    intro i
    by_cases hi : i < s.prod
    · obtain ⟨q, hq1, hq2, hq3⟩ := hb i hi
      rw [block_eq_chunk] at hq1
      have hql : q.length = k := by
        have := congrArg List.length hq1
        rwa [length_chunk hlen hi, List.length_map, eq_comm] at this
      cases q with
      | nil => simp at hql; omega
      | cons x0 xs =>
        obtain ⟨r, hr1, hr2, hr3⟩ := constrain_unconstrain_simplex (x0 := x0) (xs := xs) (hq2 _ (by simp))
          (fun x hx => hq2 x (by simp [hx]))
        refine ⟨r, fun _ => ⟨by simp at hql; omega, by rw [hq1, hr2], ?_⟩⟩
        rw [hr3, hq1, hq3]
        simp
    · exact ⟨[], fun h => absurd h hi⟩
  choose g hg using hB
  have hgl : ∀ i < s.prod, (g i).length = k - 1 := fun i hi => (hg i hi).1
  have hdl := length_flatMap_range g hgl
  have hdl' : ((List.range s.prod).flatMap g).length = (s ++ [k - 1]).prod := by
    rw [hdl, List.prod_append]; simp
  refine ⟨(List.range s.prod).flatMap g, hdl', fun vv => ?_, ?_⟩
  · simp only [flattenFree, Val.asArr, bind, Except.bind]
    rw [Simplex.flattenFree_ok]
    refine ⟨acc_simplex_arr.mp (acc_of_interior _ hw0 (by simp [FiniteLb]) _ vv hI0), ?_⟩
    simp only [vec_inj, List.map_flatMap]
    exact List.flatMap_congr fun i hi => ((hg i (List.mem_range.mp hi)).2.1).symm
  · simp only [foldFree]
    rw [Simplex.foldFree_ok.mpr ⟨by simp only [vec, NDArray.len, List.length_map, hdl'], by
      rw [vec_data, List.length_map, hdl'], rfl⟩]
    simp only [bind, Except.bind, pure, Except.pure, Except.ok.injEq, Val.arr.injEq]
    obtain ⟨sh, d⟩ := a
    simp only at hsh hlen hg
    simp only [NDArray.mk.injEq, hsh, true_and]
    conv_rhs => rw [← chunk_flatMap _ _ _ hlen]
    apply List.flatMap_congr
    intro i hi
    rw [vec_data, map_fin_chunk, chunk_of_flatMap g hgl (List.mem_range.mp hi)]
    exact (hg i (List.mem_range.mp hi)).2.2

theorem psd_free_val {n lb dv fd} (hf : (Pattern.psd n lb dv fd).FiniteLb) (hw : (Pattern.psd n lb dv fd).WF)
    {a : NDArray Flt} (hI : Interior (.psd n lb dv fd) (.arr a)) : ∃ r : List ℝ, r.length = tri n ∧
      (∀ vv, (Pattern.psd n lb dv fd).flattenFree (.arr a) vv = .ok (vec (r.map .fin))) ∧
      (Pattern.psd n lb dv fd).foldFree (vec (r.map .fin)) = .ok (.arr a) := by
  have hI0 := hI
  have hf0 := hf
  simp only [FiniteLb] at hf
  obtain ⟨l, hl⟩ := Flt.isFin_iff.mp hf
  rw [interior_psd, hl] at hI
  obtain ⟨M, L, rfl, hs, hL⟩ := hI
  simp only [Flt.toReal_fin] at hL
  refine ⟨freeVec n L, length_freeVec n L, fun vv => ?_, ?_⟩
  · simp only [flattenFree, Val.asArr, bind, Except.bind]
    rw [PSD.flattenFree_ok]
    exact ⟨acc_psd_arr.mp (acc_of_interior _ hw hf0 _ vv hI0), by rw [hl, packPosdef_eq hL]⟩
  · have hr := length_freeVec n L
    simp only [foldFree, bind, Except.bind]
    rw [PSD.foldFree_ok.mpr ⟨by simp, by simpa using hr, by rw [atleast1d_of_ne (by simp [vec]), hl, unpackPosdef_fin hr]⟩]
    simp only [pure, Except.pure, Except.ok.injEq, Val.arr.injEq]
    apply ofFn2_congr
    intro i hi j hj
    have hs' : ∀ i j, i < n → j < n → (M i j - if i = j then l else 0) = M j i - if j = i then l else 0 := by
      intro i j hi hj
      rw [hs i j hi hj]; simp only [eq_comm (a := j) (b := i)]
    have := hL.full hs' i hi j hj
    have e : ∑ k ∈ Finset.range n, freeFactor (freeVec n L) i k * freeFactor (freeVec n L) j k =
        ∑ k ∈ Finset.range n, L i k * L j k := by
      refine Finset.sum_congr rfl fun k hk => ?_
      rw [freeFactor_freeVec hL hi (Finset.mem_range.mp hk), freeFactor_freeVec hL hj (Finset.mem_range.mp hk)]
    rw [freeMat, e, this]
    congr 1; ring

/-- Every interior value flattens to a finite vector that folds back to the value. -/
theorem free_val (p : Pattern) (hw : p.WF) (hf : p.FiniteLb) : ∀ v : Val Flt, Interior p v → p.NoEmpty →
    ∃ r : List ℝ, r.length = p.flatLen true ∧ (∀ vv, p.flattenFree v vv = .ok (vec (r.map .fin))) ∧
      p.foldFree (vec (r.map .fin)) = .ok (canon p v) := by
  revert hw hf
  induction p using Pattern.ind
    (Q := fun es => WFEs es → FiniteLbEs es → ∀ vs, InteriorEs es vs → NoEmptyEs es →
      ∃ r : List ℝ, r.length = flatLenEs es true ∧
        (∀ vv, ∃ parts, flattenFreeEs es vs vv = .ok parts ∧ (es ≠ .nil → parts ≠ []) ∧
          parts.flatMap (·.data) = r.map .fin) ∧
        ∀ pre : List ℝ, foldFreeEs es (vec ((pre ++ r).map .fin)) pre.length = .ok (canonEs es vs)) with
  | hnum c s lb ub dv fd =>
    intro hw _ v hI _
    cases v with
    | dict d => simp [Interior] at hI
    | arr a =>
      obtain ⟨r, h1, h2, h3⟩ := numeric_free_val hw hI
      exact ⟨r, by simpa [flatLen] using h1, h2, h3⟩
  | hsim k s dv fd =>
    intro hw _ v hI _
    cases v with
    | dict d => simp [Interior] at hI
    | arr a =>
      obtain ⟨r, h1, h2, h3⟩ := simplex_free_val hw hI
      exact ⟨r, by rw [h1, flatLen, if_pos rfl], h2, h3⟩
  | hpsd n lb dv fd =>
    intro hw hf v hI _
    cases v with
    | dict d => simp [Interior] at hI
    | arr a =>
      obtain ⟨r, h1, h2, h3⟩ := psd_free_val hf hw hI
      exact ⟨r, by simpa [flatLen, tri] using h1, h2, h3⟩
  | harr s b fd ih =>
    intro hw hf v hI hne
    cases v with
    | dict d => simp [Interior] at hI
    | arr a =>
    have hw0 := hw
    have hf0 := hf
    have hI0 := hI
    simp only [WF] at hw
    simp only [FiniteLb] at hf
    simp only [NoEmpty] at hne
    simp only [Interior] at hI
    obtain ⟨hwf, hsh, hb⟩ := hI
    have hlen : a.data.length = s.prod * b.shape.prod := by rw [hwf, hsh, List.prod_append]
    have hB : ∀ i, ∃ r : List ℝ, i < s.prod → (r.length = b.flatLen true ∧
        (∀ vv, b.flattenFree (.arr ⟨b.shape, chunk b.shape.prod a.data i⟩) vv = .ok (vec (r.map .fin))) ∧
        b.foldFree (vec (r.map .fin)) = .ok (.arr ⟨b.shape, chunk b.shape.prod a.data i⟩)) := by
      intro i
      by_cases hi : i < s.prod
      · obtain ⟨r, h1, h2, h3⟩ := ih hw.2.2 hf _ (hb i hi) hne.2
        rw [canon_arr hw.2.1 hw.2.2] at h3
        exact ⟨r, fun _ => ⟨h1, h2, h3⟩⟩
      · exact ⟨[], fun h => absurd h hi⟩
    choose g hg using hB
    have hgl : ∀ i < s.prod, (g i).length = b.flatLen true := fun i hi => (hg i hi).1
    have hdl := length_flatMap_range g hgl
    refine ⟨(List.range s.prod).flatMap g, by rw [hdl, flatLen], fun vv => ?_, ?_⟩
    · rw [flattenFree_array_unfold, requireValid_ok_iff.mpr (acc_of_interior _ hw0 hf0 _ vv hI0)]
      simp only [bind, Except.bind, Val.asArr]
      rw [flattenItems_eq hsh (g := fun i => (g i).map .fin) (fun i hi => (hg i hi).2.1 vv) hne.1, List.map_flatMap]
    · rw [foldFree_array_unfold, checkFlat_vec (by simpa using hdl)]
      simp only [bind, Except.bind]
      rw [foldItems_eq (g := fun i => chunk b.shape.prod a.data i)]
      · simp only [pure, Except.pure, canon, Except.ok.injEq, Val.arr.injEq]
        rw [chunk_flatMap _ _ _ hlen, ← hsh]
      · intro i hi
        rw [vec_data, map_fin_chunk, chunk_of_flatMap g hgl hi]
        exact (hg i hi).2.2
      · exact fun i hi => length_chunk hlen hi
  | hdict es l fd ih =>
    intro hw hf v hI hne
    cases v with
    | arr d => simp [Interior] at hI
    | dict vs =>
    have hw0 := hw
    have hf0 := hf
    have hI0 := hI
    simp only [WF] at hw
    simp only [FiniteLb] at hf
    simp only [NoEmpty] at hne
    simp only [Interior] at hI
    obtain ⟨r, h1, h2, h3⟩ := ih hw.2 hf vs hI hne.2
    refine ⟨r, by rw [h1, flatLen], fun vv => ?_, ?_⟩
    · obtain ⟨parts, h5, h6, h7⟩ := h2 vv
      rw [flattenFree_dict_unfold, requireValid_ok_iff.mpr (acc_of_interior _ hw0 hf0 _ vv hI0)]
      simp only [bind, Except.bind, Val.asDict, h5, hstack]
      have := h6 hne.1
      split
      · contradiction
      · rw [h7]
    · have := h3 []
      simp only [List.nil_append, List.length_nil] at this
      rw [foldFree_dict_unfold, checkFlat_vec (by simpa using h1)]
      simp only [bind, Except.bind, this]
      rfl
  | hnil hw hf vs hI hne =>
    exact ⟨[], by simp [flatLenEs], fun vv => ⟨[], by simp [flattenFreeEs], by simp, by simp⟩,
      fun pre => by simp [foldFreeEs, canonEs]⟩
  | hcons k p rest ihp ihr hw hf vs hI hne =>
    simp only [WFEs] at hw
    simp only [FiniteLbEs] at hf
    simp only [InteriorEs] at hI
    simp only [NoEmptyEs] at hne
    obtain ⟨⟨v, hl, hv⟩, hI⟩ := hI
    obtain ⟨r1, a1, a2, a3⟩ := ihp hw.1 hf.1 v hv hne.1
    obtain ⟨r2, b1, b2, b3⟩ := ihr hw.2.2 hf.2 vs hI hne.2
    refine ⟨r1 ++ r2, by simp [a1, b1, flatLenEs], fun vv => ?_, fun pre => ?_⟩
    · obtain ⟨parts, h5, _, h7⟩ := b2 vv
      refine ⟨vec (r1.map .fin) :: parts, ?_, by simp, by simp [h7]⟩
      simp only [flattenFreeEs, hl, a2 vv, bind, Except.bind, h5]
      rfl
    · have e1 : (vec ((pre ++ (r1 ++ r2)).map Flt.fin)).slice pre.length (p.flatLen true) = vec (r1.map .fin) := by
        simp only [slice, vec_data, vec_inj, ← List.map_drop, ← List.map_take, List.drop_left, ← a1, List.take_left]
      have e2 := b3 (pre ++ r1)
      rw [List.append_assoc, List.length_append, a1] at e2
      simp only [foldFreeEs, e1, a3, e2, bind, Except.bind, canonEs, hl]
      rfl

/-! ### Sizes -/

theorem foldFree_ok_len {p : Pattern} {x : NDArray Flt} {v : Val Flt} (h : p.foldFree x = .ok v) :
    x.data.length = p.flatLen true := by
  cases p with
  | numeric c s lb ub dv fd =>
    simp only [foldFree] at h
    obtain ⟨a, h1, _⟩ := bind_ok h
    rw [Numeric.foldFree_ok] at h1
    simp [flatLen, h1.2.1]
  | simplex k s dv fd =>
    simp only [foldFree] at h
    obtain ⟨a, h1, _⟩ := bind_ok h
    rw [Simplex.foldFree_ok] at h1
    rw [flatLen, if_pos rfl, h1.2.1]
  | psd n lb dv fd =>
    simp only [foldFree] at h
    obtain ⟨a, h1, _⟩ := bind_ok h
    rw [PSD.foldFree_ok] at h1
    simp [flatLen, h1.2.1, tri]
  | array s b fd =>
    rw [foldFree_array_unfold] at h
    obtain ⟨a, h1, _⟩ := bind_ok h
    rw [flatLen, (checkFlat_ok h1).2.2]
  | dict es l fd =>
    rw [foldFree_dict_unfold] at h
    obtain ⟨a, h1, _⟩ := bind_ok h
    rw [flatLen, (checkFlat_ok h1).2.2]

theorem length_unconstrainSimplexRow (l : List Flt) : (unconstrainSimplexRow l).length = l.length - 1 := by
  cases l <;> simp [unconstrainSimplexRow]

theorem packPosdef_len {n : Nat} {lb : Flt} {a x : NDArray Flt} (h : packPosdef n lb a = .ok x) :
    x = vec x.data ∧ x.data.length = tri n := by
  unfold packPosdef at h
  obtain ⟨c, _, h⟩ := bind_ok h
  unfold logDiag at h
  rw [vectorizeLd_ofFn2] at h
  cases h
  simp [length_trilIndices]

theorem mapE_flatMap_len {f : Nat → Except Err (NDArray Flt)} {m : Nat}
    (hf : ∀ i x, f i = .ok x → x.data.length = m) :
    ∀ (l : List Nat) (parts : List (NDArray Flt)), mapE f l = .ok parts → (parts.flatMap (·.data)).length = l.length * m := by
  intro l
  induction l with
  | nil => intro parts h; simp [mapE] at h; subst h; simp
  | cons a l ih =>
    intro parts h
    simp only [mapE] at h
    split at h
    · simp at h
    · next b hb =>
      split at h
      · simp at h
      · next bs hbs =>
        simp at h; subst h
        simp only [List.flatMap_cons, List.length_append, hf a b hb, ih bs hbs, List.length_cons]
        ring

/-- A successful free flatten returns a vector of the advertised length (and the value was accepted by validation). -/
theorem flattenFree_ok_len (p : Pattern) (hw : p.WF) : ∀ (v : Val Flt) (vv) (x), v.WF → p.flattenFree v vv = .ok x →
    Acc p v vv ∧ x = vec x.data ∧ x.data.length = p.flatLen true := by
  revert hw
  induction p using Pattern.ind
    (Q := fun es => WFEs es → ∀ (vs : List (String × Val Flt)) (vv) parts, Val.WFEs vs →
      flattenFreeEs es vs vv = .ok parts → (parts.flatMap (·.data)).length = flatLenEs es true) with
  | hnum c s lb ub dv fd =>
    intro hw v vv x hv h
    simp only [flattenFree] at h
    replace h := bind_ok h; obtain ⟨a, h1, h⟩ := h
    rw [asArr_ok] at h1; subst h1
    rw [Numeric.flattenFree_ok] at h
    obtain ⟨h1, rfl⟩ := h
    refine ⟨acc_numeric_arr.mpr h1, by simp, ?_⟩
    obtain ⟨_, h2, _⟩ := numeric_validate_true.mp h1
    simp only [vec_data, List.length_map, flatLen]
    rw [← h2, ← atleast1d_data, atleast1d_wf hv]
  | hsim k s dv fd =>
    intro hw v vv x hv h
    simp only [flattenFree] at h
    replace h := bind_ok h; obtain ⟨a, h1, h⟩ := h
    rw [asArr_ok] at h1; subst h1
    rw [Simplex.flattenFree_ok] at h
    obtain ⟨h1, rfl⟩ := h
    refine ⟨acc_simplex_arr.mpr h1, by simp, ?_⟩
    obtain ⟨_, h2, _⟩ := simplex_validate_true.mp h1
    have hlen : a.data.length = s.prod * k := by rw [hv, h2, List.prod_append]; simp
    rw [vec_data, length_flatMap_range (k := k - 1), flatLen, if_pos rfl, List.prod_append]
    · simp
    · intro i hi
      rw [length_unconstrainSimplexRow, length_chunk hlen hi]
  | hpsd n lb dv fd =>
    intro hw v vv x hv h
    simp only [flattenFree] at h
    replace h := bind_ok h; obtain ⟨a, h1, h⟩ := h
    rw [asArr_ok] at h1; subst h1
    rw [PSD.flattenFree_ok] at h
    have := packPosdef_len h.2
    exact ⟨acc_psd_arr.mpr h.1, this.1, by rw [this.2]; simp [flatLen, tri]⟩
  | harr s b fd ih =>
    intro hw v vv x hv h
    simp only [WF] at hw
    rw [flattenFree_array_unfold] at h
    replace h := bind_ok h; obtain ⟨_, h1, h⟩ := h
    replace h := bind_ok h; obtain ⟨a, h2, h⟩ := h
    rw [asArr_ok] at h2; subst h2
    have hacc : Acc (.array s b fd) (.arr a) vv := requireValid_ok_iff.mp h1
    refine ⟨hacc, ?_⟩
    rw [acc_array] at hacc
    obtain ⟨a', e, hsh, _⟩ := hacc
    cases e
    unfold flattenItems at h
    have h0 : mapE (fun item => (a.getItem item >>= fun sub => b.flattenFree (.arr sub) vv)) (productRanges s) =
        mapE (fun item => b.flattenFree (.arr ⟨b.shape, chunk b.shape.prod a.data (ravel s item)⟩) vv)
          (productRanges s) := by
      apply mapE_congr
      intro item hi
      rw [getItem_eq hsh hi]; rfl
    rw [h0, mapE_productRanges s (fun i => b.flattenFree (.arr ⟨b.shape, chunk b.shape.prod a.data i⟩) vv)] at h
    replace h := bind_ok h; obtain ⟨parts, h3, h⟩ := h
    have hl : (parts.flatMap (·.data)).length = s.prod * b.flatLen true := by
      have h3' : mapE (fun i => if i < s.prod then
          b.flattenFree (.arr ⟨b.shape, chunk b.shape.prod a.data i⟩) vv else .error .indexError) (List.range s.prod) =
          .ok parts := by
        rw [← h3]
        apply mapE_congr
        intro i hi
        rw [if_pos (List.mem_range.mp hi)]
      have := mapE_flatMap_len (m := b.flatLen true) ?_ _ _ h3'
      · simpa using this
      · intro i x hx
        split at hx
        · next hi => exact (ih hw.2.2 _ vv x (chunk_wf hv hsh hi) hx).2.2
        · simp at hx
    unfold hstack at h
    split at h
    · simp at h
    · simp only [Except.ok.injEq] at h; subst h
      exact ⟨by simp, by rw [vec_data, hl, flatLen]⟩
  | hdict es l fd ih =>
    intro hw v vv x hv h
    simp only [WF] at hw
    rw [flattenFree_dict_unfold] at h
    replace h := bind_ok h; obtain ⟨_, h1, h⟩ := h
    replace h := bind_ok h; obtain ⟨vs, h2, h⟩ := h
    replace h := bind_ok h; obtain ⟨parts, h3, h⟩ := h
    cases v with
    | arr a => simp [Val.asDict] at h2
    | dict d =>
      simp only [Val.asDict, Except.ok.injEq] at h2; subst h2
      refine ⟨requireValid_ok_iff.mp h1, ?_⟩
      have := ih hw.2 d vv parts hv h3
      unfold hstack at h
      split at h
      · simp at h
      · simp only [Except.ok.injEq] at h; subst h
        exact ⟨by simp, by rw [vec_data, this, flatLen]⟩
  | hnil hw vs vv parts hv h => simp [flattenFreeEs] at h; subst h; simp [flatLenEs]
  | hcons k p r ihp ihr hw vs vv parts hv h =>
    simp only [WFEs] at hw
    simp only [flattenFreeEs] at h
    split at h
    · simp at h
    · next v hl =>
      replace h := bind_ok h; obtain ⟨y, h1, h⟩ := h
      replace h := bind_ok h; obtain ⟨ys, h2, h⟩ := h
      cases h
      have a1 := (ihp hw.1 v vv y (WFEs_lookup hv hl) h1).2.2
      have a2 := ihr hw.2.2 vs vv ys hv h2
      simp only [List.flatMap_cons, List.length_append, a1, a2, flatLenEs]

end Pattern

end Paragami
