import Verif.Proofs.Rounding
import Verif.Proofs.Regroup

/-! # Rounded folds of whole patterns -/

set_option linter.unusedSimpArgs false

namespace Paragami
open NDArray Flt Pattern

/-! ### Without rounding -/

namespace Arith

theorem exact_round (x : Flt) : exact.round x = x := by cases x <;> rfl
theorem exact_add (a b : Flt) : exact.add a b = a + b := exact_round _
theorem exact_sub (a b : Flt) : exact.sub a b = a - b := exact_round _
theorem exact_mul (a b : Flt) : exact.mul a b = a * b := exact_round _
theorem exact_div (a b : Flt) : exact.div a b = a / b := exact_round _

theorem exact_constrain1 (lb ub : Flt) : constrain1A exact lb ub = constrain1 lb ub := by
  funext y; simp only [constrain1A, constrain1, exact_add, exact_sub, exact_mul, exact_div]; rfl

theorem exact_simplexRow : constrainSimplexRowA exact = constrainSimplexRow := by
  funext row
  simp only [constrainSimplexRowA, constrainSimplexRow, logsumexp1A, logsumexp1, lseSum, lseShift, exact_add, exact_sub,
    List.map_map]
  rfl

theorem exact_unpack (lb : Flt) (v : NDArray Flt) : unpackPosdefA exact lb v = unpackPosdef lb v := by
  have hd : ∀ l, exact.dot l = Flt.sum (l.map fun p => p.1 * p.2) := fun _ => rfl
  have he : exact.exp = Flt.exp := rfl
  simp only [unpackPosdefA, unpackPosdef, expDiagA, expDiag, exact_add, exact_sub, hd, he, List.map_map]
  rfl

theorem exact_pack (n : Nat) (lb : Flt) (v : NDArray Flt) : packPosdefA exact n lb v = packPosdef n lb v := by
  simp only [packPosdefA, packPosdef, logDiagA, logDiag, exact_add, exact_sub]
  rfl

theorem exact_foldFree (p : Pattern) : ∀ x, p.foldFreeA exact x = p.foldFree x := by
  induction p using Pattern.ind (Q := fun es => ∀ x off, foldFreeAEs exact es x off = foldFreeEs es x off) with
  | hnum c s lb ub dv fd =>
    intro x; simp only [foldFreeA, foldFree, Numeric.foldFreeA, Numeric.foldFree, exact_constrain1]
  | hsim k s dv fd =>
    intro x; simp only [foldFreeA, foldFree, Simplex.foldFreeA, Simplex.foldFree, exact_simplexRow]
  | hpsd n lb dv fd =>
    intro x; simp only [foldFreeA, foldFree, PSD.foldFreeA, PSD.foldFree, exact_unpack]
  | harr s b fd ih => intro x; simp only [foldFreeA, foldFree, ih]
  | hdict es l fd ih => intro x; simp only [foldFreeA, foldFree, ih]
  | hnil x off => simp only [foldFreeAEs, foldFreeEs]
  | hcons k p r ihp ihr x off => simp only [foldFreeAEs, foldFreeEs, ihp, ihr]

end Arith

/-! ### Leaves -/

section Leaves
variable {A : Arith}

theorem numeric_foldFreeA {s : List Nat} {lb ub : Flt} {l : List Flt} (h : l.length = s.prod) :
    Numeric.foldFreeA A s lb ub (vec l) = .ok ⟨s, l.map (constrain1A A lb ub)⟩ := by
  simp [Numeric.foldFreeA, NDArray.map, reshape, size, h, pure, Except.pure, vec, atleast1d, ndim, bind, Except.bind]

theorem simplex_foldFreeA {s : List Nat} {k : Nat} {l : List Flt} (h : l.length = (s ++ [k - 1]).prod) :
    Simplex.foldFreeA A k s (vec l) =
      .ok ⟨s ++ [k], (List.range s.prod).flatMap fun i => constrainSimplexRowA A (chunk (k - 1) l i)⟩ := by
  have h' : l.length = s.prod * (k - 1) := by simpa using h
  simp [Simplex.foldFreeA, NDArray.len, reshape, size, h', pure, Except.pure, vec, bind, Except.bind, rows, List.flatMap_map, chunk]

/-- The computed Cholesky factor of a free vector. -/
noncomputable def factorA (A : Arith) (l : List Flt) (i j : Nat) : Flt :=
  A.sub (A.add (if i = j then A.exp (if i ≤ i then l.getD (symIndex i i) .nan else 0) else 0)
    (if j ≤ i then l.getD (symIndex i j) .nan else 0)) (if i = j then (if i ≤ i then l.getD (symIndex i i) .nan else 0) else 0)

theorem psd_foldFreeA {n : Nat} {lb : Flt} {l : List Flt} (h : l.length = tri n) :
    PSD.foldFreeA A n lb (vec l) = .ok (ofFn2 n n fun i j =>
      A.add (A.dot ((List.range n).map fun k => (factorA A l i k, factorA A l j k))) (if i = j then lb else 0)) := by
  have h0 : ¬ (vec l).ndim ≠ 1 := by simp [vec, ndim]
  have h1 : ¬ tri n ≠ n * (n + 1) / 2 := by simp [tri]
  have h2 : (vec l).atleast1d = vec l := atleast1d_of_ne (by simp [vec])
  simp only [PSD.foldFreeA, h2, vec_size, h]
  rw [if_neg h0, if_neg h1]
  simp only [bind, Except.bind, pure, Except.pure, unpackPosdefA, unvectorizeLd_vec h, vec_size, h, matSize_tri, Except.ok.injEq]
  apply ofFn2_congr
  intro i hi j hj
  rw [entry_ofFn2 _ _ _ hi hj]
  congr 2
  apply List.map_congr_left
  intro k hk
  have hk := List.mem_range.mp hk
  simp only [expDiagA, entry_ofFn2 _ _ _ hi hk, entry_ofFn2 _ _ _ hj hk, entry_ofFn2 _ _ _ hi hi, entry_ofFn2 _ _ _ hj hj, factorA]

theorem Arith.Sane.factor_notNaN (h : A.Sane) {l : List Flt} {n i j : Nat} (hl : l.length = tri n) (hf : ∀ x ∈ l, x.IsFin)
    (hi : i < n) : (factorA A l i j).NotNaN := by
  have hg : ∀ j ≤ i, ∃ r, l.getD (symIndex i j) .nan = .fin r := by
    intro j hj
    have hlt : symIndex i j < l.length := by rw [hl]; exact symIndex_lt hi hj
    rw [List.getD, List.getElem?_eq_getElem hlt, Option.getD_some]
    exact isFin_iff.mp (hf _ (List.getElem_mem _))
  have key : ∀ (e : Flt) (r : ℝ), e.NotNaN → (A.add e (.fin r)).NotNaN := by
    intro e r he
    apply h.round_notNaN
    cases e with
    | nan => exact he.elim
    | _ => trivial
  have key2 : ∀ (e : Flt) (r : ℝ), e.NotNaN → (A.sub e (.fin r)).NotNaN := by
    intro e r he
    apply h.round_notNaN
    cases e with
    | nan => exact he.elim
    | fin q => rw [sub_fin]; trivial
    | _ => trivial
  simp only [factorA, le_refl, if_true]
  obtain ⟨r, hr⟩ := hg i le_rfl
  have hz : ∃ z, (0 : Flt) = .fin z := ⟨_, rfl⟩
  obtain ⟨z, hz⟩ := hz
  have h3 : ∃ q, (if j ≤ i then l.getD (symIndex i j) .nan else 0) = .fin q := by
    by_cases hj : j ≤ i
    · rw [if_pos hj]; exact hg j hj
    · rw [if_neg hj]; exact ⟨_, hz⟩
  obtain ⟨q, hq⟩ := h3
  rw [hq, hr]
  by_cases hij : i = j
  · simp only [if_pos hij]
    exact key2 _ _ (key _ _ (le_notNaN (h.exp_nonneg r)).2)
  · simp only [if_neg hij, hz]
    exact key2 _ _ (key _ _ trivial)

theorem acc_numeric_A (h : A.Sane) {c s lb ub dv fd} (hw : (Pattern.numeric c s lb ub dv fd).WF)
    (hs : Spec.RoundSafe A (.numeric c s lb ub dv fd)) {l : List Flt} (hl : ∀ x ∈ l, x.IsFin) (vv) :
    Acc (.numeric c s lb ub dv fd) (.arr ⟨s, l.map (constrain1A A lb.toFlt ub.toFlt)⟩) vv := by
  rw [acc_numeric]
  simp only [Pattern.WF] at hw
  simp only [Spec.RoundSafe] at hs
  refine ⟨_, rfl, by rw [atleast1d_of_ne (by exact hw.1)], fun _ x hx => ?_⟩
  obtain ⟨y, hy, rfl⟩ := List.mem_map.mp hx
  change (constrain1A A lb.toFlt ub.toFlt y).lt lb.toFlt = false ∧ (constrain1A A lb.toFlt ub.toFlt y).gt ub.toFlt = false
  have hyn : y.NotNaN := by
    obtain ⟨r, rfl⟩ := isFin_iff.mp (hl y hy); trivial
  obtain ⟨hsl, hsu, hs⟩ := hs
  have hlt : lb.toFlt.lt ub.toFlt = true := hw.2.2.2.2.2
  have fl : ∀ x : Flt, x = .nan ∨ lb.toFlt.le x = true → x.lt lb.toFlt = false := by
    rintro x (rfl | hx)
    · cases lb.toFlt <;> rfl
    · exact not_lt_of_le hx
  have fu : ∀ x : Flt, x = .nan ∨ x.le ub.toFlt = true → x.gt ub.toFlt = false := by
    rintro x (rfl | hx)
    · cases ub.toFlt <;> rfl
    · exact not_lt_of_le hx
  have one : (lb.toFlt = .ninf ∨ ub.toFlt = .pinf) → _ := fun h1 => h.constrain_one_sided hsl hsu hlt h1 hyn
  rcases hs with h1 | h1 | ⟨h1, h2⟩
  · exact ⟨fl _ (Or.inr (one (Or.inl h1)).2.1), fu _ (Or.inr (one (Or.inl h1)).2.2)⟩
  · exact ⟨fl _ (Or.inr (one (Or.inr h1)).2.1), fu _ (Or.inr (one (Or.inr h1)).2.2)⟩
  · generalize lb.toFlt = lb' at *
    generalize ub.toFlt = ub' at *
    cases lb' with
    | ninf => exact ⟨fl _ (Or.inr (one (Or.inl rfl)).2.1), fu _ (Or.inr (one (Or.inl rfl)).2.2)⟩
    | pinf => cases ub' <;> simp [lt] at hlt
    | nan => cases ub' <;> simp [lt] at hlt
    | fin a =>
      cases ub' with
      | pinf => exact ⟨fl _ (Or.inr (one (Or.inr rfl)).2.1), fu _ (Or.inr (one (Or.inr rfl)).2.2)⟩
      | ninf => simp [lt] at hlt
      | nan => simp [lt] at hlt
      | fin b =>
        refine ⟨fl _ (h.constrain_two_sided hsl (by simpa using hlt) hyn), fu _ ?_⟩
        rcases h.constrain_unit h1 hyn with h3 | h3
        · exact Or.inl h3
        · exact Or.inr (le_trans' h3 h2)

theorem acc_psd_A (h : A.Sane) {n lb dv fd} (hlb : A.Machine lb.toFlt) (hfin : lb.toFlt.IsFin) {l : List Flt} (hn : l.length = tri n)
    (hl : ∀ x ∈ l, x.IsFin) {a : NDArray Flt} (ha : PSD.foldFreeA A n lb.toFlt (vec l) = .ok a) (hnan : ∀ x ∈ a.data, x.NotNaN) (vv) :
    Acc (.psd n lb dv fd) (.arr a) vv := by
  rw [psd_foldFreeA hn] at ha
  injection ha with ha
  subst ha
  rw [acc_psd]
  refine ⟨_, rfl, rfl, fun _ => ?_⟩
  have hid : List.map (Elem.toFlt : Flt → Flt) = fun l => l := by
    funext l; exact List.map_id l
  simp only [hid]
  constructor
  · intro i hi
    rw [entry_ofFn2 _ _ _ hi hi, if_pos rfl]
    obtain ⟨r, hr⟩ := isFin_iff.mp hfin
    rw [hr] at hlb ⊢
    apply not_lt_of_le
    apply h.le_add _ hlb
    apply h.dot_sq
    intro p hp
    obtain ⟨k, hk, rfl⟩ := List.mem_map.mp hp
    exact ⟨rfl, h.factor_notNaN hn hl hi⟩
  · intro i hi j hj
    have hmem : ∀ i < n, ∀ j < n, ∀ f : Nat → Nat → Flt, f i j ∈ (ofFn2 n n f).data := by
      intro i hi j hj f
      rw [data_ofFn2, List.mem_flatMap]
      exact ⟨i, List.mem_range.mpr hi, List.mem_map.mpr ⟨j, List.mem_range.mpr hj, rfl⟩⟩
    have hx := hnan _ (hmem i hi j hj _)
    rw [entry_ofFn2 _ _ _ hi hj, entry_ofFn2 _ _ _ hj hi]
    have hc : A.dot ((List.range n).map fun k => (factorA A l j k, factorA A l i k)) =
        A.dot ((List.range n).map fun k => (factorA A l i k, factorA A l j k)) := by
      rw [← h.dot_comm, List.map_map]; rfl
    have hij : (if j = i then lb.toFlt else 0) = if i = j then lb.toFlt else 0 := by simp only [eq_comm (a := i)]
    rw [hc, hij]
    have self : ∀ x : Flt, x.NotNaN → x.eq x = true := by
      intro x hx; cases x <;> simp_all [Flt.eq, NotNaN]
    exact self _ hx

end Leaves

/-! ### Trees -/

namespace Pattern
variable {A : Arith}

theorem noNaN_chunk {s sh : List Nat} {k : Nat} {d : List Flt} (h : Spec.NoNaN (.arr ⟨s, d⟩)) (i : Nat) :
    Spec.NoNaN (.arr ⟨sh, chunk k d i⟩) :=
  fun x hx => h x (List.mem_of_mem_drop (List.mem_of_mem_take hx))

theorem shapeOkEs_cons_irrel {k : String} {v : Val Flt} : ∀ {es : Entries} {vs : List (String × Val Flt)}, k ∉ es.keys →
    Spec.ShapeOkEs es vs → Spec.ShapeOkEs es ((k, v) :: vs)
  | .nil, _, _, _ => trivial
  | .cons k' p r, vs, hk, h => by
    simp only [Entries.keys, Entries.toList, List.map_cons, List.mem_cons, not_or] at hk
    obtain ⟨⟨w, h1, h2⟩, h3⟩ := h
    exact ⟨⟨w, by rw [lookup_cons_ne (Ne.symm hk.1)]; exact h1, h2⟩, shapeOkEs_cons_irrel hk.2 h3⟩

theorem round_vec (p : Pattern) (hw : p.WF) (hf : p.FiniteLb) : ∀ l : List Flt, l.length = p.flatLen true →
    ∃ v, p.foldFreeA A (vec l) = .ok v ∧ v.WF ∧ Spec.ShapeOk p v ∧
      (p.isDict = false → ∃ d : List Flt, v = .arr ⟨p.shape, d⟩ ∧ d.length = p.shape.prod) ∧
      (A.Sane → Spec.RoundSafe A p → (∀ x ∈ l, x.IsFin) → Spec.NoNaN v → ∀ vv, Acc p v vv) := by
  revert hw hf
  induction p using Pattern.ind
    (Q := fun es => WFEs es → FiniteLbEs es → es.keys.Nodup → ∀ (l : List Flt) (off : Nat),
      off + flatLenEs es true ≤ l.length →
      ∃ vs, foldFreeAEs A es (vec l) off = .ok vs ∧ Val.WFEs vs ∧ Spec.ShapeOkEs es vs ∧
        (A.Sane → Spec.RoundSafeEs A es → (∀ x ∈ l, x.IsFin) → Spec.NoNaNEs vs → ∀ vv, AccEs es vs vv)) with
  | hnum c s lb ub dv fd =>
    intro hw _ l hl
    have hl' : l.length = s.prod := by simpa [flatLen] using hl
    refine ⟨.arr ⟨s, l.map (constrain1A A lb.toFlt ub.toFlt)⟩, by simp only [foldFreeA, numeric_foldFreeA hl', bind, Except.bind, pure, Except.pure], ?_, ?_, fun _ => ⟨_, rfl, ?_⟩, ?_⟩
    · simp [Val.WF, NDArray.WF, hl']
    · simp only [Spec.ShapeOk]; rw [atleast1d_of_ne (by simpa [Pattern.WF] using hw.1)]
    · simp [hl', Pattern.shape]
    · intro h hs hfin _ vv; exact acc_numeric_A h hw hs hfin vv
  | hsim k s dv fd =>
    intro hw _ l hl
    have hl' : l.length = (s ++ [k - 1]).prod := by rw [hl, flatLen, if_pos rfl]
    have hl2 : l.length = s.prod * (k - 1) := by simpa using hl'
    simp only [Pattern.WF] at hw
    have hd : ((List.range s.prod).flatMap fun i => constrainSimplexRowA A (chunk (k - 1) l i)).length = s.prod * k := by
      apply length_flatMap_range
      intro i hi
      simp only [constrainSimplexRowA, List.length_map, List.length_cons, length_chunk hl2 hi]
      omega
    refine ⟨.arr ⟨s ++ [k], (List.range s.prod).flatMap fun i => constrainSimplexRowA A (chunk (k - 1) l i)⟩,
      by simp only [foldFreeA, simplex_foldFreeA hl', bind, Except.bind, pure, Except.pure], ?_, ?_, fun _ => ⟨_, rfl, ?_⟩, ?_⟩
    · simp [Val.WF, NDArray.WF, hd]
    · simp [Spec.ShapeOk]
    · simp [hd, Pattern.shape]
    · intro h hs; exact hs.elim
  | hpsd n lb dv fd =>
    intro hw hf l hl
    have hl' : l.length = tri n := by simpa [flatLen, tri] using hl
    have hfold := psd_foldFreeA (A := A) (lb := lb.toFlt) hl'
    refine ⟨.arr (ofFn2 n n fun i j =>
        A.add (A.dot ((List.range n).map fun k => (factorA A l i k, factorA A l j k))) (if i = j then lb.toFlt else 0)),
      by simp only [foldFreeA, hfold, bind, Except.bind, pure, Except.pure], ?_, ?_, fun _ => ⟨_, rfl, ?_⟩, ?_⟩
    · have := length_ofFn2 n n fun i j =>
        A.add (A.dot ((List.range n).map fun k => (factorA A l i k, factorA A l j k))) (if i = j then lb.toFlt else 0)
      simp [Val.WF, NDArray.WF, ofFn2]
    · simp [Spec.ShapeOk, ofFn2]
    · have := length_ofFn2 n n fun i j =>
        A.add (A.dot ((List.range n).map fun k => (factorA A l i k, factorA A l j k))) (if i = j then lb.toFlt else 0)
      simp [Pattern.shape, ofFn2]
    · intro h hs hfin hn vv
      exact acc_psd_A h hs (by simpa [FiniteLb] using hf) hl' hfin hfold hn vv
  | harr s b fd ih =>
    intro hw hf l hl
    simp only [Pattern.WF] at hw
    simp only [FiniteLb] at hf
    simp only [flatLen] at hl
    have hB : ∀ i, ∃ d : List Flt, i < s.prod → (b.foldFreeA A (vec (chunk (b.flatLen true) l i)) = .ok (.arr ⟨b.shape, d⟩) ∧
        d.length = b.shape.prod ∧ (A.Sane → Spec.RoundSafe A b → (∀ x ∈ l, x.IsFin) → Spec.NoNaN (.arr ⟨b.shape, d⟩) →
          ∀ vv, Acc b (.arr ⟨b.shape, d⟩) vv)) := by
      intro i
      by_cases hi : i < s.prod
      · obtain ⟨v, h1, _, _, h4, h5⟩ := ih hw.2.2 hf (chunk (b.flatLen true) l i) (length_chunk hl hi)
        obtain ⟨d, rfl, hd⟩ := h4 hw.2.1
        exact ⟨d, fun _ => ⟨h1, hd, fun h hs hfin => h5 h hs fun x hx =>
          hfin x (List.mem_of_mem_drop (List.mem_of_mem_take hx))⟩⟩
      · exact ⟨[], fun h => absurd h hi⟩
    choose g hg using hB
    have hgl : ∀ i < s.prod, (g i).length = b.shape.prod := fun i hi => (hg i hi).2.1
    have hdl := length_flatMap_range g hgl
    have hfold : foldItems (fun sub => b.foldFreeA A sub) (vec l) s (s ++ b.shape) (b.flatLen true) =
        .ok ⟨s ++ b.shape, (List.range s.prod).flatMap g⟩ :=
      foldItems_eq (fun i hi => (hg i hi).1) hgl
    refine ⟨.arr ⟨s ++ b.shape, (List.range s.prod).flatMap g⟩, ?_, ?_, ?_, fun _ => ⟨_, rfl, ?_⟩, ?_⟩
    · simp only [foldFreeA, checkFlat_vec hl, bind, Except.bind, hfold, pure, Except.pure]
    · simp [Val.WF, NDArray.WF, hdl]
    · simp [Spec.ShapeOk]
    · simp [Pattern.shape, hdl]
    · intro h hs hfin hn vv
      rw [acc_array]
      refine ⟨_, rfl, rfl, fun i hi => ?_⟩
      have hn' := noNaN_chunk (sh := b.shape) (k := b.shape.prod) hn i
      simp only [chunk_of_flatMap g hgl hi] at hn' ⊢
      exact (hg i hi).2.2 h (by simpa [Spec.RoundSafe] using hs) hfin hn' vv
  | hdict es ld fd ih =>
    intro hw hf l hl
    simp only [Pattern.WF] at hw
    simp only [FiniteLb] at hf
    simp only [flatLen] at hl
    obtain ⟨vs, h1, h2, h3, h4⟩ := ih hw.2 hf hw.1 l 0 (by omega)
    refine ⟨.dict vs, ?_, h2, h3, by simp [isDict], ?_⟩
    · simp only [foldFreeA, checkFlat_vec hl, bind, Except.bind, h1, pure, Except.pure]
    · intro h hs hfin hn vv
      rw [acc_dict]
      exact ⟨vs, rfl, h4 h (by simpa [Spec.RoundSafe] using hs) hfin hn vv⟩
  | hnil hw hf hk l off hl =>
    exact ⟨[], by simp [foldFreeAEs], by simp [Val.WFEs], by simp [Spec.ShapeOkEs], fun _ _ _ _ _ => trivial⟩
  | hcons k p rest ihp ihr hw hf hk l off hl =>
    simp only [WFEs] at hw
    simp only [FiniteLbEs] at hf
    simp only [flatLenEs] at hl
    obtain ⟨hk1, hk2⟩ := nodup_keys_cons hk
    obtain ⟨vs, h1, h2, h3, h4⟩ := ihr hw.2.2 hf.2 hk2 l (off + p.flatLen true) (by omega)
    obtain ⟨v, g1, g2, g3, _, g5⟩ := ihp hw.1 hf.1 ((l.drop off).take (p.flatLen true)) (by simp; omega)
    refine ⟨(k, v) :: vs, ?_, ⟨g2, h2⟩, ?_, ?_⟩
    · simp only [foldFreeAEs, slice, vec_data] at g1 ⊢
      simp only [g1, bind, Except.bind, h1]
      rfl
    · exact ⟨⟨v, by simp, g3⟩, shapeOkEs_cons_irrel hk1 h3⟩
    · intro h hs hfin hn vv
      simp only [Spec.RoundSafeEs] at hs
      simp only [Spec.NoNaNEs] at hn
      refine ⟨⟨v, by simp, g5 h hs.1 (fun x hx => hfin x (List.mem_of_mem_drop (List.mem_of_mem_take hx))) hn.1 vv⟩, ?_⟩
      exact (accEs_cons_irrel hk1).mpr (h4 h hs.2 hfin hn.2 vv)

end Pattern
end Paragami
