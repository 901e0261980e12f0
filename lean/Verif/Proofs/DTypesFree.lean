import Verif.Proofs.DTypes
import Verif.Proofs.FreeVal

/-! # Data types of free vectors: proofs -/

set_option linter.unusedSimpArgs false

namespace Paragami
open NDArray Spec Memory

variable {A : Arith}

namespace Pattern

theorem copies_iff (p : Pattern) : p.copies = true ↔ Unbounded p := by
  induction p using Pattern.ind (Q := fun _ => True) with
  | hnum c s lb ub dv fd =>
    simp only [copies, Unbounded, Bool.and_eq_true]
    cases lb.toFlt <;> cases ub.toFlt <;> simp [Flt.eq]
  | harr s b fd ih => simpa [copies, Unbounded] using ih
  | hnil => trivial
  | hcons => trivial
  | _ => simp [copies, Unbounded]

/-- Validation only looks at the numbers. -/
theorem acc_toFlt {α : Type} [Elem α] (p : Pattern) : ∀ (v : Val α) vv, Acc p v vv → Acc p (v.map Elem.toFlt) vv := by
  induction p using Pattern.ind
    (Q := fun es => ∀ (vs : List (String × Val α)) vv, AccEs es vs vv → AccEs es (Val.mapEs Elem.toFlt vs) vv) with
  | hnum c s lb ub dv fd =>
    intro v vv ha
    rw [acc_numeric] at ha ⊢
    obtain ⟨a, rfl, hs, hv⟩ := ha
    refine ⟨_, rfl, by rw [atleast1d_map]; exact hs, fun hvv x hx => ?_⟩
    simp only [NDArray.map, List.mem_map] at hx
    obtain ⟨e, he, rfl⟩ := hx
    exact hv hvv e he
  | hsim k s dv fd =>
    intro v vv ha
    rw [acc_simplex] at ha ⊢
    obtain ⟨a, rfl, hs, hv⟩ := ha
    refine ⟨_, rfl, hs, fun hvv => ⟨fun x hx => ?_, fun i hi => ?_⟩⟩
    · simp only [NDArray.map, List.mem_map] at hx
      obtain ⟨e, he, rfl⟩ := hx
      exact (hv hvv).1 e he
    · have := (hv hvv).2 i hi
      simp only [NDArray.map, ← map_chunk, List.map_map]
      exact this
  | hpsd n lb dv fd =>
    intro v vv ha
    rw [acc_psd] at ha ⊢
    obtain ⟨a, rfl, hs, hv⟩ := ha
    refine ⟨_, rfl, hs, fun hvv => ?_⟩
    have : (a.map Elem.toFlt).data.map Elem.toFlt = a.data.map Elem.toFlt := by
      simp only [NDArray.map, List.map_map]; rfl
    rw [this]
    exact hv hvv
  | harr s b fd ih =>
    intro v vv ha
    rw [acc_array] at ha ⊢
    obtain ⟨a, rfl, hs, hv⟩ := ha
    refine ⟨_, rfl, hs, fun i hi => ?_⟩
    have := ih _ vv (hv i hi)
    simpa [NDArray.map, map_chunk, Val.map] using this
  | hdict es l fd ih =>
    intro v vv ha
    rw [acc_dict] at ha ⊢
    obtain ⟨vs, rfl, ha⟩ := ha
    exact ⟨_, by simp only [Val.map], ih vs vv ha⟩
  | hnil => simp [AccEs]
  | hcons k p r ihp ihr vs vv ha =>
    simp only [AccEs, lookup_mapEs] at ha ⊢
    obtain ⟨⟨v, hl, hp⟩, ha⟩ := ha
    exact ⟨⟨_, by rw [hl]; rfl, ihp v vv hp⟩, ihr vs vv ha⟩

theorem asFloats_eq (v : Val Num) : asFloats A v = (v.map (Num.cast A .float)).map Elem.toFlt := by
  rw [val_map_map]; rfl

theorem acc_asFloats (hA : A.Sane) {p : Pattern} (hb : MachineBounds A p) (hw : p.WF) {v : TVal} {vv} (hv : v.erase.WF) (ht : WellTyped v)
    (ha : Acc p v.erase vv) : Acc p (asFloats A v.erase) vv := by
  rw [asFloats_eq]
  exact acc_toFlt p _ vv (acc_cast hA p hb hw v vv hv ht (d := .float) rfl ha)

/-- Without bounds, `flatten(free=True)` copies. -/
theorem flattenFree_copy (p : Pattern) : p.WF → Unbounded p → ∀ (a : NDArray Flt) vv, a.WF → p.NoEmpty → Acc p (.arr a) vv →
    p.flattenFree (.arr a) vv = .ok (vec a.data) := by
  induction p using Pattern.ind (Q := fun _ => True) with
  | hnum c s lb ub dv fd =>
    intro _ hu a vv _ _ ha
    simp only [Unbounded] at hu
    simp only [flattenFree, Val.asArr, bind, Except.bind]
    rw [Numeric.flattenFree_ok]
    refine ⟨acc_numeric_arr.mp ha, ?_⟩
    have : unconstrain1 lb.toFlt ub.toFlt = id := by
      funext x; simp [unconstrain1, hu, Flt.eq]
    rw [this, List.map_id]
  | harr s b fd ih =>
    intro hw hu a vv haw hne ha
    simp only [WF] at hw
    simp only [NoEmpty] at hne
    simp only [Unbounded] at hu
    rw [flattenFree_array_unfold, requireValid_ok_iff.mpr ha]
    rw [acc_array] at ha
    obtain ⟨_, h, hs, ha⟩ := ha
    cases h
    simp only [Val.asArr, bind, Except.bind]
    rw [flattenItems_eq hs (g := fun i => chunk b.shape.prod a.data i)
      (fun i hi => ih hw.2.2 hu _ vv (chunk_wf haw hs hi) hne.2 (ha i hi)) hne.1]
    congr 2
    exact chunk_flatMap _ _ _ (by rw [haw, hs, List.prod_append])
  | hnil => trivial
  | hcons => trivial
  | _ => intro _ hu; simp [Unbounded] at hu

mutual
/-- The type of the free vector. -/
noncomputable def topF : Pattern → TVal → DType
  | .dict es _ _, .dict vs => topFEs es vs
  | p, .arr d _ => if p.copies then d else .float
  | _, _ => .bool
/-- `topF` of the members. -/
noncomputable def topFEs : Entries → List (String × TVal) → DType
  | .nil, _ => .bool
  | .cons k p r, vs => (match vs.lookup k with | some v => topF p v | none => .bool).sup (topFEs r vs)
end

theorem topF_arr {p : Pattern} (h : p.isDict = false) (d : DType) (a : NDArray Num) :
    topF p (.arr d a) = if p.copies then d else .float := by
  cases p <;> simp_all [topF, isDict]

theorem flattenArrFree_ok (hA : A.Sane) {p : Pattern} (hd : p.isDict = false) (hb : MachineBounds A p) (hw : p.WF) {v : TVal}
    (hv : v.erase.WF) (ht : WellTyped v) {vv} {x : DType × NDArray Num} (h : flattenArrFree A p v vv = .ok x) :
    x.1 = topF p v ∧ p.flattenFree (asFloats A v.erase) vv = .ok (x.2.map fun e => (e.cast A .float).toFlt) := by
  cases v with
  | dict vs => simp [flattenArrFree, TVal.asArr, bind, Except.bind] at h
  | arr d a =>
    simp only [flattenArrFree, TVal.asArr] at h
    replace h := bind_ok h; obtain ⟨_, h1, h⟩ := h
    cases h1
    replace h := bind_ok h; obtain ⟨_, h1, h⟩ := h
    have hacc : Acc p (.arr a) vv := requireValid_ok_iff.mp h1
    rw [topF_arr hd]
    by_cases hc : p.copies = true
    · simp only [hc, if_true] at h ⊢
      replace h := bind_ok h; obtain ⟨y, h2, h⟩ := h
      cases h
      have hne := (flattenNF_ok_imp p hw (.arr a) vv y hv h2).2
      have hy := flattenNF_arr_data hd hw hv h2
      subst hy
      refine ⟨rfl, ?_⟩
      have := acc_asFloats hA hb hw (v := .arr d a) hv ht hacc
      simp only [asFloats, TVal.erase, Val.map] at this ⊢
      rw [flattenFree_copy p hw ((copies_iff p).mp hc) _ vv (by simpa [NDArray.WF, NDArray.map, Val.WF, TVal.erase] using hv) hne this]
      simp [NDArray.map, vec]
    · simp only [if_neg hc] at h ⊢
      split at h
      · simp [throw, throwThe, MonadExceptOf.throw, bind, Except.bind] at h
      · replace h := bind_ok h; obtain ⟨y, h2, h⟩ := h
        cases h
        refine ⟨rfl, ?_⟩
        simp only [asFloats, TVal.erase, Val.map, h2, map_map_arr]
        simp [NDArray.map, Num.cast, Num.toFlt]

/-- Free flattening with types is free flattening of the value converted to floats. -/
theorem flattenFreeT_ok (hA : A.Sane) (p : Pattern) : MachineBounds A p → p.WF → ∀ (v : TVal), v.erase.WF → WellTyped v → ∀ vv x,
    flattenFreeT A p v vv = .ok x →
      x.1 = topF p v ∧ p.flattenFree (asFloats A v.erase) vv = .ok (x.2.map fun e => (e.cast A .float).toFlt) := by
  induction p using Pattern.ind
    (Q := fun es => MachineBoundsEs A es → WFEs es → ∀ (vs : List (String × TVal)), Val.WFEs (TVal.eraseEs vs) → WellTypedEs vs → ∀ vv pt,
      flattenFreeTEs A es vs vv = .ok pt → (pt.map (·.1)).foldr DType.sup .bool = topFEs es vs ∧
        flattenFreeEs es (Val.mapEs (fun e => (Num.cast A .float e).toFlt) (TVal.eraseEs vs)) vv =
          .ok (pt.map fun q => q.2.map fun e => (e.cast A .float).toFlt)) with
  | hnum c s lb ub dv fd => intro hb hw v hv ht vv x h; rw [flattenFreeT] at h; exact flattenArrFree_ok hA rfl hb hw hv ht h
  | hsim k s dv fd => intro hb hw v hv ht vv x h; rw [flattenFreeT] at h; exact flattenArrFree_ok hA rfl hb hw hv ht h
  | hpsd n lb dv fd => intro hb hw v hv ht vv x h; rw [flattenFreeT] at h; exact flattenArrFree_ok hA rfl hb hw hv ht h
  | harr s b fd ih => intro hb hw v hv ht vv x h; rw [flattenFreeT] at h; exact flattenArrFree_ok hA rfl hb hw hv ht h
  | hdict es l fd ih =>
    intro hb hw v hv ht vv x h
    rw [flattenFreeT] at h
    replace h := bind_ok h; obtain ⟨_, h1, h⟩ := h
    have hacc : Acc (.dict es l fd) v.erase vv := requireValid_ok_iff.mp h1
    have haccF := acc_asFloats hA hb hw hv ht hacc
    replace h := bind_ok h; obtain ⟨vs, h2, h⟩ := h
    replace h := bind_ok h; obtain ⟨pt, h3, h⟩ := h
    simp only [MachineBounds] at hb
    simp only [WF] at hw
    cases v with
    | arr d a => simp [TVal.asDict] at h2
    | dict us =>
      simp only [TVal.asDict, Except.ok.injEq] at h2
      subst h2
      obtain ⟨h4, h5⟩ := ih hb hw.2 us hv ht vv pt h3
      simp only [hstackT, h4] at h
      replace h := bind_ok h; obtain ⟨y, h6, h⟩ := h
      cases h
      refine ⟨by simp [topF], ?_⟩
      rw [flattenFree_dict_unfold, requireValid_ok_iff.mpr haccF]
      simp only [asFloats, TVal.erase, Val.map, Val.asDict, bind, Except.bind, h5]
      have h7 := hstack_map (fun e => (Num.cast A .float e).toFlt) (pt.map fun q => q.2.map (Num.cast A (topFEs es us)))
      rw [h6, List.map_map] at h7
      simp only [Except.map] at h7
      rw [← h7]
      congr 1
      apply List.map_congr_left
      intro q _
      simp only [Function.comp, map_map_arr]
      congr 1
      funext e
      rw [cast_cast hA rfl]
  | hnil =>
    simp_all [flattenFreeTEs, topFEs, flattenFreeEs]
  | hcons k p r ihp ihr hb hw vs hv ht vv pt h =>
    simp only [MachineBoundsEs] at hb
    simp only [WFEs] at hw
    simp only [flattenFreeTEs] at h
    simp only [topFEs, flattenFreeEs, lookup_mapEs, lookup_eraseEs]
    cases hl : vs.lookup k with
    | none => simp [hl] at h
    | some v =>
      simp only [hl] at h
      replace h := bind_ok h; obtain ⟨x, h1, h⟩ := h
      replace h := bind_ok h; obtain ⟨xs, h2, h⟩ := h
      cases h
      have hv' : v.erase.WF := WFEs_lookup hv (k := k) (by rw [lookup_eraseEs, hl]; rfl)
      obtain ⟨h3, h4⟩ := ihp hb.1 hw.1 v hv' (wellTypedEs_lookup ht hl) vv x h1
      obtain ⟨h5, h6⟩ := ihr hb.2 hw.2.2 vs hv ht vv xs h2
      simp only [List.map_cons, List.foldr_cons, h3, h5, true_and, Option.map_some]
      simp only [asFloats] at h4
      rw [h4, h6]
      rfl

theorem topF_largest (p : Pattern) : ∀ (v : TVal) vv, p.NoEmpty → Acc p v.erase vv → LargestFree p v (topF p v) := by
  have leaf : ∀ (p : Pattern) (v : TVal), p.isDict = false → (∃ a, v.erase = .arr a) → LargestFree p v (topF p v) := by
    intro p v hp ⟨a, ha⟩
    cases v with
    | dict vs => simp [TVal.erase] at ha
    | arr d b =>
      have ho : ∀ d', OccursFree d' p (.arr d b) ↔ (Unbounded p ∧ d = d') ∨ (¬ Unbounded p ∧ .float = d') := by
        intro d'; cases p <;> simp_all [OccursFree, isDict]
      rw [topF_arr hp]
      constructor
      · rw [ho]
        by_cases hc : p.copies = true
        · simp [hc, (copies_iff p).mp hc]
        · have : ¬ Unbounded p := fun h => hc ((copies_iff p).mpr h)
          simp [hc, this]
      · intro d' h
        rw [ho] at h
        rcases h with ⟨h, rfl⟩ | ⟨h, rfl⟩
        · simp [(copies_iff p).mpr h, DType.sup_idem]
        · have : p.copies = false := by
            by_contra hc
            exact h ((copies_iff p).mp (by simpa using hc))
          simp [this, DType.sup]
  induction p using Pattern.ind
    (Q := fun es => ∀ (vs : List (String × TVal)) vv, NoEmptyEs es → AccEs es (TVal.eraseEs vs) vv →
      (es ≠ .nil → OccursFreeEs (topFEs es vs) es vs) ∧ ∀ d', OccursFreeEs d' es vs → (topFEs es vs).sup d' = topFEs es vs) with
  | hnum c s lb ub dv fd =>
    intro v vv _ ha; rw [acc_numeric] at ha; obtain ⟨a, ha, _⟩ := ha; exact leaf _ v rfl ⟨a, ha⟩
  | hsim k s dv fd =>
    intro v vv _ ha; rw [acc_simplex] at ha; obtain ⟨a, ha, _⟩ := ha; exact leaf _ v rfl ⟨a, ha⟩
  | hpsd n lb dv fd =>
    intro v vv _ ha; rw [acc_psd] at ha; obtain ⟨a, ha, _⟩ := ha; exact leaf _ v rfl ⟨a, ha⟩
  | harr s b fd ih =>
    intro v vv _ ha; rw [acc_array] at ha; obtain ⟨a, ha, _⟩ := ha; exact leaf _ v rfl ⟨a, ha⟩
  | hdict es l fd ih =>
    intro v vv hne ha
    simp only [NoEmpty] at hne
    rw [acc_dict] at ha
    obtain ⟨us, hus, ha⟩ := ha
    cases v with
    | arr d a => simp [TVal.erase] at hus
    | dict vs =>
      simp only [TVal.erase, Val.dict.injEq] at hus
      subst hus
      obtain ⟨h1, h2⟩ := ih vs vv hne.2 ha
      exact ⟨by simpa [OccursFree, topF] using h1 hne.1, by simpa [OccursFree, topF] using h2⟩
  | hnil => simp [OccursFreeEs]
  | hcons k p r ihp ihr vs vv hne ha =>
    simp only [NoEmptyEs] at hne
    simp only [AccEs, lookup_eraseEs] at ha
    obtain ⟨⟨u, hu, hp⟩, ha⟩ := ha
    cases hl : vs.lookup k with
    | none => simp [hl] at hu
    | some v =>
      simp only [hl, Option.map_some, Option.some.injEq] at hu
      subst hu
      obtain ⟨h1, h2⟩ := ihp v vv hne.1 hp
      obtain ⟨h3, h4⟩ := ihr vs vv hne.2 ha
      simp only [OccursFreeEs, topFEs, hl, Option.some.injEq, exists_eq_left', ne_eq, reduceCtorEq, not_false_eq_true, true_implies]
      constructor
      · cases r with
        | nil => left; simp only [topFEs, DType.sup_bool]; exact h1
        | cons k' p' r' =>
          rcases DType.sup_cases (topF p v) (topFEs (.cons k' p' r') vs) with h | h
          · rw [h]; exact Or.inl h1
          · rw [h]; exact Or.inr (h3 (by simp))
      · rintro d' (h | h)
        · exact DType.sup_trans (DType.sup_left _ _) (h2 d' h)
        · exact DType.sup_trans (DType.sup_right _ _) (h4 d' h)

/-- `flatten(free=True)` fails on empty containers. -/
theorem flattenFree_noEmpty (p : Pattern) : ∀ (v : Val Flt) vv x, p.flattenFree v vv = .ok x → p.NoEmpty := by
  induction p using Pattern.ind
    (Q := fun es => ∀ (vs : List (String × Val Flt)) vv parts, flattenFreeEs es vs vv = .ok parts →
      NoEmptyEs es ∧ (parts ≠ [] → es ≠ .nil)) with
  | harr s b fd ih =>
    intro v vv x h
    rw [flattenFree_array_unfold] at h
    replace h := bind_ok h; obtain ⟨_, h1, h⟩ := h
    replace h := bind_ok h; obtain ⟨a, h2, h⟩ := h
    have ha : Acc (.array s b fd) v vv := requireValid_ok_iff.mp h1
    rw [acc_array] at ha
    obtain ⟨a', rfl, hs, _⟩ := ha
    cases h2
    obtain ⟨h3, h4⟩ := flattenItems_ok hs h
    obtain ⟨y, hy⟩ := h4 0 h3
    simp only [NoEmpty]
    exact ⟨h3, ih _ vv y hy⟩
  | hdict es l fd ih =>
    intro v vv x h
    rw [flattenFree_dict_unfold] at h
    replace h := bind_ok h; obtain ⟨_, h1, h⟩ := h
    replace h := bind_ok h; obtain ⟨vs, h2, h⟩ := h
    replace h := bind_ok h; obtain ⟨parts, h3, h⟩ := h
    obtain ⟨h4, h5⟩ := ih vs vv parts h3
    simp only [NoEmpty]
    exact ⟨h5 (by rintro rfl; simp [hstack] at h), h4⟩
  | hnil => simp_all [flattenFreeEs, NoEmptyEs]
  | hcons k p r ihp ihr vs vv parts h =>
    simp only [flattenFreeEs] at h
    cases hl : vs.lookup k with
    | none => simp [hl] at h
    | some v =>
      simp only [hl] at h
      replace h := bind_ok h; obtain ⟨x, h1, h⟩ := h
      replace h := bind_ok h; obtain ⟨xs, h2, h⟩ := h
      simp only [NoEmptyEs]
      exact ⟨⟨ihp v vv x h1, (ihr vs vv xs h2).1⟩, by simp⟩
  | _ => intro _ _ _ _; simp [NoEmpty]

theorem flattenFreeT_acc {p : Pattern} {v : TVal} {vv} {x} (h : flattenFreeT A p v vv = .ok x) : Acc p v.erase vv := by
  have leaf : flattenArrFree A p v vv = .ok x → Acc p v.erase vv := by
    intro h
    cases v with
    | dict vs => simp [flattenArrFree, TVal.asArr, bind, Except.bind] at h
    | arr d a =>
      replace h := bind_ok h; obtain ⟨_, h1, h⟩ := h
      cases h1
      replace h := bind_ok h; obtain ⟨_, h1, h⟩ := h
      exact requireValid_ok_iff.mp h1
  cases p with
  | dict es l fd =>
    rw [flattenFreeT] at h
    replace h := bind_ok h; obtain ⟨_, h1, h⟩ := h
    exact requireValid_ok_iff.mp h1
  | numeric => rw [flattenFreeT] at h; exact leaf h
  | simplex => rw [flattenFreeT] at h; exact leaf h
  | psd => rw [flattenFreeT] at h; exact leaf h
  | array => rw [flattenFreeT] at h; exact leaf h

end Pattern

end Paragami
