import Verif.Proofs.NonfreeTrip
import Verif.Spec.Canon

/-! # `unflat (flat v)` is the described part of `v`; wrong sizes are rejected -/

set_option linter.unusedSimpArgs false
set_option linter.unusedSectionVars false

namespace Paragami

namespace Pattern
open NDArray
variable {α : Type} [Elem α]

theorem unflat_flat (p : Pattern) (hw : p.WF) : ∀ (v : Val α) (vv), v.WF → Acc p v vv →
    p.unflat (p.flat v) = Spec.canon p v := by
  revert hw
  induction p using Pattern.ind
    (Q := fun es => WFEs es → ∀ (vs : List (String × Val α)) (vv), Val.WFEs vs → AccEs es vs vv →
      ∀ tl, unflatEs es (flatEs es vs ++ tl) = Spec.canonEs es vs) with
  | hnum c s lb ub dv fd =>
    intro _ v vv hv ha
    rw [acc_numeric] at ha; obtain ⟨a, rfl, h1, _⟩ := ha
    simp only [unflat, flat, Spec.canon, Val.arr.injEq, shape, ← h1]
    rw [← atleast1d_data]
  | hsim k s dv fd =>
    intro _ v vv hv ha
    rw [acc_simplex] at ha; obtain ⟨a, rfl, h1, _⟩ := ha
    simp only [unflat, flat, Spec.canon, Val.arr.injEq, shape, ← h1]
  | hpsd n lb dv fd =>
    intro _ v vv hv ha
    rw [acc_psd] at ha; obtain ⟨a, rfl, h1, _⟩ := ha
    simp only [unflat, flat, Spec.canon, Val.arr.injEq, shape, ← h1]
  | harr s b fd ih =>
    intro hw v vv hv ha
    rw [acc_array] at ha; obtain ⟨a, rfl, h1, _⟩ := ha
    simp only [unflat, flat, Spec.canon, Val.arr.injEq, shape, ← h1]
  | hdict es l fd ih =>
    intro hw v vv hv ha
    simp only [WF] at hw
    rw [acc_dict] at ha; obtain ⟨vs, rfl, ha⟩ := ha
    simpa [flat, unflat, Spec.canon] using ih hw.2 vs vv hv ha []
  | hnil => simp [unflatEs, Spec.canonEs]
  | hcons k p r ihp ihr hw vs vv hv ha tl =>
    simp only [WFEs] at hw
    simp only [AccEs] at ha
    obtain ⟨⟨v, hl, hpa⟩, ha⟩ := ha
    have hlen := length_flat p hw.1 v vv (WFEs_lookup hv hl) hpa
    simp only [unflatEs, flatEs, hl, Spec.canonEs, List.append_assoc]
    rw [← hlen, List.take_left, List.drop_left, ihr hw.2.2 vs vv hv ha, ihp hw.1 v vv (WFEs_lookup hv hl) hpa]

/-- The described part of an accepted value is accepted. -/
theorem acc_canon (p : Pattern) (hw : p.WF) : ∀ (v : Val α) (vv), Acc p v vv → Acc p (Spec.canon p v) vv := by
  revert hw
  induction p using Pattern.ind
    (Q := fun es => WFEs es → es.keys.Nodup → ∀ (vs : List (String × Val α)) (vv), AccEs es vs vv →
      AccEs es (Spec.canonEs es vs) vv) with
  | hnum c s lb ub dv fd =>
    intro _ v vv ha
    rw [acc_numeric] at ha ⊢; obtain ⟨a, rfl, h1, h2⟩ := ha
    refine ⟨a.atleast1d, by simp [Spec.canon], ?_, ?_⟩
    · rw [atleast1d_of_ne (atleast1d_shape_ne_nil a), h1]
    · rw [atleast1d_data]; exact h2
  | hsim k s dv fd =>
    intro _ v vv ha
    have ha' := ha
    rw [acc_simplex] at ha; obtain ⟨a, rfl, _⟩ := ha
    simpa [Spec.canon] using ha'
  | hpsd n lb dv fd =>
    intro _ v vv ha
    have ha' := ha
    rw [acc_psd] at ha; obtain ⟨a, rfl, _⟩ := ha
    simpa [Spec.canon] using ha'
  | harr s b fd ih =>
    intro hw v vv ha
    have ha' := ha
    rw [acc_array] at ha; obtain ⟨a, rfl, _⟩ := ha
    simpa [Spec.canon] using ha'
  | hdict es l fd ih =>
    intro hw v vv ha
    simp only [WF] at hw
    rw [acc_dict] at ha ⊢; obtain ⟨vs, rfl, ha⟩ := ha
    exact ⟨Spec.canonEs es vs, by simp [Spec.canon], ih hw.2 hw.1 vs vv ha⟩
  | hnil => simp [AccEs]
  | hcons k p r ihp ihr hw hk vs vv ha =>
    simp only [WFEs] at hw
    simp only [AccEs] at ha
    obtain ⟨⟨v, hl, hpa⟩, ha⟩ := ha
    obtain ⟨hk1, hk2⟩ := nodup_keys_cons hk
    simp only [Spec.canonEs, hl, AccEs]
    exact ⟨⟨_, by simp [List.lookup], ihp hw.1 v vv hpa⟩,
      (accEs_cons_irrel hk1).mpr (ihr hw.2.2 hk2 vs vv ha)⟩

/-! ### Sizes of free folds -/

theorem checkFlat_err {x : NDArray α} {n : Nat} (h : x.data.length ≠ n) : ∃ m, checkFlat x n = .error (.valueError m) := by
  have : ¬ x.atleast1d.size = n := by simpa [size, atleast1d_data] using h
  simp only [checkFlat, bind, Except.bind, throw, throwThe, MonadExceptOf.throw]
  split
  · exact ⟨_, rfl⟩
  · simp [this]

theorem checkFlat_err_ndim {x : NDArray α} {n : Nat} (h : x.atleast1d.ndim ≠ 1) :
    ∃ m, checkFlat x n = .error (.valueError m) := by
  simp [checkFlat, bind, Except.bind, throw, throwThe, MonadExceptOf.throw, h]

end Pattern

end Paragami
