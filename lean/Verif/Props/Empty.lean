import Verif.Props.RoundTrip
import Verif.Props.Validation
import Mathlib.Algebra.Order.Star.Real

/-! # C65: `empty` and `empty_bool` -/

set_option linter.unusedSimpArgs false

namespace Paragami
open Pattern NDArray

theorem inbounds_between {lb ub : Flt} (hl : lb.NotNaN) (hu : ub.NotNaN) (h : lb.lt ub = true) :
    ∃ c, inboundsValue lb ub = .ok c ∧ lb.lt c = true ∧ c.lt ub = true := by
  unfold inboundsValue
  rw [if_pos h]
  refine ⟨_, rfl, ?_⟩
  have h1 : (1 : Flt) = Flt.fin 1 := by simp
  cases lb <;> cases ub <;> simp [Flt.lt, Flt.gt, h1] at *; all_goals (constructor <;> linarith)

theorem replicate_chunk {α : Type} (k n i : Nat) (c : α) (hi : i < n) :
    chunk k (List.replicate (n * k) c) i = List.replicate k c := by
  have h : (i + 1) * k ≤ n * k := Nat.mul_le_mul_right _ hi
  rw [Nat.succ_mul] at h
  simp only [chunk, List.drop_replicate, List.take_replicate]
  congr 1; omega

theorem fin_inv_sum (k : Nat) (hk : 2 ≤ k) : (List.replicate k (1 / (k : ℝ))).sum = 1 := by
  rw [List.sum_replicate, nsmul_eq_mul]
  field_simp

theorem empty_main (p : Pattern) (hw : p.WF) (hf : p.FiniteLb) :
    ∃ v, p.empty = .ok v ∧ v.WF ∧ Spec.Interior p v ∧ Spec.KeysExact p v ∧
      (p.isDict = false → ∃ d, v = .arr ⟨p.shape, d⟩ ∧ d.length = p.shape.prod) := by
  revert hw hf
  induction p using Pattern.ind
    (Q := fun es => WFEs es → FiniteLbEs es → es.keys.Nodup → ∃ vs, emptyEs es = .ok vs ∧ Val.WFEs vs ∧
      Spec.InteriorEs es vs ∧ Spec.KeysExactEs es vs) with
  | hnum c s lb ub dv fd =>
    intro hw _
    simp only [Pattern.WF] at hw
    obtain ⟨hs, _, _, h1, h2, h3⟩ := hw
    obtain ⟨c, hc, c1, c2⟩ := inbounds_between h1 h2 h3
    refine ⟨.arr ⟨s, List.replicate s.prod c⟩, by simp [Pattern.empty, hc, bind, Except.bind, pure, Except.pure],
      by simp [Val.WF, NDArray.WF], ?_, by simp [Spec.KeysExact], fun _ => ⟨_, rfl, by simp [Pattern.shape]⟩⟩
    simp only [Spec.Interior]
    refine ⟨by simp [NDArray.WF], by rw [atleast1d_of_ne hs], fun x hx => ?_⟩
    rw [List.eq_of_mem_replicate hx]
    exact ⟨c1, c2⟩
  | hsim k s dv fd =>
    intro hw _
    simp only [Pattern.WF] at hw
    have hk : (k : ℝ) ≠ 0 := by positivity
    have h1 : (1 : Flt) / Flt.fin (k : ℝ) = Flt.fin (1 / (k : ℝ)) := by
      have : (1 : Flt) = Flt.fin 1 := by simp
      rw [this, Flt.div_fin _ _ hk]
    refine ⟨.arr ⟨s ++ [k], List.replicate (s ++ [k]).prod (1 / Flt.fin (k : ℝ))⟩, by simp only [Pattern.empty],
      by simp [Val.WF, NDArray.WF], ?_, by simp [Spec.KeysExact], fun _ => ⟨_, rfl, by simp [Pattern.shape]⟩⟩
    simp only [Spec.Interior]
    refine ⟨by simp [NDArray.WF], trivial, fun i hi => ⟨List.replicate k (1 / (k : ℝ)), ?_, ?_, fin_inv_sum k hw⟩⟩
    · change chunk k _ i = _
      have e : (s ++ [k]).prod = s.prod * k := by simp
      rw [e, replicate_chunk _ _ _ _ hi, h1]
      simp
    · intro x hx
      rw [List.eq_of_mem_replicate hx]; positivity
  | hpsd n lb dv fd =>
    intro hw hf
    simp only [FiniteLb] at hf
    obtain ⟨l, hl⟩ := Flt.isFin_iff.mp hf
    have h1 : (1 : Flt) = Flt.fin 1 := by simp
    have h0 : (0 : Flt) = Flt.fin 0 := by simp
    have e : (ofFn2 n n fun i j => (if i = j then (1 : Flt) else 0) * (lb.toFlt + 1)) =
        ofFn2 n n fun i j => Flt.fin (if i = j then l + 1 else 0) := by
      apply ofFn2_congr
      intro i _ j _
      rw [hl, h1, h0]
      split <;> simp
    refine ⟨.arr (ofFn2 n n fun i j => (if i = j then (1 : Flt) else 0) * (lb.toFlt + 1)), by simp only [Pattern.empty],
      ?_, ?_, by simp [Spec.KeysExact], fun _ => ⟨_, rfl, (length_ofFn2 _ _ _).trans (by simp [Pattern.shape])⟩⟩
    · simp only [Val.WF, NDArray.WF, length_ofFn2]; simp [ofFn2]
    · rw [e]
      simp only [Spec.Interior]
      refine ⟨(l + 1) • (1 : Matrix (Fin n) (Fin n) ℝ), ?_, ?_⟩
      · rw [matData_of n n (fun i j => if i = j then l + 1 else 0)]
        congr 2
        ext i j
        simp [Matrix.one_apply, Fin.ext_iff]
      · rw [hl, Flt.toReal_fin, ← sub_smul]
        simpa using Matrix.PosDef.one
  | harr s b fd ih =>
    intro hw hf
    have hw0 := hw
    simp only [Pattern.WF] at hw
    simp only [FiniteLb] at hf
    obtain ⟨v, h1, h2, h3, _, h4⟩ := ih hw.2.2 hf
    obtain ⟨d, rfl, hd⟩ := h4 hw.2.1
    have hst := stack_reshape (α := Flt) (n := s.prod) (bshape := b.shape) (s := s)
      (parts := (productRanges s).map fun _ => ⟨b.shape, d⟩) rfl (by simp [length_productRanges])
      (by simp) (by simpa using fun _ => hd)
    have hdata : ((productRanges s).map fun _ => (⟨b.shape, d⟩ : NDArray Flt)).flatMap (·.data) =
        (List.range s.prod).flatMap fun _ => d := by
      rw [← map_ravel_productRanges, List.flatMap_map, List.flatMap_map]
    rw [hdata] at hst
    have hlen := length_flatMap_range (n := s.prod) (k := b.shape.prod) (fun _ => d) (fun _ _ => hd)
    refine ⟨.arr ⟨s ++ b.shape, (List.range s.prod).flatMap fun _ => d⟩, ?_, ?_, ?_, by simp [Spec.KeysExact],
      fun _ => ⟨_, rfl, by rw [hlen, Pattern.shape, List.prod_append]⟩⟩
    · simp only [Pattern.empty, h1, bind, Except.bind, Val.asArr]
      simp only [bind, Except.bind] at hst
      split at hst
      · cases hst
      · next st hs => rw [hst]; rfl
    · simp only [Val.WF, NDArray.WF]; rw [hlen, List.prod_append]
    · simp only [Spec.Interior]
      refine ⟨by simp only [NDArray.WF]; rw [hlen, List.prod_append], trivial, fun i hi => ?_⟩
      change Spec.Interior b (.arr ⟨b.shape, chunk b.shape.prod _ i⟩)
      rw [chunk_of_flatMap _ (fun _ _ => hd) hi]
      exact h3
  | hdict es l fd ih =>
    intro hw hf
    simp only [Pattern.WF] at hw
    simp only [FiniteLb] at hf
    obtain ⟨vs, h1, h2, h3, h4⟩ := ih hw.2 hf hw.1
    exact ⟨.dict vs, by simp [Pattern.empty, h1, bind, Except.bind, pure, Except.pure], by simpa [Val.WF] using h2,
      by simpa [Spec.Interior] using h3, by simpa [Spec.KeysExact] using h4, by simp [isDict]⟩
  | hnil _ _ _ => exact ⟨[], by simp [emptyEs], by simp [Val.WFEs], by simp [Spec.InteriorEs], by simp [Spec.KeysExactEs]⟩
  | hcons k p r ihp ihr hw hf hk =>
    simp only [WFEs] at hw
    simp only [FiniteLbEs] at hf
    obtain ⟨hk1, hk2⟩ := nodup_keys_cons hk
    obtain ⟨v, a1, a2, a3, a4, _⟩ := ihp hw.1 hf.1
    obtain ⟨vs, b1, b2, b3, b4⟩ := ihr hw.2.2 hf.2 hk2
    refine ⟨(k, v) :: vs, by simp [emptyEs, a1, b1, bind, Except.bind, pure, Except.pure], by simp [Val.WFEs, a2, b2], ?_,
      by simp [Spec.KeysExactEs, a4, b4]⟩
    simp only [Spec.InteriorEs]
    exact ⟨⟨v, by simp, a3⟩, (interiorEs_cons_irrel hk1).mpr b3⟩

/-- **C65.**  For every pattern (finite diagonal bounds), `empty(valid=True)` succeeds; the value has the pattern's
shapes and exactly its keys; `validate_folded` accepts it whatever the setting; and it flattens in both modes unless
the pattern has an empty container inside. -/
theorem C65_empty_valid {p : Pattern} (hp : Built p) (hf : p.FiniteLb) :
    ∃ v, p.empty = .ok v ∧ v.WF ∧ Spec.ShapeOk p v ∧ Spec.KeysExact p v ∧
      (∀ vv, ∃ msg, p.validate v vv = .ok (true, msg)) ∧
      (p.NoEmpty → ∀ b vv, ∃ x, p.flatten v (some b) vv = .ok x) := by
  obtain ⟨v, h1, h2, h3, h4, _⟩ := empty_main p hp.wf hf
  have hacc := fun vv => acc_of_interior p hp.wf hf v vv h3
  refine ⟨v, h1, h2, (shapeOk_iff_acc p hp.wf v).mp (hacc _), h4, hacc, fun hne b vv => ?_⟩
  cases b
  · exact ⟨_, flattenNF_eq p hp.wf v vv h2 hne (hacc vv)⟩
  · obtain ⟨r, _, h, _⟩ := free_val p hp.wf hf v h3 hne
    exact ⟨_, h vv⟩

/-- C65 is not vacuous. -/
example : Built exPat ∧ exPat.FiniteLb ∧ exPat.NoEmpty := ⟨exPat_built, exPat_finiteLb, exPat_noEmpty⟩

theorem unflat_allEq {α : Type} (b : α) (p : Pattern) : ∀ l : List α, (∀ x ∈ l, x = b) → Spec.AllEq b (p.unflat l) := by
  induction p using Pattern.ind (Q := fun es => ∀ l : List α, (∀ x ∈ l, x = b) → Spec.AllEqEs b (unflatEs es l)) with
  | hdict es l fd ih => intro l h; simpa [unflat, Spec.AllEq] using ih l h
  | hnil l h => simp [unflatEs, Spec.AllEqEs]
  | hcons k p r ihp ihr l h =>
    simp only [unflatEs, Spec.AllEqEs]
    exact ⟨ihp _ fun x hx => h x (List.mem_of_mem_take hx), ihr _ fun x hx => h x (List.mem_of_mem_drop hx)⟩
  | _ => intro l h; simpa [unflat, Spec.AllEq] using h

theorem unflat_keysExact {α : Type} (p : Pattern) : ∀ l : List α, Spec.KeysExact p (p.unflat l) := by
  induction p using Pattern.ind (Q := fun es => ∀ l : List α, Spec.KeysExactEs es (unflatEs es l)) with
  | hdict es l fd ih => intro l; simpa [unflat, Spec.KeysExact] using ih l
  | hnil l => simp [unflatEs, Spec.KeysExactEs]
  | hcons k p r ihp ihr l => simp [unflatEs, Spec.KeysExactEs, ihp, ihr]
  | _ => intro l; simp [unflat, Spec.KeysExact]

theorem unflat_shapeOk {α : Type} (p : Pattern) (hw : p.WF) : ∀ l : List α, Spec.ShapeOk p (p.unflat l) := by
  revert hw
  induction p using Pattern.ind (Q := fun es => WFEs es → es.keys.Nodup → ∀ l : List α,
      Spec.ShapeOkEs es (unflatEs es l)) with
  | hdict es l fd ih =>
    intro hw l
    simp only [Pattern.WF] at hw
    simpa [unflat, Spec.ShapeOk] using ih hw.2 hw.1 l
  | hnil _ _ l => simp [Spec.ShapeOkEs]
  | hcons k p r ihp ihr hw hk l =>
    simp only [WFEs] at hw
    obtain ⟨hk1, hk2⟩ := nodup_keys_cons hk
    simp only [unflatEs, Spec.ShapeOkEs]
    refine ⟨⟨_, List.lookup_cons_self, ihp hw.1 _⟩, ?_⟩
    have := ihr hw.2.2 hk2 (l.drop (p.flatLen false))
    generalize unflatEs r (l.drop (p.flatLen false)) = vs at this
    generalize p.unflat (l.take (p.flatLen false)) = v
    clear ihp ihr hw hk hk2
    induction r using Entries.rec (motive_1 := fun _ => True) with
    | nil => simp [Spec.ShapeOkEs]
    | cons k' p' r' _ ih =>
      simp only [Spec.ShapeOkEs] at this ⊢
      simp only [Entries.keys, Entries.toList, List.map_cons, List.mem_cons, not_or] at hk1
      refine ⟨?_, ih hk1.2 this.2⟩
      rw [lookup_cons_ne (Ne.symm hk1.1)]; exact this.1
    | _ => trivial
  | hnum c s lb ub dv fd => intro hw l; exact shapeOk_of_shape hw rfl l
  | hsim k s dv fd => intro hw l; exact shapeOk_of_shape hw rfl l
  | hpsd n lb dv fd => intro hw l; exact shapeOk_of_shape hw rfl l
  | harr s b fd ih => intro hw l; exact shapeOk_of_shape hw rfl l

/-- **C65, empty_bool.**  For every pattern, `empty_bool(b)` succeeds and returns a value with the pattern's shapes and
exactly its keys, every entry of which is `b`. -/
theorem C65_empty_bool {p : Pattern} (hp : Built p) (b : Bool) :
    ∃ v, p.emptyBool b = .ok v ∧ v.WF ∧ Spec.ShapeOk p v ∧ Spec.KeysExact p v ∧ Spec.AllEq b v := by
  have hs := unflat_shapeOk p hp.wf (List.replicate (p.flatLen false) b)
  refine ⟨_, foldNF_eq p hp.wf (List.replicate (p.flatLen false) b) (some false) (by simp) ?_,
    unflat_wf p hp.wf _ (by simp), hs, unflat_keysExact p _, unflat_allEq b p _ fun x => List.eq_of_mem_replicate⟩
  exact (shapeOk_iff_acc p hp.wf _).mpr hs

end Paragami
