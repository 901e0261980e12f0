import Verif.Proofs.Convex
import Verif.Spec.Admissible
import Mathlib.Topology.Order.OrderClosed
import Mathlib.Topology.Algebra.Ring.Real

/-! # The closure of the values strictly inside a pattern -/

namespace Paragami
open NDArray Pattern Flt Spec Topology

theorem admissibleEs_cons_irrel {k : String} {v : Val Flt} {es : Entries} {vs : List (String × Val Flt)}
    (h : k ∉ es.keys) : AdmissibleEs es ((k, v) :: vs) ↔ AdmissibleEs es vs := by
  match es with
  | .nil => simp [AdmissibleEs]
  | .cons k' p r =>
    simp only [Entries.keys, Entries.toList, List.map_cons, List.mem_cons, not_or] at h
    have ih := admissibleEs_cons_irrel (k := k) (v := v) (es := r) (vs := vs) h.2
    simp only [AdmissibleEs, lookup_cons_ne (Ne.symm h.1), ih]

theorem le_lt_mix {l : Flt} {a b x y : ℝ} (ha : 0 ≤ a) (hb : 0 < b) (h : a + b = 1) (hx : l.le (.fin x) = true) (hy : l.lt (.fin y) = true) :
    l.lt (.fin (a * x + b * y)) = true := by
  cases l with
  | fin c =>
    simp only [Flt.lt, le_fin, decide_eq_true_eq] at hx hy ⊢
    obtain rfl : a = 1 - b := by linarith
    nlinarith [mul_pos hb (sub_pos.mpr hy), mul_nonneg ha (sub_nonneg.mpr hx)]
  | _ => simp_all [Flt.lt, Flt.le]

theorem le_lt_mix_right {l : Flt} {a b x y : ℝ} (ha : 0 ≤ a) (hb : 0 < b) (h : a + b = 1) (hx : (Flt.fin x).le l = true) (hy : (Flt.fin y).lt l = true) :
    (Flt.fin (a * x + b * y)).lt l = true := by
  cases l with
  | fin c =>
    simp only [Flt.lt, le_fin, decide_eq_true_eq] at hx hy ⊢
    obtain rfl : a = 1 - b := by linarith
    nlinarith [mul_pos hb (sub_pos.mpr hy), mul_nonneg ha (sub_nonneg.mpr hx)]
  | _ => simp_all [Flt.lt, Flt.le]

/-- A mixture of an admissible value and one strictly inside, with some weight on the latter, is strictly inside. -/
theorem admissible_mix {a b : ℝ} (ha : 0 ≤ a) (hb : 0 < b) (hab : a + b = 1) (p : Pattern) (hw : p.WF) :
    ∀ r s : List ℝ, r.length = p.flatLen false → s.length = p.flatLen false → Admissible p (p.unflat (r.map .fin)) →
      Interior p (p.unflat (s.map .fin)) → Interior p (p.unflat ((mix a b r s).map .fin)) := by
  revert hw
  induction p using Pattern.ind
    (Q := fun es => WFEs es → es.keys.Nodup → ∀ r s : List ℝ, r.length = flatLenEs es false → s.length = flatLenEs es false →
      AdmissibleEs es (unflatEs es (r.map .fin)) → InteriorEs es (unflatEs es (s.map .fin)) →
      InteriorEs es (unflatEs es ((mix a b r s).map .fin))) with
  | hnum c s lb ub dv fd =>
    intro hw r t hr ht h1 h2
    simp only [unflat_of_not_dict (p := .numeric c s lb ub dv fd) rfl, Interior, Admissible] at h1 h2 ⊢
    refine ⟨?_, by rw [atleast1d_of_ne (by exact hw.1)]; rfl, fun x hx => ?_⟩
    · simp only [NDArray.WF, Pattern.shape, List.length_map] at h1 ⊢
      rw [length_mix hr ht, ← hr]; exact h1.1
    · simp only [List.mem_map] at hx
      obtain ⟨z, hz, rfl⟩ := hx
      obtain ⟨x, hx, y, hy, rfl⟩ := mem_mix hz
      have e1 := (h1.2.2 (.fin x) (by simpa using hx)).2
      have e2 := h2.2.2 (.fin y) (by simpa using hy)
      exact ⟨le_lt_mix ha hb hab e1.1 e2.1, le_lt_mix_right ha hb hab e1.2 e2.2⟩
  | hsim k s dv fd =>
    intro hw r t hr ht h1 h2
    simp only [unflat_of_not_dict (p := .simplex k s dv fd) rfl, Interior, Admissible] at h1 h2 ⊢
    refine ⟨?_, h1.2.1, fun i hi => ?_⟩
    · simp only [NDArray.WF, Pattern.shape, List.length_map] at h1 ⊢
      rw [length_mix hr ht, ← hr]; exact h1.1
    · obtain ⟨r', e1, e2, e3⟩ := h1.2.2 i hi
      obtain ⟨t', f1, f2, f3⟩ := h2.2.2 i hi
      rw [block_fin] at e1 f1
      have e1 := fin_map_inj e1
      have f1 := fin_map_inj f1
      refine ⟨mix a b r' t', by rw [mix_block, e1, f1], fun z hz => ?_, ?_⟩
      · obtain ⟨x, hx, y, hy, rfl⟩ := mem_mix hz
        have := mul_nonneg ha (e2 x hx)
        have := mul_pos hb (f2 y hy)
        linarith
      · rw [mix_sum, e3, f3]; · linarith
        rw [← e1, ← f1]; simp [hr, ht]
  | hpsd n lb dv fd =>
    intro hw r t hr ht h1 h2
    simp only [unflat_of_not_dict (p := .psd n lb dv fd) rfl, Interior, Admissible] at h1 h2 ⊢
    obtain ⟨M, e1, e2⟩ := h1
    obtain ⟨N, f1, f2⟩ := h2
    simp only [matData_rows, NDArray.mk.injEq] at e1 f1 ⊢
    have e1' := fin_map_inj e1.2
    have f1' := fin_map_inj f1.2
    refine ⟨a • M + b • N, ⟨e1.1, by rw [e1', f1', mix_rows]⟩, ?_⟩
    have := Matrix.PosDef.posSemidef_add (e2.smul ha) (f2.smul hb)
    convert this using 1
    ext i j
    simp only [Matrix.sub_apply, Matrix.add_apply, Matrix.smul_apply, smul_eq_mul]
    obtain rfl : b = 1 - a := by linarith
    ring
  | harr s p fd ih =>
    intro hw r t hr ht h1 h2
    simp only [Pattern.WF] at hw
    simp only [unflat_of_not_dict (p := .array s p fd) rfl, Interior, Admissible] at h1 h2 ⊢
    refine ⟨?_, h1.2.1, fun i hi => ?_⟩
    · simp only [NDArray.WF, List.length_map] at h1 ⊢
      rw [length_mix hr ht, ← hr]; exact h1.1
    · have e1 := h1.2.2 i hi
      have f1 := h2.2.2 i hi
      have hl : ∀ q : List ℝ, q.length = (Pattern.array s p fd).flatLen false → ((q.drop (i * p.shape.prod)).take p.shape.prod).length = p.flatLen false := by
        intro q hq
        rw [flatLen_false hw.2.1 hw.2.2]
        simp only [flatLen, flatLen_false hw.2.1 hw.2.2] at hq
        simp only [List.length_take, List.length_drop, hq]
        have : (i + 1) * p.shape.prod ≤ s.prod * p.shape.prod := Nat.mul_le_mul_right _ hi
        rw [Nat.add_mul] at this
        omega
      have := ih hw.2.2 _ _ (hl r hr) (hl t ht) (by rw [unflat_of_not_dict hw.2.1, ← block_fin]; exact e1) (by rw [unflat_of_not_dict hw.2.1, ← block_fin]; exact f1)
      rw [unflat_of_not_dict hw.2.1, ← mix_block] at this
      exact this
  | hdict es l fd ih =>
    intro hw r t hr ht h1 h2
    simp only [Pattern.WF] at hw
    exact ih hw.2 hw.1 r t hr ht h1 h2
  | hnil hw hk r s hr hs h1 h2 => trivial
  | hcons k p q ihp ihq hw hk r s hr hs h1 h2 =>
    obtain ⟨hk1, hk2⟩ := nodup_keys_cons hk
    simp only [WFEs] at hw
    simp only [flatLenEs] at hr hs
    simp only [unflatEs, InteriorEs, AdmissibleEs, List.lookup, beq_self_eq_true, Option.some.injEq, exists_eq_left', interiorEs_cons_irrel hk1,
      admissibleEs_cons_irrel hk1, ← List.map_take, ← List.map_drop, mix_take, mix_drop] at h1 h2 ⊢
    exact ⟨ihp hw.1 _ _ (by simp [hr]) (by simp [hs]) h1.1 h2.1, ihq hw.2.2 hk2 _ _ (by simp [hr]) (by simp [hs]) h1.2 h2.2⟩

/-- Lists that converge entry by entry. -/
def Tends (R : Nat → List ℝ) (r : List ℝ) : Prop := ∀ i, Filter.Tendsto (fun k => (R k).getD i 0) Filter.atTop (𝓝 (r.getD i 0))

theorem Tends.drop {R : Nat → List ℝ} {r : List ℝ} (h : Tends R r) (j : Nat) : Tends (fun k => (R k).drop j) (r.drop j) := by
  intro i
  have := h (j + i)
  simpa [List.getD_eq_getElem?_getD] using this

theorem Tends.take {R : Nat → List ℝ} {r : List ℝ} (h : Tends R r) (j : Nat) : Tends (fun k => (R k).take j) (r.take j) := by
  intro i
  by_cases hi : i < j
  · have := h i
    simpa [List.getD_eq_getElem?_getD, List.getElem?_take, hi] using this
  · simp [List.getD_eq_getElem?_getD, hi]

theorem sum_getD (r : List ℝ) {n : Nat} (h : r.length = n) : r.sum = ∑ i ∈ Finset.range n, r.getD i 0 := by
  subst h
  rw [← Fin.sum_univ_eq_sum_range (fun i => r.getD i 0)]
  conv_lhs => rw [← List.ofFn_get r]
  rw [List.sum_ofFn]
  exact Finset.sum_congr rfl fun i _ => by simp

theorem Tends.sum {R : Nat → List ℝ} {r : List ℝ} (h : Tends R r) {n : Nat} (hr : r.length = n) (hR : ∀ k, (R k).length = n) :
    Filter.Tendsto (fun k => (R k).sum) Filter.atTop (𝓝 r.sum) := by
  rw [sum_getD r hr]
  have : (fun k => (R k).sum) = fun k => ∑ i ∈ Finset.range n, (R k).getD i 0 := funext fun k => sum_getD _ (hR k)
  rw [this]
  exact tendsto_finsetSum _ fun i _ => h i

theorem Tends.mem {R : Nat → List ℝ} {r : List ℝ} (h : Tends R r) {n : Nat} (hr : r.length = n) (hR : ∀ k, (R k).length = n) {x : ℝ} (hx : x ∈ r) :
    ∃ y : Nat → ℝ, (∀ k, y k ∈ R k) ∧ Filter.Tendsto y Filter.atTop (𝓝 x) := by
  obtain ⟨i, hi, rfl⟩ := List.mem_iff_getElem.mp hx
  refine ⟨fun k => (R k).getD i 0, fun k => ?_, ?_⟩
  · have hk : i < (R k).length := by rw [hR, ← hr]; exact hi
    change (R k).getD i 0 ∈ R k
    rw [List.getD_eq_getElem?_getD, List.getElem?_eq_getElem hk]
    exact List.getElem_mem hk
  · have := h i
    rwa [List.getD_eq_getElem?_getD, List.getElem?_eq_getElem hi] at this

theorem le_of_tends {l : Flt} {y : Nat → ℝ} {x : ℝ} (h : Filter.Tendsto y Filter.atTop (𝓝 x)) (hy : ∀ k, l.lt (.fin (y k)) = true) : l.le (.fin x) = true := by
  cases l with
  | fin c =>
    simp only [Flt.lt, le_fin, decide_eq_true_eq] at hy ⊢
    exact ge_of_tendsto' h fun k => (hy k).le
  | _ => simp_all [Flt.lt, Flt.le]

theorem le_of_tends_right {l : Flt} {y : Nat → ℝ} {x : ℝ} (h : Filter.Tendsto y Filter.atTop (𝓝 x)) (hy : ∀ k, (Flt.fin (y k)).lt l = true) :
    (Flt.fin x).le l = true := by
  cases l with
  | fin c =>
    simp only [Flt.lt, le_fin, decide_eq_true_eq] at hy ⊢
    exact le_of_tendsto' h fun k => (hy k).le
  | _ => simp_all [Flt.lt, Flt.le]

theorem rows_eq {n : Nat} (M : Matrix (Fin n) (Fin n) ℝ) : rows M = (ofFn2 n n (natMat M)).data := by
  simp only [rows, data_ofFn2, flatMap_range_eq_ofFn, map_range_eq_ofFn, natMat]
  congr 2
  funext i
  congr 1
  funext j
  simp

theorem rows_getD {n : Nat} (M : Matrix (Fin n) (Fin n) ℝ) (i j : Fin n) : (rows M).getD (i * n + j) 0 = M i j := by
  rw [rows_eq, List.getD_eq_getElem?_getD, getElem?_of_chunk j.2, data_ofFn2, chunk_of_flatMap (n := n) _ (by simp) i.2]
  simp [natMat]

/-- Every list of the right length is the list of entries of a matrix. -/
theorem rows_surj {n : Nat} {r : List ℝ} (hr : r.length = n * n) : ∃ M : Matrix (Fin n) (Fin n) ℝ, rows M = r := by
  refine ⟨Matrix.of fun i j => r.getD (i * n + j) 0, ?_⟩
  apply List.ext_getElem
  · rw [rows_eq, length_ofFn2, hr]
  · intro t h1 h2
    have ht : t < n * n := hr ▸ h2
    have hn : 0 < n := Nat.pos_of_ne_zero (by rintro rfl; simp at ht)
    have hi : t / n < n := Nat.div_lt_of_lt_mul ht
    have := rows_getD (Matrix.of fun i j : Fin n => r.getD (i * n + j) 0) ⟨t / n, hi⟩ ⟨t % n, Nat.mod_lt _ hn⟩
    simp only [Nat.div_add_mod', Matrix.of_apply] at this
    have e : ∀ {l : List ℝ} (h : t < l.length), l.getD t 0 = l[t] := fun h => by rw [List.getD_eq_getElem?_getD, List.getElem?_eq_getElem h]; rfl
    rwa [e h1, e h2] at this

/-- Limits of values strictly inside are admissible. -/
theorem admissible_limit (p : Pattern) (hw : p.WF) :
    ∀ (R : Nat → List ℝ) (r : List ℝ), (∀ k, (R k).length = p.flatLen false) → r.length = p.flatLen false → Tends R r →
      (∀ k, Interior p (p.unflat ((R k).map .fin))) → Admissible p (p.unflat (r.map .fin)) := by
  revert hw
  induction p using Pattern.ind
    (Q := fun es => WFEs es → es.keys.Nodup → ∀ (R : Nat → List ℝ) (r : List ℝ), (∀ k, (R k).length = flatLenEs es false) → r.length = flatLenEs es false →
      Tends R r → (∀ k, InteriorEs es (unflatEs es ((R k).map .fin))) → AdmissibleEs es (unflatEs es (r.map .fin))) with
  | hnum c s lb ub dv fd =>
    intro hw R r hR hr ht h1
    simp only [unflat_of_not_dict (p := .numeric c s lb ub dv fd) rfl, Interior, Admissible] at h1 ⊢
    refine ⟨?_, by rw [atleast1d_of_ne (by exact hw.1)]; rfl, fun x hx => ?_⟩
    · have := (h1 0).1
      simp only [NDArray.WF, Pattern.shape, List.length_map] at this ⊢
      rw [hr, ← hR 0]; exact this
    · simp only [List.mem_map] at hx
      obtain ⟨z, hz, rfl⟩ := hx
      obtain ⟨y, hy, hl⟩ := ht.mem hr hR hz
      have e := fun k => (h1 k).2.2 (.fin (y k)) (by simpa using hy k)
      exact ⟨⟨z, rfl⟩, le_of_tends hl fun k => (e k).1, le_of_tends_right hl fun k => (e k).2⟩
  | hsim k s dv fd =>
    intro hw R r hR hr ht h1
    simp only [unflat_of_not_dict (p := .simplex k s dv fd) rfl, Interior, Admissible] at h1 ⊢
    refine ⟨?_, (h1 0).2.1, fun i hi => ⟨(r.drop (i * k)).take k, block_fin .., ?_⟩⟩
    · have := (h1 0).1
      simp only [NDArray.WF, Pattern.shape, List.length_map] at this ⊢
      rw [hr, ← hR 0]; exact this
    · have hb : ∀ m, (∀ x ∈ ((R m).drop (i * k)).take k, 0 < x) ∧ (((R m).drop (i * k)).take k).sum = 1 := by
        intro m
        obtain ⟨r', e1, e2, e3⟩ := (h1 m).2.2 i hi
        rw [block_fin] at e1
        rw [fin_map_inj e1]
        exact ⟨e2, e3⟩
      have ht' := (ht.drop (i * k)).take k
      have hlen : ∀ m, (((R m).drop (i * k)).take k).length = ((r.drop (i * k)).take k).length := fun m => by simp [hR, hr]
      refine ⟨fun x hx => ?_, ?_⟩
      · obtain ⟨y, hy, hl⟩ := ht'.mem rfl hlen hx
        exact ge_of_tendsto' hl fun m => ((hb m).1 _ (hy m)).le
      · have h2 := ht'.sum rfl hlen
        simp only [(hb _).2] at h2
        exact tendsto_nhds_unique h2 tendsto_const_nhds |>.symm ▸ rfl
  | hpsd n lb dv fd =>
    intro hw R r hR hr ht h1
    simp only [unflat_of_not_dict (p := .psd n lb dv fd) rfl, Interior, Admissible] at h1 ⊢
    choose M hM hpd using h1
    simp only [matData_rows, NDArray.mk.injEq] at hM ⊢
    have hM' : ∀ k, R k = rows (M k) := fun k => fin_map_inj (hM k).2
    obtain ⟨N, hN⟩ := rows_surj (n := n) (r := r) (by rw [hr]; simp [flatLen, sq])
    have hl : ∀ i j, Filter.Tendsto (fun k => M k i j) Filter.atTop (𝓝 (N i j)) := by
      intro i j
      have := ht (i * n + j)
      simp only [hM', rows_getD, ← hN] at this
      exact this
    refine ⟨N, ⟨(hM 0).1, by rw [hN]⟩, Matrix.PosSemidef.of_dotProduct_mulVec_nonneg ?_ fun v => ?_⟩
    · ext i j
      have h := fun k => congrFun (congrFun (hpd k).1 i) j
      simp only [Matrix.conjTranspose_apply, Matrix.sub_apply, star_trivial] at h ⊢
      exact tendsto_nhds_unique ((hl j i).sub_const _) (by simp only [h]; exact (hl i j).sub_const _)
    · have hq : Filter.Tendsto (fun k => dotProduct (star v) ((M k - lb.toFlt.toReal • (1 : Matrix (Fin n) (Fin n) ℝ)).mulVec v)) Filter.atTop
          (𝓝 (dotProduct (star v) ((N - lb.toFlt.toReal • (1 : Matrix (Fin n) (Fin n) ℝ)).mulVec v))) := by
        simp only [dotProduct, Matrix.mulVec, Matrix.sub_apply]
        exact tendsto_finsetSum _ fun i _ => (tendsto_finsetSum _ fun j _ => ((hl i j).sub_const _).mul_const _).const_mul _
      exact ge_of_tendsto' hq fun k => (hpd k).posSemidef.dotProduct_mulVec_nonneg v
  | harr s p fd ih =>
    intro hw R r hR hr ht h1
    simp only [Pattern.WF] at hw
    simp only [unflat_of_not_dict (p := .array s p fd) rfl, Interior, Admissible] at h1 ⊢
    refine ⟨?_, (h1 0).2.1, fun i hi => ?_⟩
    · have := (h1 0).1
      simp only [NDArray.WF, List.length_map] at this ⊢
      rw [hr, ← hR 0]; exact this
    · have hl : ∀ q : List ℝ, q.length = (Pattern.array s p fd).flatLen false → ((q.drop (i * p.shape.prod)).take p.shape.prod).length = p.flatLen false := by
        intro q hq
        rw [flatLen_false hw.2.1 hw.2.2]
        simp only [flatLen, flatLen_false hw.2.1 hw.2.2] at hq
        simp only [List.length_take, List.length_drop, hq]
        have : (i + 1) * p.shape.prod ≤ s.prod * p.shape.prod := Nat.mul_le_mul_right _ hi
        rw [Nat.add_mul] at this
        omega
      have := ih hw.2.2 (fun k => ((R k).drop (i * p.shape.prod)).take p.shape.prod) _ (fun k => hl _ (hR k)) (hl r hr) ((ht.drop _).take _)
        (fun k => by rw [unflat_of_not_dict hw.2.1, ← block_fin]; exact (h1 k).2.2 i hi)
      rw [unflat_of_not_dict hw.2.1, ← block_fin] at this
      exact this
  | hdict es l fd ih =>
    intro hw R r hR hr ht h1
    simp only [Pattern.WF] at hw
    exact ih hw.2 hw.1 R r hR hr ht h1
  | hnil hw hk R r hR hr ht h1 => trivial
  | hcons k p q ihp ihq hw hk R r hR hr ht h1 =>
    obtain ⟨hk1, hk2⟩ := nodup_keys_cons hk
    simp only [WFEs] at hw
    simp only [flatLenEs] at hR hr
    simp only [unflatEs, InteriorEs, AdmissibleEs, List.lookup, beq_self_eq_true, Option.some.injEq, exists_eq_left', interiorEs_cons_irrel hk1,
      admissibleEs_cons_irrel hk1, ← List.map_take, ← List.map_drop] at h1 ⊢
    exact ⟨ihp hw.1 _ _ (by simp [hR]) (by simp [hr]) (ht.take _) fun k => (h1 k).1,
      ihq hw.2.2 hk2 _ _ (by simp [hR]) (by simp [hr]) (ht.drop _) fun k => (h1 k).2⟩

end Paragami
