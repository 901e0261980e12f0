import Verif.Proofs.JacobianInv
import Mathlib.Algebra.Order.Star.Real

/-! # The values strictly inside a pattern are convex -/

namespace Paragami
open NDArray Pattern Flt Spec

/-- The weighted mean of two lists, entry by entry. -/
def mix (a b : ℝ) (r s : List ℝ) : List ℝ := List.zipWith (fun x y => a * x + b * y) r s

theorem length_mix {a b : ℝ} {r s : List ℝ} {n : Nat} (hr : r.length = n) (hs : s.length = n) : (mix a b r s).length = n := by
  simp [mix, hr, hs]

theorem mix_take (a b : ℝ) (r s : List ℝ) (n : Nat) : (mix a b r s).take n = mix a b (r.take n) (s.take n) := by
  simp [mix, List.take_zipWith]

theorem mix_drop (a b : ℝ) (r s : List ℝ) (n : Nat) : (mix a b r s).drop n = mix a b (r.drop n) (s.drop n) := by
  simp [mix, List.drop_zipWith]

theorem mix_sum (a b : ℝ) : ∀ {r s : List ℝ}, r.length = s.length → (mix a b r s).sum = a * r.sum + b * s.sum
  | [], [], _ => by simp [mix]
  | x :: r, y :: s, h => by
    have := mix_sum a b (r := r) (s := s) (by simpa using h)
    simp only [mix, List.zipWith_cons_cons, List.sum_cons] at this ⊢
    rw [this]; ring

theorem mem_mix {a b : ℝ} {z : ℝ} : ∀ {r s : List ℝ}, z ∈ mix a b r s → ∃ x ∈ r, ∃ y ∈ s, z = a * x + b * y
  | [], _, h => by simp [mix] at h
  | _ :: _, [], h => by simp [mix] at h
  | x :: r, y :: s, h => by
    simp only [mix, List.zipWith_cons_cons, List.mem_cons] at h
    rcases h with rfl | h
    · exact ⟨x, by simp, y, by simp, rfl⟩
    · obtain ⟨x', hx, y', hy, e⟩ := mem_mix (r := r) (s := s) h
      exact ⟨x', by simp [hx], y', by simp [hy], e⟩

theorem mix_block (a b : ℝ) (k : Nat) (r s : List ℝ) (i : Nat) :
    block k ((mix a b r s).map Flt.fin) i = (mix a b ((r.drop (i * k)).take k) ((s.drop (i * k)).take k)).map Flt.fin := by
  rw [block, ← List.map_drop, ← List.map_take, mix_drop, mix_take]

theorem fin_map_inj {r s : List ℝ} (h : r.map Flt.fin = s.map Flt.fin) : r = s :=
  List.map_injective_iff.mpr (fun a b h => by simpa using h) h

theorem block_fin (k : Nat) (r : List ℝ) (i : Nat) : block k (r.map Flt.fin) i = ((r.drop (i * k)).take k).map Flt.fin := by
  rw [block, ← List.map_drop, ← List.map_take]

theorem lt_mix_left {l : Flt} {a b x y : ℝ} (ha : 0 ≤ a) (hb : 0 ≤ b) (h : a + b = 1) (hx : l.lt (.fin x) = true) (hy : l.lt (.fin y) = true) :
    l.lt (.fin (a * x + b * y)) = true := by
  cases l with
  | fin c =>
    simp only [Flt.lt, decide_eq_true_eq] at hx hy ⊢
    rcases ha.eq_or_lt with rfl | ha
    · simp at h; subst h; simpa using hy
    · obtain rfl : b = 1 - a := by linarith
      nlinarith [mul_pos ha (sub_pos.mpr hx), mul_nonneg hb (sub_pos.mpr hy).le]
  | _ => simp_all [Flt.lt]

theorem lt_mix_right {l : Flt} {a b x y : ℝ} (ha : 0 ≤ a) (hb : 0 ≤ b) (h : a + b = 1) (hx : (Flt.fin x).lt l = true) (hy : (Flt.fin y).lt l = true) :
    (Flt.fin (a * x + b * y)).lt l = true := by
  cases l with
  | fin c =>
    simp only [Flt.lt, decide_eq_true_eq] at hx hy ⊢
    rcases ha.eq_or_lt with rfl | ha
    · simp at h; subst h; simpa using hy
    · obtain rfl : b = 1 - a := by linarith
      nlinarith [mul_pos ha (sub_pos.mpr hx), mul_nonneg hb (sub_pos.mpr hy).le]
  | _ => simp_all [Flt.lt]

/-- The entries of a matrix in row-major order. -/
def rows {n m : Nat} (M : Matrix (Fin n) (Fin m) ℝ) : List ℝ := (List.ofFn fun i => List.ofFn fun j => M i j).flatten

theorem matData_rows {n m : Nat} (M : Matrix (Fin n) (Fin m) ℝ) : matData M = (rows M).map Flt.fin := by
  simp only [matData, rows, List.map_flatten, List.map_ofFn, Function.comp_def]

theorem mix_flatten (a b : ℝ) : ∀ (L K : List (List ℝ)), L.map List.length = K.map List.length →
    mix a b L.flatten K.flatten = (List.zipWith (mix a b) L K).flatten
  | [], [], _ => by simp [mix]
  | [], _ :: _, h => by simp at h
  | _ :: _, [], h => by simp at h
  | x :: L, y :: K, h => by
    simp only [List.map_cons, List.cons.injEq] at h
    rw [List.flatten_cons, List.flatten_cons, List.zipWith_cons_cons, List.flatten_cons, ← mix_flatten a b L K h.2, mix,
      List.zipWith_append h.1]
    rfl

theorem mix_rows {n m : Nat} (a b : ℝ) (M N : Matrix (Fin n) (Fin m) ℝ) : mix a b (rows M) (rows N) = rows (a • M + b • N) := by
  rw [rows, rows, mix_flatten _ _ _ _ (by simp [List.map_ofFn, Function.comp_def]), rows]
  congr 1
  apply List.ext_getElem
  · simp
  · intro i h1 h2
    simp only [List.getElem_zipWith, List.getElem_ofFn, mix]
    apply List.ext_getElem
    · simp
    · intro j _ _; simp

theorem posDef_mix {n : Nat} {M N : Matrix (Fin n) (Fin n) ℝ} {a b : ℝ} (ha : 0 ≤ a) (hb : 0 ≤ b) (h : a + b = 1) (hM : M.PosDef) (hN : N.PosDef) :
    (a • M + b • N).PosDef := by
  rcases ha.eq_or_lt with rfl | ha
  · simp at h; subst h; simpa using hN
  · rcases hb.eq_or_lt with rfl | hb
    · simp at h; subst h; simpa using hM
    · exact Matrix.PosDef.add (hM.smul ha) (hN.smul hb)

/-- Mixing the flat entries of two values strictly inside gives a value strictly inside. -/
theorem interior_mix {a b : ℝ} (ha : 0 ≤ a) (hb : 0 ≤ b) (hab : a + b = 1) (p : Pattern) (hw : p.WF) :
    ∀ r s : List ℝ, r.length = p.flatLen false → s.length = p.flatLen false → Interior p (p.unflat (r.map .fin)) →
      Interior p (p.unflat (s.map .fin)) → Interior p (p.unflat ((mix a b r s).map .fin)) := by
  revert hw
  induction p using Pattern.ind
    (Q := fun es => WFEs es → es.keys.Nodup → ∀ r s : List ℝ, r.length = flatLenEs es false → s.length = flatLenEs es false →
      InteriorEs es (unflatEs es (r.map .fin)) → InteriorEs es (unflatEs es (s.map .fin)) →
      InteriorEs es (unflatEs es ((mix a b r s).map .fin))) with
  | hnum c s lb ub dv fd =>
    intro hw r t hr ht h1 h2
    simp only [unflat_of_not_dict (p := .numeric c s lb ub dv fd) rfl, Interior] at h1 h2 ⊢
    refine ⟨?_, by rw [atleast1d_of_ne (by exact hw.1)]; rfl, fun x hx => ?_⟩
    · simp only [NDArray.WF, Pattern.shape, List.length_map] at h1 ⊢
      rw [length_mix hr ht, ← hr]; exact h1.1
    · simp only [List.mem_map] at hx
      obtain ⟨z, hz, rfl⟩ := hx
      obtain ⟨x, hx, y, hy, rfl⟩ := mem_mix hz
      have e1 := h1.2.2 (.fin x) (by simpa using hx)
      have e2 := h2.2.2 (.fin y) (by simpa using hy)
      exact ⟨lt_mix_left ha hb hab e1.1 e2.1, lt_mix_right ha hb hab e1.2 e2.2⟩
  | hsim k s dv fd =>
    intro hw r t hr ht h1 h2
    simp only [unflat_of_not_dict (p := .simplex k s dv fd) rfl, Interior] at h1 h2 ⊢
    refine ⟨?_, h1.2.1, fun i hi => ?_⟩
    · simp only [NDArray.WF, Pattern.shape, List.length_map] at h1 ⊢
      rw [length_mix hr ht, ← hr]; exact h1.1
    · obtain ⟨r', e1, e2, e3⟩ := h1.2.2 i hi
      obtain ⟨t', f1, f2, f3⟩ := h2.2.2 i hi
      rw [block_fin] at e1 f1
      have e1 := fin_map_inj e1
      have f1 := fin_map_inj f1
      refine ⟨mix a b r' t', by rw [mix_block, e1, f1], fun z hz => ?_, ?_⟩
      · obtain ⟨x, hx, y, hy, rfl⟩ := mem_mix hz
        have := e2 x hx
        have := f2 y hy
        rcases ha.eq_or_lt with rfl | ha
        · simp at hab; subst hab; simpa
        · have := mul_pos ha (e2 x hx); have := mul_nonneg hb (f2 y hy).le; linarith
      · rw [mix_sum, e3, f3]; · linarith
        rw [← e1, ← f1]; simp [hr, ht]
  | hpsd n lb dv fd =>
    intro hw r t hr ht h1 h2
    simp only [unflat_of_not_dict (p := .psd n lb dv fd) rfl, Interior] at h1 h2 ⊢
    obtain ⟨M, e1, e2⟩ := h1
    obtain ⟨N, f1, f2⟩ := h2
    simp only [matData_rows, NDArray.mk.injEq] at e1 f1 ⊢
    have e1' := fin_map_inj e1.2
    have f1' := fin_map_inj f1.2
    refine ⟨a • M + b • N, ⟨e1.1, by rw [e1', f1', mix_rows]⟩, ?_⟩
    have := posDef_mix ha hb hab e2 f2
    convert this using 1
    ext i j
    simp only [Matrix.sub_apply, Matrix.add_apply, Matrix.smul_apply, smul_eq_mul]
    obtain rfl : b = 1 - a := by linarith
    ring
  | harr s p fd ih =>
    intro hw r t hr ht h1 h2
    simp only [Pattern.WF] at hw
    simp only [unflat_of_not_dict (p := .array s p fd) rfl, Interior] at h1 h2 ⊢
    refine ⟨?_, h1.2.1, fun i hi => ?_⟩
    · simp only [NDArray.WF, List.length_map] at h1 ⊢
      rw [length_mix hr ht, ← hr]; exact h1.1
    · have e1 := h1.2.2 i hi
      have f1 := h2.2.2 i hi
      have hl : ∀ q : List ℝ, q.length = (Pattern.array s p fd).flatLen false → ((q.drop (i * p.shape.prod)).take p.shape.prod).length = p.flatLen false := by
        intro q hq
        rw [flatLen_false hw.2.1 hw.2.2]
        simp only [flatLen, flatLen_false hw.2.1 hw.2.2] at hq
        simp only [List.length_take, List.length_drop, hq]
        have : (i + 1) * p.shape.prod ≤ s.prod * p.shape.prod := Nat.mul_le_mul_right _ hi
        rw [Nat.add_mul] at this
        omega
      have := ih hw.2.2 _ _ (hl r hr) (hl t ht) (by rw [unflat_of_not_dict hw.2.1, ← block_fin]; exact e1) (by rw [unflat_of_not_dict hw.2.1, ← block_fin]; exact f1)
      rw [unflat_of_not_dict hw.2.1, ← mix_block] at this
      exact this
  | hdict es l fd ih =>
    intro hw r t hr ht h1 h2
    simp only [Pattern.WF] at hw
    exact ih hw.2 hw.1 r t hr ht h1 h2
  | hnil hw hk r s hr hs h1 h2 => trivial
  | hcons k p q ihp ihq hw hk r s hr hs h1 h2 =>
    obtain ⟨hk1, hk2⟩ := nodup_keys_cons hk
    simp only [WFEs] at hw
    simp only [flatLenEs] at hr hs
    simp only [unflatEs, InteriorEs, List.lookup, beq_self_eq_true, Option.some.injEq, exists_eq_left', interiorEs_cons_irrel hk1,
      ← List.map_take, ← List.map_drop, mix_take, mix_drop] at h1 h2 ⊢
    exact ⟨ihp hw.1 _ _ (by simp [hr]) (by simp [hs]) h1.1 h2.1, ihq hw.2.2 hk2 _ _ (by simp [hr]) (by simp [hs]) h1.2 h2.2⟩

end Paragami
