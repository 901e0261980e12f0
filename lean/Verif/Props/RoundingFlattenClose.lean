import Verif.Spec.RoundingFlattenClose
import Verif.Props.RoundingFreeTotal

/-!
# C115: whole values, flattened in floating point
-/

set_option linter.unusedSimpArgs false

namespace Paragami
open NDArray Pattern Flt Spec

variable {A : Arith}

/-! ### Leaves -/

/-- The logarithms of the distances from two bounds, by the free value. -/
theorem log_sides {a b v : ℝ} (h1 : a < v) (h2 : v < b) :
    |Real.log (v - a)| + |Real.log (b - v)| ≤ 2 * |Real.log (b - a)| + |Real.log (v - a) - Real.log (b - v)| + 3 / 2 := by
  have p1 : 0 < v - a := by linarith
  have p2 : 0 < b - v := by linarith
  have g1 : Real.log (v - a) ≤ Real.log (b - a) := Real.log_le_log p1 (by linarith)
  have g2 : Real.log (b - v) ≤ Real.log (b - a) := Real.log_le_log p2 (by linarith)
  have h3 := Real.log_two_lt_d9
  have hab : 0 < b - a := by linarith
  have g3 : Real.log (b - a) ≤ Real.log 2 + max (Real.log (v - a)) (Real.log (b - v)) := by
    rcases le_total (v - a) (b - v) with h | h
    · have : Real.log (b - a) ≤ Real.log (2 * (b - v)) := Real.log_le_log hab (by linarith)
      rw [Real.log_mul (by norm_num) p2.ne'] at this
      exact this.trans (by linarith [le_max_right (Real.log (v - a)) (Real.log (b - v))])
    · have : Real.log (b - a) ≤ Real.log (2 * (v - a)) := Real.log_le_log hab (by linarith)
      rw [Real.log_mul (by norm_num) p1.ne'] at this
      exact this.trans (by linarith [le_max_left (Real.log (v - a)) (Real.log (b - v))])
  generalize Real.log (v - a) = x at *
  generalize Real.log (b - v) = y at *
  generalize Real.log (b - a) = z at *
  generalize Real.log 2 = l at *
  have q1 := le_abs_self z
  have q2 := neg_abs_le z
  have q3 := le_abs_self (x - y)
  have q4 := neg_abs_le (x - y)
  rcases max_cases x y with ⟨e, -⟩ | ⟨e, -⟩ <;> rw [e] at g3 <;> rcases abs_cases x with ⟨e1, -⟩ | ⟨e1, -⟩ <;> rcases abs_cases y with ⟨e2, -⟩ | ⟨e2, -⟩ <;>
    rw [e1, e2] <;> linarith

/-- One entry of a numeric pattern. -/
theorem numeric_flat (hA : A.Sane) (hB : A.Accurate) (hL : A.LogAccurate) {c : NumCls} {s : List Nat} {lb ub : PyNum} {dv : Bool} {fd : Option Bool}
    (hw : (Pattern.numeric c s lb ub dv fd).WF) (hm : Moderate A (.numeric c s lb ub dv fd)) {B v : ℝ} (hv : A.Machine (.fin v))
    (hv' : |v| ≤ 2 ^ (300 : ℤ)) (h1 : ∀ c, lb.toFlt = .fin c → 2 ^ (-300 : ℤ) ≤ v - c) (h2 : ∀ c, ub.toFlt = .fin c → 2 ^ (-300 : ℤ) ≤ c - v) :
    ((Flt.fin v).lt lb.toFlt = false ∧ (Flt.fin v).gt ub.toFlt = false) ∧
    ∃ y u, unconstrain1A A lb.toFlt ub.toFlt (.fin v) = .fin y ∧ unconstrain1 lb.toFlt ub.toFlt (.fin v) = .fin u ∧
      |y - u| ≤ flattenError B (.numeric c s lb ub dv fd) u := by
  simp only [Pattern.WF] at hw
  simp only [Moderate] at hm
  obtain ⟨m1, m2, -⟩ := hm
  have hlt := hw.2.2.2.2.2
  have hz : (0:ℝ) < 2 ^ (-300 : ℤ) := two_zpow_pos _
  have hsm : (2:ℝ) ^ (-1000 : ℤ) ≤ 2 ^ (-300 : ℤ) := Arith.small_zpow (by norm_num)
  simp only [flattenError]
  generalize lb.toFlt = a at *
  generalize ub.toFlt = b at *
  cases a with
  | nan => cases b <;> simp [Flt.lt] at hlt
  | pinf => cases b <;> simp [Flt.lt] at hlt
  | ninf =>
    cases b with
    | nan => simp [Flt.lt] at hlt
    | ninf => simp [Flt.lt] at hlt
    | pinf => exact ⟨by simp [Flt.lt, Flt.gt], v, v, by simp [unconstrain1A, Flt.eq], by simp [unconstrain1, Flt.eq], by simp⟩
    | fin b =>
      obtain ⟨hb, hb'⟩ := m2 b rfl
      have h3 := h2 b rfl
      refine ⟨by simp [Flt.lt, Flt.gt]; linarith, ?_⟩
      have := Arith.upper_flatten hA hB hL hb hv (moderate_size hb') (moderate_size hv') (hsm.trans h3)
      simpa only [← Arith.uRound_val] using this
  | fin a =>
    obtain ⟨ha, ha'⟩ := m1 a rfl
    have h3 := h1 a rfl
    cases b with
    | nan => simp [Flt.lt] at hlt
    | ninf => simp [Flt.lt] at hlt
    | pinf =>
      refine ⟨by simp [Flt.lt, Flt.gt]; linarith, ?_⟩
      have := Arith.lower_flatten hB hL ha hv (moderate_size ha') (moderate_size hv') (hsm.trans h3)
      simpa only [← Arith.uRound_val] using this
    | fin b =>
      obtain ⟨hb, hb'⟩ := m2 b rfl
      have h4 := h2 b rfl
      refine ⟨by simp [Flt.lt, Flt.gt]; constructor <;> linarith, ?_⟩
      obtain ⟨y, u, e1, e2, e3⟩ := Arith.two_sided_flatten hB hL ha hb hv ha' hb' hv' h3 h4
      refine ⟨y, u, e1, e2, e3.trans ?_⟩
      have h5 : a < v := by linarith
      have h6 : v < b := by linarith
      have e4 : u = Real.log (v - a) - Real.log (b - v) := by
        have q1 : 0 < v - a := by linarith
        have q2 : 0 < b - v := by linarith
        simp only [unconstrain1, Flt.eq, Bool.false_eq_true, if_false, sub_fin, Flt.log_fin q1, Flt.log_fin q2, fin.injEq] at e2
        exact e2.symm
      rw [e4, Arith.uRound_val]
      refine mul_le_mul_of_nonneg_left ?_ Arith.uRound_pos.le
      have := log_sides h5 h6
      linarith

theorem numeric_flat_map (hA : A.Sane) (hB : A.Accurate) (hL : A.LogAccurate) {c : NumCls} {s : List Nat} {lb ub : PyNum} {dv : Bool} {fd : Option Bool}
    (hw : (Pattern.numeric c s lb ub dv fd).WF) (hm : Moderate A (.numeric c s lb ub dv fd)) {B : ℝ} : ∀ l : List Flt,
    (∀ x ∈ l, ∃ v, x = .fin v ∧ A.Machine (.fin v) ∧ |v| ≤ 2 ^ (300 : ℤ) ∧ (∀ c, lb.toFlt = .fin c → 2 ^ (-300 : ℤ) ≤ v - c) ∧
      ∀ c, ub.toFlt = .fin c → 2 ^ (-300 : ℤ) ≤ c - v) →
    (∀ x ∈ l, x.lt lb.toFlt = false ∧ x.gt ub.toFlt = false) ∧
    ∃ u y : List ℝ, l.map (unconstrain1A A lb.toFlt ub.toFlt) = y.map .fin ∧ l.map (unconstrain1 lb.toFlt ub.toFlt) = u.map .fin ∧
      List.Forall₂ (fun u y => |y - u| ≤ flattenError B (.numeric c s lb ub dv fd) u) u y
  | [], _ => ⟨by simp, [], [], rfl, rfl, .nil⟩
  | x :: l, h => by
    obtain ⟨v, rfl, h1, h2, h3, h4⟩ := h x (by simp)
    obtain ⟨g0, y, u, g1, g2, g3⟩ := numeric_flat hA hB hL hw hm (B := B) h1 h2 h3 h4
    obtain ⟨f0, us, ys, f1, f2, f3⟩ := numeric_flat_map hA hB hL hw hm (B := B) l fun x hx => h x (by simp [hx])
    refine ⟨?_, u :: us, y :: ys, ?_, ?_, .cons g3 f3⟩
    · intro x hx
      rcases List.mem_cons.mp hx with rfl | hx
      · exact g0
      · exact f0 x hx
    · rw [List.map_cons, g1, f1, List.map_cons]
    · rw [List.map_cons, g2, f2, List.map_cons]

/-- Simplexes whose sums are very close to one pass the exact validation. -/
theorem simplex_accepts_exact {k : Nat} {s : List Nat} {dv : Bool} {x : List ℝ} (hm : ∀ v ∈ x, 0 < v)
    (hsum : ∀ i < s.prod, |(Spec.block k x i).sum - 1| ≤ 1 / 10 ^ 13) (vv : Option Bool) :
    Simplex.validateA .exact k s dv ⟨s ++ [k], x.map .fin⟩ vv = .ok (true, "") := by
  refine validateA_ok vv ?_ ?_
  · intro z hz
    obtain ⟨v, hv, rfl⟩ := List.mem_map.mp hz
    rw [Arith.zero_flt]
    simpa [lt] using (hm v hv).le
  · intro i hi
    have h0 := hsum i hi
    rw [chunk_map, show chunk k x i = Spec.block k x i from rfl]
    generalize Spec.block k x i = b at *
    have e : (Arith.exact.sub (Arith.exact.sum (List.map fin b)) 1) = .fin (b.sum - 1) := by
      simp only [Arith.exact, Arith.sub, Flt.sum_fin, Arith.one_flt, sub_fin, Arith.round]
    rw [e]
    simp only [Flt.abs, Arith.exact, Flt.gt, Flt.lt_fin, decide_eq_false_iff_not, not_lt]
    exact h0.trans (by norm_num)

/-- The exact free values of one simplex. -/
theorem unconstrain_row_exact {x0 : ℝ} {xs : List ℝ} (hx : ∀ v ∈ x0 :: xs, 0 < v) :
    unconstrainSimplexRowA .exact ((x0 :: xs).map .fin) = (xs.map fun v => Real.log v - Real.log x0).map .fin := by
  have h0 := hx x0 (by simp)
  simp only [List.map_cons, unconstrainSimplexRowA, List.map_map]
  refine List.map_congr_left fun v hv => ?_
  have := hx v (by simp [hv])
  simp only [Arith.sub, Arith.exact, Flt.log_fin this, Flt.log_fin h0, sub_fin, Arith.round, Function.comp]

/-- The exact free values of a matrix, by its factor. -/
theorem inside_factor {p : Pattern} {n : ℕ} {lb : PyNum} {dv : Bool} {fd : Option Bool} (hp : mkPSD n lb dv fd = .ok p) {c : ℝ} (hc : lb.toFlt = .fin c)
    {L : Matrix (Fin n) (Fin n) ℝ} {B : ℝ} (hLz : ∀ i j, i < j → L i j = 0) (hLd : ∀ i, 0 < L i i ∧ |Real.log (L i i)| ≤ B) (hLo : ∀ i j, j < i → |L i j| ≤ B)
    (vv : Option Bool) : ∃ t : List ℝ, t.length = n * (n + 1) / 2 ∧
      p.flatten (.arr ⟨[n, n], matData (L * L.transpose + c • 1)⟩) (some true) vv = .ok (vec (t.map .fin)) ∧
      (∀ i : Fin n, lower t i i = Real.log (L i i)) ∧ (∀ i j : Fin n, j < i → lower t i j = L i j) ∧ ∀ u ∈ t, |u| ≤ B := by
  obtain ⟨t, tl, te, td, tq⟩ := flatten_of_factor hp hc hLz (fun i => (hLd i).1) vv
  have hsz : ∀ u ∈ t, |u| ≤ B := by
    intro u hu
    obtain ⟨m, hm, rfl⟩ := List.getElem_of_mem hu
    obtain ⟨i, j, hi, hj, hij⟩ := Jac.exists_symIndex (n := n) (c := m) (by unfold tri; rw [← tl]; exact hm)
    have hm' : i * (i + 1) / 2 + j = m := by rw [← hij]; simp only [symIndex, if_pos hj]; omega
    have e : t[m] = lower t i j := by
      rw [lower, hm', List.getD, List.getElem?_eq_getElem hm, Option.getD_some]
    rw [e]
    rcases Nat.lt_or_eq_of_le hj with h | rfl
    · have := tq ⟨i, hi⟩ ⟨j, by omega⟩ h
      simp only at this
      rw [this]; exact hLo _ _ h
    · have := td ⟨j, hi⟩
      simp only at this
      rw [this]; exact (hLd _).2
  exact ⟨t, tl, te, td, tq, hsz⟩

theorem factor_size {n : ℕ} {L : Matrix (Fin n) (Fin n) ℝ} {B : ℝ} (hB0 : 0 ≤ B) (hLz : ∀ i j, i < j → L i j = 0)
    (hLd : ∀ i, 0 < L i i ∧ |Real.log (L i i)| ≤ B) (hLo : ∀ i j, j < i → |L i j| ≤ B) (i j : Fin n) :
    |(L * L.transpose) i j| ≤ n * (Real.exp B + B) ^ 2 := by
  have hE := Real.exp_pos B
  have hent : ∀ i j, |L i j| ≤ Real.exp B + B := by
    intro i j
    rcases lt_trichotomy i j with h | rfl | h
    · rw [hLz i j h, abs_zero]; linarith
    · rw [abs_of_pos (hLd i).1, ← Real.exp_log (hLd i).1]
      have := Real.exp_le_exp.mpr ((le_abs_self _).trans (hLd i).2)
      linarith
    · linarith [hLo i j h]
  rw [Matrix.mul_apply]
  calc |∑ k, L i k * L.transpose k j| ≤ ∑ _k : Fin n, (Real.exp B + B) ^ 2 := (Finset.abs_sum_le_sum_abs _ _).trans (Finset.sum_le_sum fun k _ => by
        rw [Matrix.transpose_apply, abs_mul, sq]
        exact mul_le_mul (hent i k) (hent j k) (abs_nonneg _) (by linarith))
    _ = n * (Real.exp B + B) ^ 2 := by simp

theorem rounding_nonneg {n : ℕ} {B c : ℝ} (hB : 0 ≤ B) : 0 ≤ inverseSize n B ^ 2 * matrixRounding n B c := by
  unfold matrixRounding
  have : (0:ℝ) < 2 ^ (-53 : ℤ) := two_zpow_pos _
  have : (0:ℝ) < 2 ^ (-499 : ℤ) := two_zpow_pos _
  positivity

/-- A leaf. -/
theorem leaf_flat (hA : A.Sane) (hB : A.Accurate) (hL : A.LogAccurate) (hC : A.CholAccurate) (hS : A.CholSucceeds) {p : Pattern} (hw : p.WF)
    (hm : Moderate A p) (hd : p.isDict = false) (ha : ∀ s b fd, p ≠ .array s b fd) {B : ℝ} (hB1 : 1 ≤ B) (hB2 : B ≤ 60) {V : Val Flt}
    (hV : Inside A B p V) (vv : Option Bool) :
    ∃ (a : NDArray Flt) (t y : List ℝ), V = .arr a ∧ a.shape = p.shape ∧ a.data.length = p.shape.prod ∧ p.flattenFreeA .exact V vv = .ok (vec (t.map .fin)) ∧
      p.flattenFreeA A V vv = .ok (vec (y.map .fin)) ∧ List.Forall₂ (fun u u' => |u' - u| ≤ flattenError B p u) t y ∧ t.length = p.flatLen true := by
  cases V with
  | dict d => cases p <;> first | (simp [isDict] at hd; done) | exact absurd hV (by simp [Inside])
  | arr a =>
  cases p with
  | numeric c s lb ub dv fd =>
    simp only [Inside] at hV
    obtain ⟨h1, h2, h3⟩ := hV
    obtain ⟨g0, t, y, g1, g2, g3⟩ := numeric_flat_map hA hB hL hw hm (B := B) a.data h3
    simp only [Pattern.WF] at hw
    have hne : a.shape ≠ [] := by rw [h1]; exact hw.1
    have hval : Numeric.validate s lb.toFlt ub.toFlt dv a vv = (true, "") := by
      rw [numeric_validate_true]
      exact ⟨rfl, by rw [atleast1d_of_ne hne, h1], fun _ x hx => g0 x hx⟩
    refine ⟨a, t, y, rfl, h1, h2, ?_, ?_, g3, by have := congrArg List.length g2; simpa [flatLen, h2] using this.symm⟩
    · simp only [flattenFreeA, Val.asArr, bind, Except.bind, Numeric.flattenFreeA, atleast1d_of_ne hne, hval, exact_unconstrain1]
      simp [pure, Except.pure, NDArray.map, NDArray.flatten, g2, vec]
    · simp only [flattenFreeA, Val.asArr, bind, Except.bind, Numeric.flattenFreeA, atleast1d_of_ne hne, hval]
      simp [pure, Except.pure, NDArray.map, NDArray.flatten, g1, vec]
  | simplex k s dv fd =>
    simp only [Inside] at hV
    obtain ⟨h1, r, h2, h3, h4, h5⟩ := hV
    simp only [Pattern.WF] at hw
    simp only [Moderate] at hm
    have hmk : mkSimplex k s dv fd = .ok (.simplex k s dv fd) := by
      simp only [mkSimplex]; rw [if_neg (by omega)]; simp
    obtain ⟨a1, a2⟩ := a
    simp only at h1 h2
    subst h1 h2
    have v1 := simplex_accepts (A := A) (dv := dv) hB hm (fun v h => ⟨(h4 v h).1, (h4 v h).2.1⟩) h3 h5 vv
    have v2 := simplex_accepts_exact (dv := dv) (fun v h => (h4 v h).2.1) h5 vv
    have f1 := simplex_flatten_round (A := A) hmk (d := r.map .fin) (vv := vv) (by simpa using v1)
    have f2 := simplex_flatten_round (A := .exact) hmk (d := r.map .fin) (vv := vv) (by simpa using v2)
    simp only [Int.toNat_natCast] at f1 f2
    have hrow : ∀ i, ∃ q : List ℝ × List ℝ, i < s.prod → unconstrainSimplexRowA .exact (chunk k (r.map .fin) i) = q.1.map .fin ∧
        unconstrainSimplexRowA A (chunk k (r.map .fin) i) = q.2.map .fin ∧
        List.Forall₂ (fun u u' => |u' - u| ≤ flattenError B (.simplex k s dv fd) u) q.1 q.2 ∧ q.1.length = k - 1 := by
      intro i
      by_cases hi : i < s.prod
      · have hlen := length_chunk h3 hi
        have hmem : ∀ v ∈ chunk k r i, 0 < v ∧ |Real.log v| ≤ B := fun v hv => (h4 v (mem_chunk hv)).2
        rw [chunk_map]
        generalize chunk k r i = l at *
        cases l with
        | nil => simp at hlen; omega
        | cons x0 xs =>
          obtain ⟨y, e1, e2⟩ := Arith.unconstrain_row hA hB hL (x0 := x0) (xs := xs) fun v hv => ⟨(hmem v hv).1, (hmem v hv).2.trans (by linarith)⟩
          refine ⟨(xs.map fun v => Real.log v - Real.log x0, xs.map y), fun _ => ⟨unconstrain_row_exact fun v hv => (hmem v hv).1, e1, ?_, by
            rw [List.length_map, ← hlen, List.length_cons, Nat.add_sub_cancel]⟩⟩
          refine Arith.forall₂_maps (R := fun u u' => |u' - u| ≤ flattenError B (.simplex k s dv fd) u) fun v hv => (e2 v hv).2.trans ?_
          simp only [flattenError]
          rw [Arith.uRound_val, mul_comm]
          refine mul_le_mul_of_nonneg_left ?_ Arith.uRound_pos.le
          linarith [(hmem v (by simp [hv])).2, (hmem x0 (by simp)).2]
      · exact ⟨([], []), fun h => absurd h hi⟩
    choose q hq using hrow
    refine ⟨_, (List.range s.prod).flatMap fun i => (q i).1, (List.range s.prod).flatMap fun i => (q i).2, rfl, rfl, by simpa [Pattern.shape] using h3, ?_, ?_,
      forall₂_flatMap fun i hi => (hq i (List.mem_range.mp hi)).2.2.1, by
        rw [length_flatMap_range (fun i => (q i).1) fun i hi => (hq i hi).2.2.2]; simp [flatLen]⟩
    · rw [f2, List.map_flatMap]
      congr 2
      exact List.flatMap_congr fun i hi => (hq i (List.mem_range.mp hi)).1
    · rw [f1, List.map_flatMap]
      congr 2
      exact List.flatMap_congr fun i hi => (hq i (List.mem_range.mp hi)).2.1
  | psd n lb dv fd =>
    simp only [Inside, InsideMatrix] at hV
    obtain ⟨hn, hρε, L, hLz, hLd, hLo, rfl, hMach⟩ := hV
    have hw0 := hw
    simp only [Pattern.WF] at hw
    simp only [Moderate] at hm
    obtain ⟨-, hfin, hmb⟩ := hm
    obtain ⟨c, hc⟩ := isFin_iff.mp hfin
    obtain ⟨hcm, hc'⟩ := hmb c hc
    rw [hc] at hρε hMach ⊢
    simp only [realOf] at hρε hMach ⊢
    have hB0 : 0 ≤ B := by linarith
    have hE1 : 1 ≤ Real.exp B := Real.one_le_exp hB0
    replace hρε : 16 * n * (inverseSize n B ^ 2 * matrixRounding n B c) ≤ 1 := by
      refine le_trans (mul_le_mul_of_nonneg_right ?_ (rounding_nonneg hB0)) hρε
      have : (0:ℝ) ≤ 16 * n := by positivity
      nlinarith
    have hmk : mkPSD n lb dv fd = .ok (.psd n lb dv fd) := by simp only [mkPSD, hw]; rfl
    obtain ⟨t, tl, te, td, tq, hsz⟩ := inside_factor hmk hc hLz hLd hLo vv
    rw [← C98_exact] at te
    obtain ⟨L', W, a1, a2, a3, hW, hρ, hF, hSm, hS'⟩ := matrix_setup (n := n) hB1 hB2 hn hsz
    have hLL : L' = L := by
      ext i j
      rcases lt_trichotomy i j with h | rfl | h
      · rw [a3 i j h, hLz i j h]
      · rw [a1, td, Real.exp_log (hLd i).1]
      · rw [a2 i j h, tq i j h]
    subst hLL
    obtain ⟨m, hval⟩ := flattenA_valid te hw0 fun _ => ⟨_, rfl, by simp⟩
    have hval' : PSD.validate n lb.toFlt dv ⟨[n, n], matData (L' * L'.transpose + c • 1)⟩ vv = .ok (true, m) := by
      simpa only [validateA, Val.asArr, bind, Except.bind] using hval
    have hprod := factor_size hB0 hLz hLd hLo
    have hdiff : ∀ i, (L' * L'.transpose + c • (1 : Matrix (Fin n) (Fin n) ℝ)) i i - c = (L' * L'.transpose) i i := by intro i; simp
    have hbig : (2:ℝ) ^ (890 : ℤ) = 2 ^ (800 : ℤ) * 2 ^ (90 : ℤ) := by rw [← Arith.zpow_split]; norm_num
    have h90 : (8:ℝ) ≤ 2 ^ (90 : ℤ) := by norm_num
    have hc8 : |c| ≤ 2 ^ (800 : ℤ) := hc'.trans (Arith.small_zpow (by norm_num))
    have h800 : (0:ℝ) < 2 ^ (800 : ℤ) := two_zpow_pos _
    have hsize : ∀ x : ℝ, x ≤ 2 * 2 ^ (800 : ℤ) → x ≤ 2 ^ (890 : ℤ) := by
      intro x hx
      rw [hbig]
      clear hbig
      generalize (2:ℝ) ^ (800 : ℤ) = w at *
      generalize (2:ℝ) ^ (90 : ℤ) = w' at *
      nlinarith
    have hMc : ∀ i, |(L' * L'.transpose + c • (1 : Matrix (Fin n) (Fin n) ℝ)) i i - c| ≤ 2 ^ (890 : ℤ) := fun i => by
      rw [hdiff]
      refine hsize _ ?_
      have h1 := hprod i i
      have h2 := hS'
      clear hsize hbig hS' hc8
      generalize (2:ℝ) ^ (800 : ℤ) = w at *
      linarith
    have hMs : ∀ i j, |(L' * L'.transpose + c • (1 : Matrix (Fin n) (Fin n) ℝ)) i j| ≤ 2 ^ (890 : ℤ) := by
      intro i j
      refine hsize _ ?_
      rw [Matrix.add_apply]
      have : |(c • (1 : Matrix (Fin n) (Fin n) ℝ)) i j| ≤ |c| := by
        rw [Matrix.smul_apply, Matrix.one_apply, smul_eq_mul]
        split
        · rw [mul_one]
        · rw [mul_zero, abs_zero]; exact abs_nonneg c
      have := abs_add_le ((L' * L'.transpose) i j) ((c • (1 : Matrix (Fin n) (Fin n) ℝ)) i j)
      have := hprod i j
      clear hsize hbig
      generalize (2:ℝ) ^ (800 : ℤ) = w at *
      linarith
    have hS1 : 0 < n → (1:ℝ) ≤ n * (Real.exp B + B) ^ 2 := fun h => by
      have : (1:ℝ) ≤ n := by exact_mod_cast h
      nlinarith
    have hMd : 0 < n → ∀ i j, |(L' * L'.transpose + c • (1 : Matrix (Fin n) (Fin n) ℝ)) i j - (L' * L'.transpose + c • 1) i j| ≤
        Arith.uRound * ((3 * n + 18) * (n * (Real.exp B + B) ^ 2) + |c|) + n * 2 ^ (-500 : ℤ) := fun h i j => by
      rw [sub_self, abs_zero]
      have := Arith.uRound_pos
      have := two_zpow_pos (-500 : ℤ)
      positivity
    have hdg : 0 < n → ∀ i, |(L' * L'.transpose + c • (1 : Matrix (Fin n) (Fin n) ℝ)) i i - c| ≤ 17 / 16 * (n * (Real.exp B + B) ^ 2) := fun h i => by
      rw [hdiff]
      linarith [hprod i i, hS1 h]
    have hchol : ∃ C, A.chol n (ofFn2 n n fun i j => A.sub (entry n (matData (L' * L'.transpose + c • (1 : Matrix (Fin n) (Fin n) ℝ))) i j)
        (if i = j then lb.toFlt else 0)) = .ok C := by
      rcases Nat.eq_zero_or_pos n with rfl | hn0
      · exact hS.succeeds 0 hn _ (fun _ _ => 0) 1 (fun i hi => absurd hi (by omega)) one_pos (by simp) (fun i hi => absurd hi (by omega))
      exact chol_returns hA hB hS hn hn0 hc hcm hMach hMs hMc hW hF (hS1 hn0) (hMd hn0) (hdg hn0) (ε := matrixRounding n B c) (le_of_eq rfl) hρε
    obtain ⟨C, hC'⟩ := hchol
    have hflat : ∃ w, (Pattern.psd n lb dv fd).flattenFreeA A (.arr ⟨[n, n], matData (L' * L'.transpose + c • 1)⟩) vv = .ok w := by
      simp only [flattenFreeA, Val.asArr, bind, Except.bind, PSD.flattenFreeA, hval', Bool.not_true, Bool.false_eq_true, if_false, pure, Except.pure,
        packPosdefA, hC', logDiagA, vectorizeLd_ofFn2]
      exact ⟨_, rfl⟩
    obtain ⟨w, hflat⟩ := hflat
    have hfin' : ∃ y : List ℝ, w = vec (y.map .fin) ∧ List.Forall₂ (fun u u' => |u' - u| ≤ flattenError B (.psd n lb dv fd) u) t y := by
      rcases Nat.eq_zero_or_pos n with rfl | hn0
      · obtain ⟨K, -, -, -, h4, -⟩ := flatten_entries hA hB hC hn hc hcm (M := L' * L'.transpose + c • 1) (fun i => i.elim0) (fun i => i.elim0) hflat
        have : t = [] := List.length_eq_zero_iff.mp (by simpa using tl)
        exact ⟨[], by rw [h4]; rfl, by rw [this]; exact .nil⟩
      obtain ⟨y, hy, hyl, hyd, hyo⟩ := flattened_matrix hA hB hL hC hmk hn hn0 hc hcm tl hS' (hS1 hn0) a1 a2 a3 hW hρ (ε := matrixRounding n B c)
        (le_of_eq rfl) hρε (hMd hn0) (hdg hn0) hMach hMs hMc hflat
      refine ⟨y, hy, ?_⟩
      simp only [flattenError, hc, realOf]
      exact matrix_entries hB1 hsz tl a1 a2 a3 hyl hyd hyo
    obtain ⟨y, rfl, hy⟩ := hfin'
    exact ⟨_, t, y, rfl, rfl, by rw [matData_len]; simp [Pattern.shape], te, hflat, hy, by simpa [flatLen] using tl⟩
  | array s b fd => exact absurd rfl (ha s b fd)
  | dict es l fd => simp [isDict] at hd

/-! ### Trees -/

theorem tree_flat (hA : A.Sane) (hB : A.Accurate) (hL : A.LogAccurate) (hC : A.CholAccurate) (hS : A.CholSucceeds) {B : ℝ} (hB1 : 1 ≤ B) (hB2 : B ≤ 60)
    {vv : Option Bool} (p : Pattern) : p.WF → Moderate A p → p.NoEmpty → ∀ V, Inside A B p V →
    ∃ t y : List ℝ, p.flattenFreeA .exact V vv = .ok (vec (t.map .fin)) ∧ p.flattenFreeA A V vv = .ok (vec (y.map .fin)) ∧
      Recovered (flattenError B) p t y ∧ (∃ m, p.validateA A V vv = .ok (true, m)) ∧ (∃ m, p.validateA .exact V vv = .ok (true, m)) ∧
      t.length = p.flatLen true := by
  have leaf : ∀ p : Pattern, p.isDict = false → (∀ s b fd, p ≠ .array s b fd) → p.WF → Moderate A p → p.NoEmpty → ∀ V, Inside A B p V →
    ∃ t y : List ℝ, p.flattenFreeA .exact V vv = .ok (vec (t.map .fin)) ∧ p.flattenFreeA A V vv = .ok (vec (y.map .fin)) ∧
      Recovered (flattenError B) p t y ∧ (∃ m, p.validateA A V vv = .ok (true, m)) ∧ (∃ m, p.validateA .exact V vv = .ok (true, m)) ∧
      t.length = p.flatLen true := by
    intro p hd ha hw hm _ V hV
    obtain ⟨a, t, y, rfl, h1, h2, h3, h4, h5, h6⟩ := leaf_flat hA hB hL hC hS hw hm hd ha hB1 hB2 hV vv
    have hne : a.shape ≠ [] := by
      rw [h1]
      cases p with
      | numeric c s lb ub dv fd => simp only [Pattern.WF] at hw; exact hw.1
      | simplex k s dv fd => simp [Pattern.shape]
      | psd n lb dv fd => simp [Pattern.shape]
      | array s b fd => exact absurd rfl (ha s b fd)
      | dict es l fd => simp [isDict] at hd
    exact ⟨t, y, h3, h4, (recovered_leaf hd).mpr h5, flattenA_valid h4 hw fun _ => ⟨a, rfl, hne⟩, flattenA_valid h3 hw fun _ => ⟨a, rfl, hne⟩, h6⟩
  induction p using Pattern.ind (Q := fun es => WFEs es → ModerateEs A es → NoEmptyEs es → ∀ vs, InsideEs A B es vs →
      ∃ t y : List ℝ, t.length = flatLenEs es true ∧
        (∃ parts, flattenFreeAEs .exact es vs vv = .ok parts ∧ (es ≠ .nil → parts ≠ []) ∧ parts.flatMap (·.data) = t.map .fin) ∧
        (∃ parts, flattenFreeAEs A es vs vv = .ok parts ∧ (es ≠ .nil → parts ≠ []) ∧ parts.flatMap (·.data) = y.map .fin) ∧
        RecoveredEs (flattenError B) es t y ∧ (∃ m, validateAEs A es vs vv = .ok (true, m)) ∧ ∃ m, validateAEs .exact es vs vv = .ok (true, m)) with
  | hnum c s lb ub dv fd => exact leaf _ rfl (by simp)
  | hsim k s dv fd => exact leaf _ rfl (by simp)
  | hpsd n lb dv fd => exact leaf _ rfl (by simp)
  | harr s b fd ih =>
    intro hw hm hne V hV
    cases V with
    | dict d => simp [Inside] at hV
    | arr a =>
    simp only [Inside] at hV
    simp only [Pattern.WF] at hw
    simp only [Moderate] at hm
    simp only [NoEmpty] at hne
    obtain ⟨hsh, hlen, hb⟩ := hV
    have hch : ∀ i, ∃ q : List ℝ × List ℝ, i < s.prod →
        b.flattenFreeA .exact (.arr ⟨b.shape, chunk b.shape.prod a.data i⟩) vv = .ok (vec (q.1.map .fin)) ∧
        b.flattenFreeA A (.arr ⟨b.shape, chunk b.shape.prod a.data i⟩) vv = .ok (vec (q.2.map .fin)) ∧
        List.Forall₂ (fun u u' => |u' - u| ≤ flattenError B b u) q.1 q.2 ∧
        (∃ m, b.validateA A (.arr ⟨b.shape, chunk b.shape.prod a.data i⟩) vv = .ok (true, m)) ∧
        (∃ m, b.validateA .exact (.arr ⟨b.shape, chunk b.shape.prod a.data i⟩) vv = .ok (true, m)) ∧ q.1.length = b.flatLen true := by
      intro i
      by_cases hi : i < s.prod
      · obtain ⟨t, y, g1, g2, g3, g4, g5, g6⟩ := ih hw.2.2 hm hne.2 _ (hb i hi)
        exact ⟨(t, y), fun _ => ⟨g1, g2, (recovered_leaf hw.2.1).mp g3, g4, g5, g6⟩⟩
      · exact ⟨([], []), fun h => absurd h hi⟩
    choose q hq using hch
    have hv1 := validA_array (A := A) (fd := fd) (vv := vv) hsh fun i hi => (hq i hi).2.2.2.1
    have hv2 := validA_array (A := .exact) (fd := fd) (vv := vv) hsh fun i hi => (hq i hi).2.2.2.2.1
    refine ⟨(List.range s.prod).flatMap fun i => (q i).1, (List.range s.prod).flatMap fun i => (q i).2, ?_, ?_, (recovered_leaf rfl).mpr ?_, hv1, hv2, ?_⟩
    · simp only [flattenFreeA, requireValid_true hv2, bind, Except.bind, Val.asArr]
      rw [flattenItems_eq hsh (g := fun i => (q i).1.map .fin) (fun i hi => (hq i hi).1) hne.1, List.map_flatMap]
    · simp only [flattenFreeA, requireValid_true hv1, bind, Except.bind, Val.asArr]
      rw [flattenItems_eq hsh (g := fun i => (q i).2.map .fin) (fun i hi => (hq i hi).2.1) hne.1, List.map_flatMap]
    · exact forall₂_flatMap fun i hi => by simpa only [flattenError] using (hq i (List.mem_range.mp hi)).2.2.1
    · rw [length_flatMap_range (fun i => (q i).1) fun i hi => (hq i hi).2.2.2.2.2]
      simp [flatLen]
  | hdict es ld fd ih =>
    intro hw hm hne V hV
    cases V with
    | arr a => simp [Inside] at hV
    | dict vs =>
    simp only [Inside] at hV
    simp only [Pattern.WF] at hw
    simp only [Moderate] at hm
    simp only [NoEmpty] at hne
    obtain ⟨t, y, h1, ⟨parts, h2, h3, h4⟩, ⟨parts', h2', h3', h4'⟩, h5, h6, h7⟩ := ih hw.2 hm hne.2 vs hV
    have hv1 : ∃ m, (Pattern.dict es ld fd).validateA A (.dict vs) vv = .ok (true, m) := by
      simpa [validateA, Val.asDict, bind, Except.bind] using h6
    have hv2 : ∃ m, (Pattern.dict es ld fd).validateA .exact (.dict vs) vv = .ok (true, m) := by
      simpa [validateA, Val.asDict, bind, Except.bind] using h7
    refine ⟨t, y, ?_, ?_, by simpa only [Recovered] using h5, hv1, hv2, by simpa [flatLen] using h1⟩
    · simp only [flattenFreeA, requireValid_true hv2, bind, Except.bind, Val.asDict, h2, hstack]
      have := h3 hne.1
      split
      · contradiction
      · rw [h4]
    · simp only [flattenFreeA, requireValid_true hv1, bind, Except.bind, Val.asDict, h2', hstack]
      have := h3' hne.1
      split
      · contradiction
      · rw [h4']
  | hnil hw hm hne vs hV =>
    exact ⟨[], [], by simp [flatLenEs], ⟨[], by simp [flattenFreeAEs], by simp, by simp⟩, ⟨[], by simp [flattenFreeAEs], by simp, by simp⟩,
      by simp [RecoveredEs], ⟨"", by simp [validateAEs]⟩, "", by simp [validateAEs]⟩
  | hcons k p rest ihp ihr hw hm hne vs hV =>
    simp only [WFEs] at hw
    simp only [ModerateEs] at hm
    simp only [NoEmptyEs] at hne
    simp only [InsideEs] at hV
    obtain ⟨⟨v, hl, hv⟩, hV⟩ := hV
    obtain ⟨t1, y1, a1, a2, a3, ⟨m1, a4⟩, ⟨m1', a4'⟩, a5⟩ := ihp hw.1 hm.1 hne.1 v hv
    obtain ⟨t2, y2, b1, ⟨parts, b2, b3, b4⟩, ⟨parts', b2', b3', b4'⟩, b5, ⟨m2, b6⟩, m2', b6'⟩ := ihr hw.2.2 hm.2 hne.2 vs hV
    refine ⟨t1 ++ t2, y1 ++ y2, by simp [a5, b1, flatLenEs], ⟨vec (t1.map .fin) :: parts, ?_, by simp, by simp [b4]⟩,
      ⟨vec (y1.map .fin) :: parts', ?_, by simp, by simp [b4']⟩, ⟨t1, t2, y1, y2, rfl, rfl, ?_, a3, b5⟩, ⟨m2, ?_⟩, m2', ?_⟩
    · simp only [flattenFreeAEs, hl, a1, bind, Except.bind, b2]
      rfl
    · simp only [flattenFreeAEs, hl, a2, bind, Except.bind, b2']
      rfl
    · simp [Pattern.flatLength, freeWithDefault, bind, Except.bind, pure, Except.pure, a5]
    · simp only [validateAEs, hl, a4, bind, Except.bind]
      simpa using b6
    · simp only [validateAEs, hl, a4', bind, Except.bind]
      simpa using b6'

/-- **C115.**  Flattening a whole value away from the bounds succeeds in floating point, and every free value is within `flattenError B` of the free value that
exact arithmetic gives. -/
theorem C115_flatten (hA : A.Sane) (hB : A.Accurate) (hL : A.LogAccurate) (hC : A.CholAccurate) (hS : A.CholSucceeds) {p : Pattern}
    (hp : Built p) (hne : p.NoEmpty) (hm : Moderate A p) {B : ℝ} (hB1 : 1 ≤ B) (hB2 : B ≤ 60) {V : Val Flt} (hV : Inside A B p V) (vv : Option Bool) :
    ∃ t y : List ℝ, p.flatten V (some true) vv = .ok (vec (t.map .fin)) ∧ p.flattenFreeA A V vv = .ok (vec (y.map .fin)) ∧
      Recovered (flattenError B) p t y := by
  obtain ⟨t, y, h1, h2, h3, -⟩ := tree_flat hA hB hL hC hS hB1 hB2 (vv := vv) p hp.wf hm hne V hV
  rw [C98_exact] at h1
  exact ⟨t, y, h1, h2, h3⟩

/-! ### Round trips -/

/-- The free values of a matrix are of moderate size. -/
theorem psd_flat_size {n : ℕ} {lb : PyNum} {dv : Bool} {fd : Option Bool} {B u : ℝ} (hB1 : 1 ≤ B) (hB2 : B ≤ 24)
    (h : 16 * n * (1 + Real.exp B + B) * (inverseSize n B ^ 2 * matrixRounding n B (realOf lb.toFlt)) ≤ 1) (hn : 1 ≤ n) :
    flattenError B (.psd n lb dv fd) u ≤ 1 := by
  simp only [flattenError]
  have hx := rounding_nonneg (n := n) (c := realOf lb.toFlt) (by linarith : 0 ≤ B)
  generalize inverseSize n B ^ 2 * matrixRounding n B (realOf lb.toFlt) = x at *
  have hn' : (1:ℝ) ≤ n := by exact_mod_cast hn
  have hE := Real.exp_pos B
  have h1 : Real.exp B ≤ 2 ^ 35 := by
    have h1 : Real.exp B ≤ Real.exp (Real.log 2 * (35:ℕ)) := by
      apply Real.exp_le_exp.mpr
      have := Real.log_two_gt_d9
      push_cast; linarith
    rwa [Real.exp_mul, Real.exp_log (by norm_num), Real.rpow_natCast] at h1
  have h2 : (2:ℝ) ^ (-53 : ℤ) * (5 * B + 3 * Real.exp B) ≤ 2 ^ (-53 : ℤ) * (5 * 24 + 3 * 2 ^ 35) := by gcongr
  have h3 : (2:ℝ) ^ (-53 : ℤ) * (5 * 24 + 3 * 2 ^ 35) ≤ 1 / 4 := by norm_num
  have h4 : (3 + 2 * n * (Real.exp B + B)) * x ≤ 3 / 16 := by
    have e : 16 * ((3 + 2 * n * (Real.exp B + B)) * x) ≤ 3 * (16 * n * (1 + Real.exp B + B) * x) := by
      have : 16 * (3 + 2 * n * (Real.exp B + B)) ≤ 3 * (16 * n * (1 + Real.exp B + B)) := by nlinarith [mul_pos (by linarith : (0:ℝ) < n) (by linarith : 0 < Real.exp B + B)]
      nlinarith
    linarith
  exact (add_le_add h4 (h2.trans h3)).trans (by norm_num)

theorem inside_comfortable (hA : A.Sane) (hB : A.Accurate) (hL : A.LogAccurate) (hC : A.CholAccurate) (hS : A.CholSucceeds) {B : ℝ} (hB1 : 1 ≤ B)
    (hB2 : B ≤ 24) {vv : Option Bool} (p : Pattern) : p.WF → Moderate A p → ∀ V, Inside A B p V → Comfortable A (B + 1) vv p V := by
  induction p using Pattern.ind (Q := fun es => WFEs es → ModerateEs A es → ∀ vs, InsideEs A B es vs → ComfortableEs A (B + 1) vv es vs) with
  | hnum c s lb ub dv fd =>
    intro hw hm V hV
    cases V with
    | dict d => simp [Inside] at hV
    | arr a => simpa only [Inside, Comfortable] using hV
  | hsim k s dv fd =>
    intro hw hm V hV
    cases V with
    | dict d => simp [Inside] at hV
    | arr a =>
      simp only [Inside] at hV
      obtain ⟨h1, r, h2, h3, h4, h5⟩ := hV
      simp only [Comfortable]
      exact ⟨h1, r, h2, h3, fun v hv => ⟨(h4 v hv).1, (h4 v hv).2.1, (h4 v hv).2.2.trans (by linarith)⟩, h5⟩
  | hpsd n lb dv fd =>
    intro hw hm V hV
    cases V with
    | dict d => simp [Inside] at hV
    | arr a =>
      obtain ⟨a', t, y, e1, -, -, ht, hy, hty, -⟩ := leaf_flat hA hB hL hC hS hw hm rfl (by simp) hB1 (by linarith) hV vv
      injection e1 with e1
      subst e1
      simp only [Inside, InsideMatrix] at hV
      obtain ⟨hn, hρε, L, hLz, hLd, hLo, rfl, hMach⟩ := hV
      have hm' := hm
      have hw' := hw
      simp only [Pattern.WF] at hw'
      simp only [Moderate] at hm'
      obtain ⟨-, hfin, hmb⟩ := hm'
      obtain ⟨c, hc⟩ := isFin_iff.mp hfin
      obtain ⟨-, hc'⟩ := hmb c hc
      have hmk : mkPSD n lb dv fd = .ok (.psd n lb dv fd) := by simp only [mkPSD, hw']; rfl
      have hB0 : 0 ≤ B := by linarith
      have hprod := factor_size hB0 hLz hLd hLo
      have hrc : realOf lb.toFlt = c := by rw [hc]; rfl
      simp only [hrc] at ht hy hMach
      obtain ⟨t', tl, te, -, -, hsz⟩ := inside_factor hmk hc hLz hLd hLo vv
      rw [← C98_exact, ht] at te
      obtain rfl : t = t' := by
        have := Except.ok.inj te
        rw [vec_inj] at this
        exact List.map_injective_iff.mpr (fun a b h => by simpa using h) this
      have hE : n * (Real.exp B + B) ^ 2 ≤ 2 ^ 80 := by
        have hn' : (n:ℝ) ≤ 1000 := by exact_mod_cast hn
        have h1 : Real.exp B ≤ 3 * 10 ^ 10 := by
          calc Real.exp B ≤ Real.exp ((24:ℕ) * 1) := Real.exp_le_exp.mpr (by push_cast; linarith)
            _ = Real.exp 1 ^ 24 := Real.exp_nat_mul _ _
            _ ≤ 2.7182818286 ^ 24 := pow_le_pow_left₀ (Real.exp_pos _).le Real.exp_one_lt_d9.le _
            _ ≤ 3 * 10 ^ 10 := by norm_num
        calc n * (Real.exp B + B) ^ 2 ≤ 1000 * (3 * 10 ^ 10 + 24) ^ 2 := by gcongr
          _ ≤ 2 ^ 80 := by norm_num
      have h80 : (2:ℝ) ^ 80 ≤ 2 ^ (899 : ℤ) := by
        have : (2:ℝ) ^ (80:ℤ) ≤ 2 ^ (899 : ℤ) := Arith.small_zpow (by norm_num)
        exact_mod_cast this
      have hc9 : |c| ≤ 2 ^ (899 : ℤ) := hc'.trans (Arith.small_zpow (by norm_num))
      have h900 : (2:ℝ) ^ (900 : ℤ) = 2 * 2 ^ (899 : ℤ) := by rw [← zpow_one_add₀ (by norm_num)]; norm_num
      simp only [Comfortable, ComfortableMatrix, hrc]
      refine ⟨hn, ⟨_, rfl, ?_, fun i j => ⟨hMach i j, ?_⟩, ?_⟩, y, ?_, ?_⟩
      · rw [Matrix.IsSymm, Matrix.transpose_add, Matrix.transpose_mul, Matrix.transpose_transpose, Matrix.transpose_smul, Matrix.transpose_one]
      · rw [Matrix.add_apply]
        have h1 : |(c • (1 : Matrix (Fin n) (Fin n) ℝ)) i j| ≤ |c| := by
          rw [Matrix.smul_apply, Matrix.one_apply, smul_eq_mul]
          split
          · rw [mul_one]
          · rw [mul_zero, abs_zero]; exact abs_nonneg c
        have h2 := abs_add_le ((L * L.transpose) i j) ((c • (1 : Matrix (Fin n) (Fin n) ℝ)) i j)
        have h3 := (hprod i j).trans (hE.trans h80)
        rw [h900]
        clear h80 hE h900
        generalize (2:ℝ) ^ (899 : ℤ) = w at *
        linarith
      · intro c' hcc i
        obtain rfl : c' = c := by rw [hc] at hcc; injection hcc with hcc; exact hcc.symm
        have : (L * L.transpose + c' • (1 : Matrix (Fin n) (Fin n) ℝ)) i i - c' = (L * L.transpose) i i := by simp
        rw [this]
        exact (hprod i i).trans hE
      · intro u hu
        obtain ⟨m, hm2, rfl⟩ := List.getElem_of_mem hu
        obtain ⟨hl2, h2⟩ := List.forall₂_iff_get.mp hty
        have hm1 : m < t.length := by rw [hl2]; exact hm2
        have h3 := h2 m hm1 hm2
        simp only [List.get_eq_getElem] at h3
        have hn1 : 1 ≤ n := by
          rcases Nat.eq_zero_or_pos n with rfl | h
          · simp at tl; rw [tl] at hm1; simp at hm1
          · exact h
        have h4 := h3.trans (psd_flat_size hB1 hB2 hρε hn1)
        have h5 := hsz _ (List.getElem_mem hm1)
        have h6 := abs_add_le (y[m] - t[m]) t[m]
        rw [sub_add_cancel] at h6
        linarith
      · rw [hy]; simp [vec]
  | harr s b fd ih =>
    intro hw hm V hV
    cases V with
    | dict d => simp [Inside] at hV
    | arr a =>
      simp only [Pattern.WF] at hw
      simp only [Moderate] at hm
      simp only [Inside] at hV
      simp only [Comfortable]
      exact ⟨hV.1, hV.2.1, fun i hi => ih hw.2.2 hm _ (hV.2.2 i hi)⟩
  | hdict es ld fd ih =>
    intro hw hm V hV
    cases V with
    | arr a => simp [Inside] at hV
    | dict vs =>
      simp only [Pattern.WF] at hw
      simp only [Moderate] at hm
      simp only [Inside] at hV
      simp only [Comfortable]
      exact ih hw.2 hm vs hV
  | hnil hw hm vs hV => simp [ComfortableEs]
  | hcons k p rest ihp ihr hw hm vs hV =>
    simp only [WFEs] at hw
    simp only [ModerateEs] at hm
    simp only [InsideEs] at hV
    obtain ⟨⟨v, hl, hv⟩, hV⟩ := hV
    exact ⟨⟨v, hl, ihp hw.1 hm.1 v hv⟩, ihr hw.2.2 hm.2 vs hV⟩

/-- **C115, round trips.**  Folding what flattening gave returns the value: the same keys (in the order of the pattern), the same shapes, and every entry within
`tripError (B + 1)` of what it was.  Nothing is assumed of the flattened vector. -/
theorem C115_trip (hA : A.Sane) (hB : A.Accurate) (hL : A.LogAccurate) (hD : A.DotAccurate) (hC : A.CholAccurate) (hS : A.CholSucceeds) {p : Pattern}
    (hp : Built p) (hne : p.NoEmpty) (hm : Moderate A p) {B : ℝ} (hB1 : 1 ≤ B) (hB2 : B ≤ 24) {V : Val Flt} (hV : Inside A B p V) (vv : Option Bool) :
    ∃ (y : List ℝ) (W : Val Flt), p.flattenFreeA A V vv = .ok (vec (y.map .fin)) ∧ p.foldFreeA A (vec (y.map .fin)) = .ok W ∧
      Returned (tripError (B + 1)) p V W :=
  C109_trip hA hB hL hD hC hp hne hm (by linarith) (by linarith) (inside_comfortable hA hB hL hC hS hB1 hB2 p hp.wf hm V hV)

/-- Two positive numbers, a matrix and three probabilities, given in another order than the pattern's. -/
theorem three_inside : Inside binary64 2 (Pattern.dict (.cons "p" (.simplex 3 [1] true none) (.cons "m" (.psd 2 (.int 0) true none)
      (.cons "x" (.numeric .vector [2] (.int 0) (.flt .pinf) true none) .nil))) true none)
    (.dict [("x", .arr ⟨[2], [3, 1 / 2].map .fin⟩), ("p", .arr ⟨[1, 3], [1 / 2, 1 / 4, 1 / 4].map .fin⟩),
          ("m", .arr ⟨[2, 2], matData !![4, 2; 2, 5]⟩)]) := by
  obtain ⟨hmach, -, -, -⟩ := four64
  have h8 : (8 : ℝ) ≤ 2 ^ (300 : ℤ) := by
    have : (2 : ℝ) ^ (3 : ℤ) ≤ 2 ^ (300 : ℤ) := Arith.small_zpow (by norm_num)
    exact le_trans (by norm_num) this
  have h0 : (2 : ℝ) ^ (-300 : ℤ) ≤ 1 / 2 := by
    have : (2 : ℝ) ^ (-300 : ℤ) ≤ 2 ^ (-1 : ℤ) := Arith.small_zpow (by norm_num)
    exact this.trans (by norm_num)
  have he : Real.exp 2 ≤ 8 := by
    have : Real.exp 2 = Real.exp 1 * Real.exp 1 := by rw [← Real.exp_add]; norm_num
    have h1 := Real.exp_one_lt_d9
    have h2 := Real.exp_pos 1
    rw [this]; nlinarith
  have hp := Real.exp_pos 2
  have hM : !![(2:ℝ), 0; 1, 2] * (!![(2:ℝ), 0; 1, 2]).transpose + (0:ℝ) • (1 : Matrix (Fin 2) (Fin 2) ℝ) = !![(4:ℝ), 2; 2, 5] := by
    ext i j; fin_cases i <;> fin_cases j <;> (simp [Matrix.vecMul, dotProduct, Fin.sum_univ_two]; try norm_num)
  have hr : realOf (PyNum.int 0).toFlt = 0 := by simp [PyNum.toFlt, realOf]
  refine ⟨⟨_, rfl, rfl, _, rfl, rfl, quarters.1, ?_⟩, ⟨_, rfl, by norm_num, ?_, !![(2:ℝ), 0; 1, 2], ?_, ?_, ?_, ?_, ?_⟩, ⟨_, rfl, rfl, rfl, ?_⟩, trivial⟩
  · intro i hi
    have : i = 0 := by simpa using hi
    subst this
    have := quarters.2
    simpa [block] using this
  · simp only [hr, inverseSize, matrixRounding]
    have h1 : ((1 + 2 * Real.exp 2) ^ 2) ^ 2 ≤ ((1 + 2 * 8) ^ 2) ^ 2 := by gcongr
    have h3 : (2:ℝ) ^ (-499 : ℤ) ≤ 2 ^ (-53 : ℤ) := Arith.small_zpow (by norm_num)
    have h4 : (2:ℝ) ^ (-53 : ℤ) * ((8 * (2:ℕ) + 20) * ((2:ℕ) * (Real.exp 2 + 2) ^ 2) + |(0:ℝ)|) + (2:ℕ) * 2 ^ (-499 : ℤ) ≤
        2 ^ (-53 : ℤ) * ((8 * (2:ℕ) + 20) * ((2:ℕ) * (8 + 2) ^ 2) + |(0:ℝ)|) + (2:ℕ) * 2 ^ (-53 : ℤ) := by gcongr
    have h5 := mul_le_mul h1 h4 (by positivity) (by positivity)
    have h6 : 16 * ((2:ℕ):ℝ) * (1 + Real.exp 2 + 2) ≤ 16 * (2:ℕ) * (1 + 8 + 2) := by gcongr
    refine (mul_le_mul h6 h5 (by positivity) (by positivity)).trans ?_
    norm_num
  · intro i j h; fin_cases i <;> fin_cases j <;> simp at h ⊢
  · intro i
    have h1 := Real.log_two_lt_d9
    have h2 := Real.log_two_gt_d9
    have : |Real.log 2| ≤ 2 := by rw [abs_le]; constructor <;> linarith
    fin_cases i <;> simpa using this
  · intro i j h; fin_cases i <;> fin_cases j <;> (simp at h ⊢; try norm_num)
  · rw [hr, hM]
  · rw [hr, hM]; exact hmach
  · intro x hx
    have hx' : x = .fin 3 ∨ x = .fin (1 / 2) := by simpa using hx
    rcases hx' with rfl | rfl
    · refine ⟨3, rfl, by simpa using binary64_int_machine (m := 3) (by norm_num), le_trans (by norm_num) h8, ?_, by simp [PyNum.toFlt]⟩
      intro c hc
      have : c = 0 := by simpa [PyNum.toFlt, eq_comm] using hc
      subst this
      linarith
    · refine ⟨1 / 2, rfl, (quarters.1 _ (by simp)).1, le_trans (by norm_num) h8, ?_, by simp [PyNum.toFlt]⟩
      intro c hc
      have : c = 0 := by simpa [PyNum.toFlt, eq_comm] using hc
      subst this
      linarith

/-- They are flattened in binary64, and come back. -/
example : (∃ t y : List ℝ, (Pattern.dict (.cons "p" (.simplex 3 [1] true none) (.cons "m" (.psd 2 (.int 0) true none)
      (.cons "x" (.numeric .vector [2] (.int 0) (.flt .pinf) true none) .nil))) true none).flatten
        (.dict [("x", .arr ⟨[2], [3, 1 / 2].map .fin⟩), ("p", .arr ⟨[1, 3], [1 / 2, 1 / 4, 1 / 4].map .fin⟩),
          ("m", .arr ⟨[2, 2], matData !![4, 2; 2, 5]⟩)]) (some true) none = .ok (vec (t.map .fin)) ∧
      (Pattern.dict (.cons "p" (.simplex 3 [1] true none) (.cons "m" (.psd 2 (.int 0) true none)
      (.cons "x" (.numeric .vector [2] (.int 0) (.flt .pinf) true none) .nil))) true none).flattenFreeA binary64
        (.dict [("x", .arr ⟨[2], [3, 1 / 2].map .fin⟩), ("p", .arr ⟨[1, 3], [1 / 2, 1 / 4, 1 / 4].map .fin⟩),
          ("m", .arr ⟨[2, 2], matData !![4, 2; 2, 5]⟩)]) none = .ok (vec (y.map .fin)) ∧
      Recovered (flattenError 2) (Pattern.dict (.cons "p" (.simplex 3 [1] true none) (.cons "m" (.psd 2 (.int 0) true none)
      (.cons "x" (.numeric .vector [2] (.int 0) (.flt .pinf) true none) .nil))) true none) t y) ∧
    ∃ (y : List ℝ) (W : Val Flt), (Pattern.dict (.cons "p" (.simplex 3 [1] true none) (.cons "m" (.psd 2 (.int 0) true none)
      (.cons "x" (.numeric .vector [2] (.int 0) (.flt .pinf) true none) .nil))) true none).flattenFreeA binary64
        (.dict [("x", .arr ⟨[2], [3, 1 / 2].map .fin⟩), ("p", .arr ⟨[1, 3], [1 / 2, 1 / 4, 1 / 4].map .fin⟩),
          ("m", .arr ⟨[2, 2], matData !![4, 2; 2, 5]⟩)]) none = .ok (vec (y.map .fin)) ∧
      (Pattern.dict (.cons "p" (.simplex 3 [1] true none) (.cons "m" (.psd 2 (.int 0) true none)
      (.cons "x" (.numeric .vector [2] (.int 0) (.flt .pinf) true none) .nil))) true none).foldFreeA binary64 (vec (y.map .fin)) = .ok W ∧
      Returned (tripError 3) (Pattern.dict (.cons "p" (.simplex 3 [1] true none) (.cons "m" (.psd 2 (.int 0) true none)
      (.cons "x" (.numeric .vector [2] (.int 0) (.flt .pinf) true none) .nil))) true none)
        (.dict [("x", .arr ⟨[2], [3, 1 / 2].map .fin⟩), ("p", .arr ⟨[1, 3], [1 / 2, 1 / 4, 1 / 4].map .fin⟩),
          ("m", .arr ⟨[2, 2], matData !![4, 2; 2, 5]⟩)]) W := by
  have hz : ModerateBound binary64 (.fin 0) := by
    intro c hc; injection hc with hc; subst hc
    exact ⟨binary64_sane.zero_machine, by simp⟩
  have h1 : (Pattern.dict (.cons "p" (.simplex 3 [1] true none) (.cons "m" (.psd 2 (.int 0) true none)
      (.cons "x" (.numeric .vector [2] (.int 0) (.flt .pinf) true none) .nil))) true none).WF := by
    simp [Pattern.WF, WFEs, Entries.keys, Entries.toList, isDict, lock, PyNum.toFlt, NotNaN, lt]
  have h2 : (Pattern.dict (.cons "p" (.simplex 3 [1] true none) (.cons "m" (.psd 2 (.int 0) true none)
      (.cons "x" (.numeric .vector [2] (.int 0) (.flt .pinf) true none) .nil))) true none).NoEmpty := by simp [NoEmpty, NoEmptyEs]
  have h3 : Moderate binary64 (Pattern.dict (.cons "p" (.simplex 3 [1] true none) (.cons "m" (.psd 2 (.int 0) true none)
      (.cons "x" (.numeric .vector [2] (.int 0) (.flt .pinf) true none) .nil))) true none) := by
    simpa [Moderate, ModerateEs, PyNum.toFlt, IsFin, ModerateBound] using hz
  constructor
  · exact C115_flatten binary64_sane binary64_accurate binary64_logAccurate binary64_cholAccurate binary64_cholSucceeds (WF.built _ h1) h2 h3 (by norm_num)
      (by norm_num) three_inside none
  · have := C115_trip binary64_sane binary64_accurate binary64_logAccurate binary64_dotAccurate binary64_cholAccurate binary64_cholSucceeds (WF.built _ h1) h2 h3
      (by norm_num) (by norm_num) three_inside none
    rwa [show (2:ℝ) + 1 = 3 by norm_num] at this

end Paragami
