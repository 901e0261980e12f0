import Verif.Spec.RoundingJacobian
import Verif.Proofs.RoundingJacobian
import Verif.Proofs.JacobianTree
import Verif.Props.RoundingFlattenClose

/-!
# C118: Jacobians in floating point
-/

set_option linter.unusedSimpArgs false

namespace Paragami
open NDArray Pattern Flt Spec

variable {A : Arith}

/-! ### Block matrices -/

section
variable {R : Flt → Flt → Prop}

theorem matRel_ofFn2 {m n : ℕ} {f g : ℕ → ℕ → Flt} (h : ∀ i < m, ∀ j < n, R (f i j) (g i j)) : MatRel R (ofFn2 m n f) (ofFn2 m n g) :=
  ⟨m, n, rfl, rfl, length_ofFn2 m n f, length_ofFn2 m n g, fun i hi j hj => by rw [entry_ofFn2 _ _ _ hi hj, entry_ofFn2 _ _ _ hi hj]; exact h i hi j hj⟩

theorem matRel_dims {a b : NDArray Flt} (h : MatRel R a b) : matDims a = matDims b := by
  obtain ⟨m, n, h1, h2, -⟩ := h
  simp only [matDims, h1, h2]

theorem blockEntry_rel (h0 : R 0 0) : ∀ {as bs : List (NDArray Flt)}, List.Forall₂ (MatRel R) as bs → ∀ i j, R (blockEntry as i j) (blockEntry bs i j)
  | _, _, .nil, i, j => h0
  | _, _, .cons (a := a) (b := b) h hr, i, j => by
    have hd := matRel_dims h
    obtain ⟨m, n, h1, h2, h3, h4, h5⟩ := h
    have hm : matDims b = (m, n) := by simp only [matDims, h2]
    simp only [blockEntry, hd, hm]
    split
    · split
      · exact h5 i (by assumption) j (by assumption)
      · exact h0
    · split
      · exact h0
      · exact blockEntry_rel h0 hr _ _

theorem blockDiag_rel (h0 : R 0 0) {as bs : List (NDArray Flt)} (h : List.Forall₂ (MatRel R) as bs) : SameOr (MatRel R) (blockDiag as) (blockDiag bs) := by
  have hs : as.map matDims = bs.map matDims := by
    induction h with
    | nil => rfl
    | cons h _ ih => rw [List.map_cons, List.map_cons, ih, matRel_dims h]
  cases h with
  | nil => simp only [blockDiag, SameOr]
  | cons ha hr =>
    have e1 := congrArg (List.map Prod.fst) hs
    have e2 := congrArg (List.map Prod.snd) hs
    rw [List.map_map, List.map_map] at e1 e2
    simp only [Function.comp_def] at e1 e2
    simp only [blockDiag, SameOr, e1, e2]
    exact matRel_ofFn2 fun i _ j _ => blockEntry_rel h0 (.cons ha hr) i j

theorem mapE_rel {α β : Type} {S : β → β → Prop} {f g : α → Except Err β} : ∀ {l : List α}, (∀ x ∈ l, SameOr S (f x) (g x)) →
    SameOr (List.Forall₂ S) (mapE f l) (mapE g l)
  | [], _ => .nil
  | x :: l, h => by
    have hx := h x (by simp)
    have hl := mapE_rel (l := l) fun y hy => h y (by simp [hy])
    simp only [mapE, bind, Except.bind]
    generalize f x = a at hx
    generalize g x = b at hx
    cases a <;> cases b <;> simp only [SameOr] at hx <;> try trivial
    revert hl
    generalize mapE f l = c
    generalize mapE g l = d
    intro hl
    cases c <;> cases d <;> simp only [SameOr] at hl <;> try trivial
    exact .cons hx hl

theorem blocks_rel {a b : Except Err (List (NDArray Flt))} (h0 : R 0 0) (h : SameOr (List.Forall₂ (MatRel R)) a b) :
    SameOr (MatRel R) (a >>= blockDiag) (b >>= blockDiag) := by
  cases a <;> cases b <;> simp only [SameOr] at h <;> try trivial
  exact blockDiag_rel h0 h

theorem diag_rel (h0 : R 0 0) {d e : List Flt} (h : List.Forall₂ R d e) : MatRel R (diagMat d) (diagMat e) := by
  have hl := h.length_eq
  unfold diagMat
  rw [hl]
  refine matRel_ofFn2 fun i hi j _ => ?_
  split
  · have h1 : i < d.length := by omega
    rw [List.getD_eq_getElem?_getD, List.getD_eq_getElem?_getD, List.getElem?_eq_getElem h1, List.getElem?_eq_getElem hi]
    exact (List.forall₂_iff_get.mp h).2 i h1 hi
  · exact h0

theorem items_rel (h0 : R 0 0) {f g : Val Flt → Except Err (NDArray Flt)} {a : NDArray Flt} {s bs : List ℕ} (hsh : a.shape = s ++ bs)
    (h : ∀ i < s.prod, SameOr (MatRel R) (f (.arr ⟨bs, block bs.prod a.data i⟩)) (g (.arr ⟨bs, block bs.prod a.data i⟩))) :
    SameOr (MatRel R) (jacobianItems f a s) (jacobianItems g a s) := by
  refine blocks_rel h0 (mapE_rel fun item hitem => ?_)
  have hmem : ravel s item ∈ List.range s.prod := by
    rw [← map_ravel_productRanges]; exact List.mem_map_of_mem hitem
  rw [getItem_eq hsh hitem]
  exact h _ (List.mem_range.mp hmem)

theorem rows_rel (h0 : R 0 0) {f g : List Flt → NDArray Flt} {a : NDArray Flt} {s : List ℕ} {k : ℕ} (hk : 0 < k) (hsh : a.shape = s ++ [k]) (hwf : a.WF)
    (h : ∀ i < s.prod, MatRel R (f (block k a.data i)) (g (block k a.data i))) :
    SameOr (MatRel R) (Simplex.jacobian f s a) (Simplex.jacobian g s a) := by
  rw [Jac.simplexItems_eq hk hsh hwf, Jac.simplexItems_eq hk hsh hwf]
  refine blockDiag_rel h0 ?_
  rw [List.forall₂_map_left_iff, List.forall₂_map_right_iff, List.forall₂_same]
  exact fun i hi => h i (List.mem_range.mp hi)

end

/-! ### Entries -/

theorem relClose_zero (ε : ℝ) : RelClose ε 0 0 := ⟨0, 0, Arith.zero_flt, Arith.zero_flt, by simp⟩

theorem RelClose.mono {ε δ : ℝ} {x y : Flt} (h : RelClose ε x y) (hε : ε ≤ δ) : RelClose δ x y := by
  obtain ⟨z, w, h1, h2, h3⟩ := h
  exact ⟨z, w, h1, h2, h3.trans (mul_le_mul_of_nonneg_right hε (abs_nonneg _))⟩

/-- The bounds of a pattern that could be constructed. -/
theorem numeric_cases {c : NumCls} {s : List Nat} {lb ub : PyNum} {dv : Bool} {fd : Option Bool} (hw : (Pattern.numeric c s lb ub dv fd).WF) :
    (lb.toFlt = .ninf ∧ ub.toFlt = .pinf) ∨ (∃ b, lb.toFlt = .ninf ∧ ub.toFlt = .fin b) ∨ (∃ a, lb.toFlt = .fin a ∧ ub.toFlt = .pinf) ∨
      ∃ a b, lb.toFlt = .fin a ∧ ub.toFlt = .fin b := by
  simp only [Pattern.WF] at hw
  have hlt := hw.2.2.2.2.2
  generalize lb.toFlt = a at *
  generalize ub.toFlt = b at *
  cases a <;> cases b <;> simp_all [Flt.lt]

theorem freeJac_entry (hA : A.Sane) (hB : A.Accurate) {c : NumCls} {s : List Nat} {lb ub : PyNum} {dv : Bool} {fd : Option Bool}
    (hw : (Pattern.numeric c s lb ub dv fd).WF) (hm : Moderate A (.numeric c s lb ub dv fd)) {v : ℝ} (hv : A.Machine (.fin v))
    (hv' : |v| ≤ 2 ^ (300 : ℤ)) (h1 : ∀ c, lb.toFlt = .fin c → 2 ^ (-300 : ℤ) ≤ v - c) (h2 : ∀ c, ub.toFlt = .fin c → 2 ^ (-300 : ℤ) ≤ c - v) :
    RelClose (7 * 2 ^ (-53 : ℤ)) (unconstrainJac1A A lb.toFlt ub.toFlt (.fin v)) (unconstrainJac1 lb.toFlt ub.toFlt (.fin v)) := by
  have hz : (0:ℝ) < 2 ^ (-300 : ℤ) := two_zpow_pos _
  have hsm : (2:ℝ) ^ (-1000 : ℤ) ≤ 2 ^ (-300 : ℤ) := Arith.small_zpow (by norm_num)
  have hu := Arith.uRound_pos
  simp only [Moderate] at hm
  obtain ⟨m1, m2, -⟩ := hm
  rw [Arith.uRound_val]
  rcases numeric_cases hw with ⟨e1, e2⟩ | ⟨b, e1, e2⟩ | ⟨a, e1, e2⟩ | ⟨a, b, e1, e2⟩ <;> rw [e1, e2]
  · exact ⟨1, 1, by simp [unconstrainJac1A, Flt.eq, Arith.one_flt], by simp [unconstrainJac1, Flt.eq, Arith.one_flt], by simp; positivity⟩
  · obtain ⟨hb, hb'⟩ := m2 b e2
    have h3 := h2 b e2
    obtain ⟨z, g1, g2, g3⟩ := Arith.upper_freeJac hA hB hb hv (moderate_size hb') (moderate_size hv') (hsm.trans h3)
    have hp : 0 < 1 / (b - v) := by have : 0 < b - v := by linarith
                                    positivity
    refine ⟨z, _, g1, g2, g3.trans ?_⟩
    rw [abs_of_pos hp]
    exact mul_le_mul_of_nonneg_right (by linarith) hp.le
  · obtain ⟨ha, ha'⟩ := m1 a e1
    have h3 := h1 a e1
    obtain ⟨z, g1, g2, g3⟩ := Arith.lower_freeJac hA hB ha hv (moderate_size ha') (moderate_size hv') (hsm.trans h3)
    have hp : 0 < 1 / (v - a) := by have : 0 < v - a := by linarith
                                    positivity
    refine ⟨z, _, g1, g2, g3.trans ?_⟩
    rw [abs_of_pos hp]
    exact mul_le_mul_of_nonneg_right (by linarith) hp.le
  · obtain ⟨ha, ha'⟩ := m1 a e1
    obtain ⟨hb, hb'⟩ := m2 b e2
    have h3 := h1 a e1
    have h4 := h2 b e2
    obtain ⟨z, g1, g2, g3⟩ := Arith.two_sided_freeJac hA hB ha hb hv (moderate_size ha') (moderate_size hb') (moderate_size hv') (hsm.trans h3) (hsm.trans h4)
    have hp : 0 < 1 / (v - a) + 1 / (b - v) := by
      have : 0 < v - a := by linarith
      have : 0 < b - v := by linarith
      positivity
    refine ⟨z, _, g1, g2, g3.trans ?_⟩
    rw [abs_of_pos hp]

theorem unfreeJac_entry (hA : A.Sane) (hB : A.Accurate) (hL : A.LogAccurate) {c : NumCls} {s : List Nat} {lb ub : PyNum} {dv : Bool} {fd : Option Bool}
    (hw : (Pattern.numeric c s lb ub dv fd).WF) (hm : Moderate A (.numeric c s lb ub dv fd)) {κ v : ℝ} (hκ : 0 ≤ κ) (hv : A.Machine (.fin v))
    (hv' : |v| ≤ 2 ^ (300 : ℤ)) (h1 : ∀ c, lb.toFlt = .fin c → 2 ^ (-300 : ℤ) ≤ v - c) (h2 : ∀ c, ub.toFlt = .fin c → 2 ^ (-300 : ℤ) ≤ c - v)
    (hcl : ∀ l u, lb.toFlt = .fin l → ub.toFlt = .fin u → u - l ≤ κ * (u - v)) :
    RelClose ((2600 + 10 * κ) * 2 ^ (-53 : ℤ)) (constrainJac1A A lb.toFlt ub.toFlt (unconstrain1A A lb.toFlt ub.toFlt (.fin v)))
      (constrainJac1 lb.toFlt ub.toFlt (unconstrain1 lb.toFlt ub.toFlt (.fin v))) := by
  have hz : (0:ℝ) < 2 ^ (-300 : ℤ) := two_zpow_pos _
  have hsm : (2:ℝ) ^ (-1000 : ℤ) ≤ 2 ^ (-300 : ℤ) := Arith.small_zpow (by norm_num)
  have hu := Arith.uRound_pos
  simp only [Moderate] at hm
  obtain ⟨m1, m2, -⟩ := hm
  rw [Arith.uRound_val]
  rcases numeric_cases hw with ⟨e1, e2⟩ | ⟨b, e1, e2⟩ | ⟨a, e1, e2⟩ | ⟨a, b, e1, e2⟩ <;> rw [e1, e2]
  · exact ⟨1, 1, by simp [constrainJac1A, Flt.eq, Arith.one_flt], by simp [constrainJac1, Flt.eq, Arith.one_flt], by simp; positivity⟩
  · obtain ⟨hb, hb'⟩ := m2 b e2
    have h3 := h2 b e2
    obtain ⟨z, g1, g2, g3⟩ := Arith.upper_unfreeJac hA hB hL hb hv (moderate_size hb') (moderate_size hv') (hsm.trans h3)
    have hp : 0 < b - v := by linarith
    have hs := Arith.size_sub' hv' hb'
    rw [abs_of_pos hp] at hs
    have hl := Arith.abs_log_le' h3 hs
    refine ⟨z, _, g1, g2, g3.trans ?_⟩
    rw [abs_of_pos hp]
    exact mul_le_mul_of_nonneg_right (mul_le_mul_of_nonneg_right (by linarith) hu.le) hp.le
  · obtain ⟨ha, ha'⟩ := m1 a e1
    have h3 := h1 a e1
    obtain ⟨z, g1, g2, g3⟩ := Arith.lower_unfreeJac hB hL ha hv (moderate_size ha') (moderate_size hv') (hsm.trans h3)
    have hp : 0 < v - a := by linarith
    have hs := Arith.size_sub' ha' hv'
    rw [abs_of_pos hp] at hs
    have hl := Arith.abs_log_le' h3 hs
    refine ⟨z, _, g1, g2, g3.trans ?_⟩
    rw [abs_of_pos hp]
    exact mul_le_mul_of_nonneg_right (mul_le_mul_of_nonneg_right (by linarith) hu.le) hp.le
  · obtain ⟨ha, ha'⟩ := m1 a e1
    obtain ⟨hb, hb'⟩ := m2 b e2
    have h3 := h1 a e1
    have h4 := h2 b e2
    obtain ⟨z, g1, g2, g3⟩ := Arith.two_sided_unfreeJac hA hB hL ha hb hv ha' hb' hv' h3 h4
    have hp : 0 < v - a := by linarith
    have hq : 0 < b - v := by linarith
    have hw : 0 < b - a := by linarith
    have hs := Arith.size_sub' ha' hv'
    have hs' := Arith.size_sub' hv' hb'
    rw [abs_of_pos hp] at hs
    rw [abs_of_pos hq] at hs'
    have hl := Arith.abs_log_le' h3 hs
    have hl' := Arith.abs_log_le' h4 hs'
    have hJ : 0 < (v - a) * (b - v) / (b - a) := by positivity
    have hP : v - a ≤ κ * ((v - a) * (b - v) / (b - a)) := by
      have g4 := hcl a b e1 e2
      rw [← mul_div_assoc, le_div_iff₀ hw]
      have := mul_le_mul_of_nonneg_left g4 hp.le
      linarith [mul_left_comm (v - a) κ (b - v)]
    refine ⟨z, _, g1, g2, g3.trans ?_⟩
    rw [abs_of_pos hJ]
    generalize (v - a) * (b - v) / (b - a) = J at *
    have g5 : (6 * |Real.log (v - a)| + 6 * |Real.log (b - v)| + 42) * J ≤ 2600 * J := mul_le_mul_of_nonneg_right (by linarith) hJ.le
    have g6 := mul_le_mul_of_nonneg_left (show (6 * |Real.log (v - a)| + 6 * |Real.log (b - v)| + 42) * J + 10 * (v - a) ≤ 2600 * J + 10 * (κ * J) by linarith) hu.le
    linarith [show (2600 + 10 * κ) * Arith.uRound * J = Arith.uRound * (2600 * J + 10 * (κ * J)) by ring]

/-- The freeing derivatives of probabilities. -/
theorem inv_entry (hB : A.Accurate) {B p s : ℝ} (hs : |s| = 1) (hp : 0 < p) (hl : |Real.log p| ≤ B) (hB2 : B ≤ 690) :
    RelClose (7 * 2 ^ (-53 : ℤ)) (A.div (.fin s) (.fin p)) (Flt.fin s / Flt.fin p) := by
  have hu := Arith.uRound_pos
  have hsz := Arith.exp_size (hl.trans hB2)
  rw [Real.exp_log hp] at hsz
  have hq : |s / p| = 1 / p := by rw [abs_div, hs, abs_of_pos hp]
  have hlo : (2:ℝ) ^ (-1022 : ℤ) ≤ |s / p| := by
    rw [hq, le_div_iff₀ hp]
    have e : (2:ℝ) ^ (-1022 : ℤ) * 2 ^ (1000 : ℤ) = 2 ^ (-22 : ℤ) := by rw [← Arith.zpow_split]; norm_num
    have := mul_le_mul_of_nonneg_left hsz.2 (two_zpow_pos (-1022)).le
    rw [e] at this
    exact this.trans (by norm_num)
  have hhi : |s / p| ≤ 2 ^ (1010 : ℤ) := by
    rw [hq, div_le_iff₀ hp]
    have e : (2:ℝ) ^ (1010 : ℤ) * 2 ^ (-1000 : ℤ) = 2 ^ (10 : ℤ) := by rw [← Arith.zpow_split]; norm_num
    have := mul_le_mul_of_nonneg_left hsz.1 (two_zpow_pos 1010).le
    rw [e] at this
    exact le_trans (by norm_num) this
  obtain ⟨z, g1, g2⟩ := hB.round_rel hlo hhi
  refine ⟨z, s / p, by rw [Arith.div, div_fin _ _ hp.ne', g1], by rw [div_fin _ _ hp.ne'], g2.trans ?_⟩
  rw [Arith.uRound_val]
  exact mul_le_mul_of_nonneg_right (by linarith) (abs_nonneg _)

/-- The product of two probabilities. -/
theorem product_entry (hA : A.Sane) (hB : A.Accurate) {B p q : ℝ} (hp : 0 < p) (hq : 0 < q) (hlp : |Real.log p| ≤ B) (hlq : |Real.log q| ≤ B)
    (hB2 : B ≤ 340) : ∃ z, A.mul (.fin (-1)) (A.mul (.fin p) (.fin q)) = .fin (-z) ∧ A.Machine (.fin (-z)) ∧ |z - p * q| ≤ Arith.uRound * (p * q) := by
  have hpq : 0 < p * q := mul_pos hp hq
  have ht : |Real.log p + Real.log q| ≤ 690 := (abs_add_le _ _).trans (by linarith)
  have hsz := Arith.exp_size ht
  rw [Real.exp_add, Real.exp_log hp, Real.exp_log hq] at hsz
  obtain ⟨z, g1, g2⟩ := hB.round_rel (x := p * q) (by rw [abs_of_pos hpq]; exact Arith.dn_zpow hsz.1 (by norm_num))
    (by rw [abs_of_pos hpq]; exact Arith.up_zpow hsz.2 (by norm_num))
  rw [abs_of_pos hpq] at g2
  have hz := Arith.rnd_machine hA g1
  refine ⟨z, ?_, hA.neg z hz, g2⟩
  have e : A.mul (.fin p) (.fin q) = .fin z := by rw [Arith.mul, mul_fin, g1]
  rw [e, Arith.neg_one_mul_machine hA hz]

theorem outer_entry (hA : A.Sane) (hB : A.Accurate) {B p q κ : ℝ} (hκ : 0 ≤ κ) (hp : 0 < p) (hq : 0 < q) (hlp : |Real.log p| ≤ B) (hlq : |Real.log q| ≤ B)
    (hB2 : B ≤ 340) : RelClose ((2600 + 10 * κ) * 2 ^ (-53 : ℤ)) (A.add (A.mul (.fin (-1)) (A.mul (.fin p) (.fin q))) 0)
      (Flt.fin (-1) * (Flt.fin p * Flt.fin q) + 0) := by
  obtain ⟨z, g1, g2, g3⟩ := product_entry hA hB hp hq hlp hlq hB2
  have hpq : 0 < p * q := mul_pos hp hq
  refine ⟨-z, -1 * (p * q) + 0, ?_, ?_, ?_⟩
  · rw [g1, Arith.zero_flt, Arith.add, add_fin, add_zero]; exact g2
  · rw [Arith.zero_flt, mul_fin, mul_fin, add_fin]
  · rw [show -z - (-1 * (p * q) + 0) = -(z - p * q) by ring, show -1 * (p * q) + 0 = -(p * q) by ring, abs_neg, abs_neg, abs_of_pos hpq, Arith.uRound_val]
    have hu := Arith.uRound_pos
    have : Arith.uRound ≤ (2600 + 10 * κ) * Arith.uRound := le_mul_of_one_le_left hu.le (by linarith)
    exact g3.trans (mul_le_mul_of_nonneg_right this hpq.le)

theorem diag_entry (hA : A.Sane) (hB : A.Accurate) {B p κ : ℝ} (hκ : 0 ≤ κ) (hκ2 : κ ≤ 2 ^ 40) (hm : A.Machine (.fin p)) (hp : 0 < p) (hlp : |Real.log p| ≤ B)
    (hB2 : B ≤ 340) (hcl : 1 ≤ κ * (1 - p)) : RelClose ((2600 + 10 * κ) * 2 ^ (-53 : ℤ)) (A.add (A.mul (.fin (-1)) (A.mul (.fin p) (.fin p))) (.fin p))
      (Flt.fin (-1) * (Flt.fin p * Flt.fin p) + .fin p) := by
  obtain ⟨z, g1, g2, g3⟩ := product_entry hA hB hp hp hlp hlp hB2
  have hu := Arith.uRound_pos
  have hp1 : p < 1 := by
    by_contra h
    have : κ * (1 - p) ≤ 0 := mul_nonpos_of_nonneg_of_nonpos hκ (by linarith)
    linarith
  have hD : 0 < p * (1 - p) := mul_pos hp (by linarith)
  have hsq : p * p ≤ κ * (p * (1 - p)) := by
    have e1 : p * p ≤ p * 1 := mul_le_mul_of_nonneg_left hp1.le hp.le
    have e2 := mul_le_mul_of_nonneg_left hcl hp.le
    linarith [mul_left_comm p κ (1 - p)]
  have hsq1 : p * p ≤ 1 := by
    have e1 : p * p ≤ 1 * 1 := mul_le_mul hp1.le hp1.le hp.le (by norm_num)
    linarith
  have hκu : Arith.uRound * κ ≤ 1 := by
    have := mul_le_mul Arith.uRound_le hκ2 hκ (by norm_num)
    exact this.trans (by norm_num)
  have g3' := abs_le.mp g3
  have hu1 : Arith.uRound * (p * p) ≤ 1 := by
    have := mul_le_mul Arith.uRound_le hsq1 (by positivity) (by norm_num)
    exact this.trans (by norm_num)
  have hsize : |-z + p| ≤ 2 ^ (1010 : ℤ) := by
    have : (4:ℝ) ≤ 2 ^ (1010 : ℤ) := le_trans (by norm_num) (Arith.small_zpow (show (2 : ℤ) ≤ 1010 by norm_num))
    refine le_trans ?_ this
    have := mul_pos hp hp
    rw [abs_le]; constructor <;> linarith
  obtain ⟨w, w1, w2⟩ := hB.add_rel g2 hm hsize
  refine ⟨w, -1 * (p * p) + p, by rw [g1, w1], by rw [mul_fin, mul_fin, add_fin], ?_⟩
  rw [show -1 * (p * p) + p = p * (1 - p) by ring, abs_of_pos hD, Arith.uRound_val]
  have h1 : |(-z + p) - p * (1 - p)| ≤ Arith.uRound * (κ * (p * (1 - p))) := by
    rw [show (-z + p) - p * (1 - p) = -(z - p * p) by ring, abs_neg]
    exact g3.trans (mul_le_mul_of_nonneg_left hsq hu.le)
  have h2 : |w - p * (1 - p)| ≤ |w - (-z + p)| + |(-z + p) - p * (1 - p)| := by
    have := abs_add_le (w - (-z + p)) ((-z + p) - p * (1 - p))
    rwa [sub_add_sub_cancel] at this
  have h3 : |-z + p| ≤ |(-z + p) - p * (1 - p)| + p * (1 - p) := by
    have := abs_add_le ((-z + p) - p * (1 - p)) (p * (1 - p))
    rw [sub_add_cancel, abs_of_pos hD] at this
    exact this
  generalize p * (1 - p) = D at *
  have h4 : Arith.uRound * (κ * D) ≤ D := by
    rw [← mul_assoc]; exact mul_le_of_le_one_left hD.le hκu
  have h5 : Arith.uRound * |-z + p| ≤ Arith.uRound * (2 * D) := mul_le_mul_of_nonneg_left (by linarith) hu.le
  have h6 : 0 < Arith.uRound * D := mul_pos hu hD
  have h7 : 0 ≤ Arith.uRound * (κ * D) := by positivity
  linarith [show (2600 + 10 * κ) * Arith.uRound * D = 2600 * (Arith.uRound * D) + 10 * (Arith.uRound * (κ * D)) by ring]

/-! ### Leaves -/

theorem getD_row {q : List ℝ} {i : ℕ} (h : i < q.length) : (q.map Flt.fin).getD i .nan = .fin (q[i]) := by
  simp [List.getD_eq_getElem?_getD, h]

theorem row_freeJac (hB : A.Accurate) {B : ℝ} (hB2 : B ≤ 690) {q : List ℝ} (hq : ∀ v ∈ q, A.Machine (.fin v) ∧ 0 < v ∧ |Real.log v| ≤ B) :
    MatRel (RelClose (7 * 2 ^ (-53 : ℤ))) (Simplex.unconstrainJacobianA A (q.map .fin)) (Simplex.unconstrainJacobian (q.map .fin)) := by
  unfold Simplex.unconstrainJacobianA Simplex.unconstrainJacobian
  refine matRel_ofFn2 fun i hi j hj => ?_
  rw [List.length_map] at hi hj
  split
  · have h0 : 0 < q.length := by omega
    rw [getD_row h0]
    obtain ⟨-, h1, h2⟩ := hq _ (List.getElem_mem h0)
    exact inv_entry hB (by norm_num) h1 h2 hB2
  · split
    · rw [getD_row hj, Arith.one_flt]
      obtain ⟨-, h1, h2⟩ := hq _ (List.getElem_mem hj)
      exact inv_entry hB (by norm_num) h1 h2 hB2
    · exact relClose_zero _

theorem row_unfreeJac (hA : A.Sane) (hB : A.Accurate) {B κ : ℝ} (hB2 : B ≤ 340) (hκ : 0 ≤ κ) (hκ2 : κ ≤ 2 ^ 40) {q : List ℝ}
    (hq : ∀ v ∈ q, A.Machine (.fin v) ∧ 0 < v ∧ |Real.log v| ≤ B) (hcl : 1 < q.length → ∀ v ∈ q, 1 ≤ κ * (1 - v)) :
    MatRel (RelClose ((2600 + 10 * κ) * 2 ^ (-53 : ℤ))) (Simplex.constrainJacobianA A (q.map .fin)) (Simplex.constrainJacobian (q.map .fin)) := by
  unfold Simplex.constrainJacobianA Simplex.constrainJacobian
  refine matRel_ofFn2 fun i hi j hj => ?_
  rw [List.length_map] at hi hj
  have hj' : j + 1 < q.length := by omega
  obtain ⟨m1, p1, l1⟩ := hq _ (List.getElem_mem hi)
  obtain ⟨m2, p2, l2⟩ := hq _ (List.getElem_mem hj')
  rw [getD_row hi, getD_row hj']
  split
  · next h =>
    subst h
    exact diag_entry hA hB hκ hκ2 m1 p1 l1 hB2 (hcl (by omega) _ (List.getElem_mem hi))
  · exact outer_entry hA hB hκ p1 p2 l1 l2 hB2

theorem block_map {α β : Type} (f : α → β) (k : ℕ) (l : List α) (i : ℕ) : block k (l.map f) i = (block k l i).map f := by
  simp [block]

theorem mem_block {α : Type} {k i : ℕ} {l : List α} {x : α} (h : x ∈ block k l i) : x ∈ l :=
  List.mem_of_mem_drop (List.mem_of_mem_take h)

/-! ### Trees -/

theorem free_tree (hA : A.Sane) (hB : A.Accurate) {B : ℝ} (hB2 : B ≤ 690) (ad : AutogradJacobian) (adA : Pattern → Val Flt → Except Err (NDArray Flt))
    (p : Pattern) : p.WF → NoPSD p → Moderate A p → ∀ V, Inside A B p V →
      SameOr (MatRel (RelClose (7 * 2 ^ (-53 : ℤ)))) (p.freeingJacobianA A adA V) (p.freeingJacobian ad V) := by
  induction p using Pattern.ind (Q := fun es => WFEs es → NoPSDEs es → ModerateEs A es → ∀ vs, InsideEs A B es vs →
      SameOr (List.Forall₂ (MatRel (RelClose (7 * 2 ^ (-53 : ℤ))))) (freeingJacobianAEs A adA es vs) (freeingJacobianEs ad es vs)) with
  | hnum c s lb ub dv fd =>
    intro hw _ hm V hV
    cases V with
    | dict d => simp [Inside] at hV
    | arr a =>
      simp only [Inside] at hV
      simp only [freeingJacobianA, freeingJacobian, Val.asArr, bind, Except.bind, pure, Except.pure, SameOr, Numeric.freeingJacobianA,
        Numeric.freeingJacobian]
      refine diag_rel (relClose_zero _) ?_
      rw [List.forall₂_map_left_iff, List.forall₂_map_right_iff, List.forall₂_same]
      intro x hx
      obtain ⟨v, rfl, g1, g2, g3, g4⟩ := hV.2.2 x hx
      exact freeJac_entry hA hB hw hm g1 g2 g3 g4
  | hsim k s dv fd =>
    intro hw _ hm V hV
    cases V with
    | dict d => simp [Inside] at hV
    | arr a =>
      simp only [Pattern.WF] at hw
      simp only [Inside] at hV
      obtain ⟨hsh, r, hr, hlen, hq, -⟩ := hV
      have hwf : a.WF := by rw [NDArray.WF, hr, hsh]; simp [hlen]
      simp only [freeingJacobianA, freeingJacobian, Val.asArr, bind, Except.bind]
      refine rows_rel (relClose_zero _) (by omega) hsh hwf fun i _ => ?_
      rw [hr, block_map]
      exact row_freeJac hB hB2 fun v hv => hq v (mem_block hv)
  | hpsd n lb dv fd => intro _ h; simp [NoPSD] at h
  | harr s b fd ih =>
    intro hw hn hm V hV
    cases V with
    | dict d => simp [Inside] at hV
    | arr a =>
      simp only [Pattern.WF] at hw
      simp only [NoPSD] at hn
      simp only [Moderate] at hm
      simp only [Inside] at hV
      simp only [freeingJacobianA, freeingJacobian, Val.asArr, bind, Except.bind]
      exact items_rel (relClose_zero _) hV.1 fun i hi => ih hw.2.2 hn hm _ (hV.2.2 i hi)
  | hdict es ld fd ih =>
    intro hw hn hm V hV
    cases V with
    | arr a => simp [Inside] at hV
    | dict vs =>
      simp only [Pattern.WF] at hw
      simp only [NoPSD] at hn
      simp only [Moderate] at hm
      simp only [Inside] at hV
      simp only [freeingJacobianA, freeingJacobian, Val.asDict]
      exact blocks_rel (relClose_zero _) (ih hw.2 hn hm vs hV)
  | hnil hw hn hm vs hV => exact .nil
  | hcons k p rest ihp ihr hw hn hm vs hV =>
    simp only [WFEs] at hw
    simp only [NoPSDEs] at hn
    simp only [ModerateEs] at hm
    simp only [InsideEs] at hV
    obtain ⟨⟨v, hl, hv⟩, hV⟩ := hV
    have h1 := ihp hw.1 hn.1 hm.1 v hv
    have h2 := ihr hw.2.2 hn.2 hm.2 vs hV
    simp only [freeingJacobianAEs, freeingJacobianEs, hl]
    revert h1 h2
    generalize freeingJacobianA A adA p v = x1
    generalize freeingJacobian ad p v = x2
    generalize freeingJacobianAEs A adA rest vs = y1
    generalize freeingJacobianEs ad rest vs = y2
    intro h1 h2
    cases x1 <;> cases x2 <;> simp only [SameOr] at h1 <;> try trivial
    cases y1 <;> cases y2 <;> simp only [SameOr] at h2 <;> try trivial
    exact .cons h1 h2

theorem unfree_tree (hA : A.Sane) (hB : A.Accurate) (hL : A.LogAccurate) {B κ : ℝ} (hB2 : B ≤ 340) (hκ : 0 ≤ κ) (hκ2 : κ ≤ 2 ^ 40) (ad : AutogradJacobian)
    (adA : Pattern → Val Flt → Except Err (NDArray Flt)) (p : Pattern) : p.WF → NoPSD p → Moderate A p → ∀ V, Inside A B p V → Clear κ p V →
      SameOr (MatRel (RelClose ((2600 + 10 * κ) * 2 ^ (-53 : ℤ)))) (p.unfreeingJacobianA A adA V) (p.unfreeingJacobian ad V) := by
  induction p using Pattern.ind (Q := fun es => WFEs es → NoPSDEs es → ModerateEs A es → ∀ vs, InsideEs A B es vs → ClearEs κ es vs →
      SameOr (List.Forall₂ (MatRel (RelClose ((2600 + 10 * κ) * 2 ^ (-53 : ℤ))))) (unfreeingJacobianAEs A adA es vs) (unfreeingJacobianEs ad es vs)) with
  | hnum c s lb ub dv fd =>
    intro hw _ hm V hV hC
    cases V with
    | dict d => simp [Inside] at hV
    | arr a =>
      simp only [Inside] at hV
      simp only [Clear] at hC
      simp only [unfreeingJacobianA, unfreeingJacobian, Val.asArr, bind, Except.bind, pure, Except.pure, SameOr, Numeric.unfreeingJacobianA,
        Numeric.unfreeingJacobian]
      refine diag_rel (relClose_zero _) ?_
      rw [List.map_map, List.map_map, List.forall₂_map_left_iff, List.forall₂_map_right_iff, List.forall₂_same]
      intro x hx
      obtain ⟨v, rfl, g1, g2, g3, g4⟩ := hV.2.2 x hx
      exact unfreeJac_entry hA hB hL hw hm hκ g1 g2 g3 g4 fun l u e1 e2 => hC l u v e1 e2 hx
  | hsim k s dv fd =>
    intro hw _ hm V hV hC
    cases V with
    | dict d => simp [Inside] at hV
    | arr a =>
      simp only [Pattern.WF] at hw
      simp only [Inside] at hV
      simp only [Clear] at hC
      obtain ⟨hsh, r, hr, hlen, hq, -⟩ := hV
      have hwf : a.WF := by rw [NDArray.WF, hr, hsh]; simp [hlen]
      simp only [unfreeingJacobianA, unfreeingJacobian, Val.asArr, bind, Except.bind]
      refine rows_rel (relClose_zero _) (by omega) hsh hwf fun i hi => ?_
      rw [hr, block_map]
      refine row_unfreeJac hA hB hB2 hκ hκ2 (fun v hv => hq v (mem_block hv)) fun h1 v hv => ?_
      rw [block_eq_chunk, length_chunk hlen hi] at h1
      exact hC h1 v (by rw [hr]; exact List.mem_map_of_mem (mem_block hv))
  | hpsd n lb dv fd => intro _ h; simp [NoPSD] at h
  | harr s b fd ih =>
    intro hw hn hm V hV hC
    cases V with
    | dict d => simp [Inside] at hV
    | arr a =>
      simp only [Pattern.WF] at hw
      simp only [NoPSD] at hn
      simp only [Moderate] at hm
      simp only [Inside] at hV
      simp only [Clear] at hC
      simp only [unfreeingJacobianA, unfreeingJacobian, Val.asArr, bind, Except.bind]
      exact items_rel (relClose_zero _) hV.1 fun i hi => ih hw.2.2 hn hm _ (hV.2.2 i hi) (hC i hi)
  | hdict es ld fd ih =>
    intro hw hn hm V hV hC
    cases V with
    | arr a => simp [Inside] at hV
    | dict vs =>
      simp only [Pattern.WF] at hw
      simp only [NoPSD] at hn
      simp only [Moderate] at hm
      simp only [Inside] at hV
      simp only [Clear] at hC
      simp only [unfreeingJacobianA, unfreeingJacobian, Val.asDict]
      exact blocks_rel (relClose_zero _) (ih hw.2 hn hm vs hV hC)
  | hnil hw hn hm vs hV hC => exact .nil
  | hcons k p rest ihp ihr hw hn hm vs hV hC =>
    simp only [WFEs] at hw
    simp only [NoPSDEs] at hn
    simp only [ModerateEs] at hm
    simp only [InsideEs] at hV
    simp only [ClearEs] at hC
    obtain ⟨⟨v, hl, hv⟩, hV⟩ := hV
    have h1 := ihp hw.1 hn.1 hm.1 v hv (hC.1 v hl)
    have h2 := ihr hw.2.2 hn.2 hm.2 vs hV hC.2
    simp only [unfreeingJacobianAEs, unfreeingJacobianEs, hl]
    revert h1 h2
    generalize unfreeingJacobianA A adA p v = x1
    generalize unfreeingJacobian ad p v = x2
    generalize unfreeingJacobianAEs A adA rest vs = y1
    generalize unfreeingJacobianEs ad rest vs = y2
    intro h1 h2
    cases x1 <;> cases x2 <;> simp only [SameOr] at h1 <;> try trivial
    cases y1 <;> cases y2 <;> simp only [SameOr] at h2 <;> try trivial
    exact .cons h1 h2

/-! ### Log determinants -/

/-- The computed logarithm of an entry. -/
theorem log_entry (hL : A.LogAccurate) {ε w : ℝ} {x y : Flt} (hε0 : 0 ≤ ε) (hε : ε ≤ 1 / 100) (hw1 : 2 ^ (-302 : ℤ) ≤ w) (hw2 : w ≤ 2 ^ (302 : ℤ)) (hy : y = .fin w)
    (h : RelClose ε x y) : ∃ l, A.log x.abs = .fin l ∧ A.Machine (.fin l) ∧ y.abs.log = .fin (Real.log w) ∧ |Real.log w| ≤ 210 ∧
      |l - Real.log w| ≤ 2 * ε + 425 * Arith.uRound := by
  subst hy
  have hu := Arith.uRound_pos
  obtain ⟨z, w', rfl, e, h⟩ := h
  obtain rfl : w = w' := by simpa using e
  have hw0 : 0 < w := lt_of_lt_of_le (two_zpow_pos _) hw1
  rw [abs_of_pos hw0] at h
  have h' := abs_le.mp h
  have hz1 : 99 / 100 * w ≤ z := by have := mul_le_mul_of_nonneg_right hε hw0.le; linarith
  have hz2 : z ≤ 101 / 100 * w := by have := mul_le_mul_of_nonneg_right hε hw0.le; linarith
  have hz0 : 0 < z := by linarith
  have hlw : |Real.log w| ≤ 210 := by
    have h3 := Real.log_le_log (two_zpow_pos _) hw1
    have h4 := Real.log_le_log hw0 hw2
    rw [Real.log_zpow] at h3 h4
    have := Real.log_two_lt_d9
    push_cast at h3 h4
    rw [abs_le]; constructor <;> linarith
  have hq : |Real.log z - Real.log w| ≤ 2 * ε := by
    rw [← Real.log_div hz0.ne' hw0.ne']
    have q0 : 0 < z / w := div_pos hz0 hw0
    have q1 : z / w ≤ 1 + ε := by rw [div_le_iff₀ hw0]; linarith
    have q2 : w / z ≤ 1 + 2 * ε := by
      rw [div_le_iff₀ hz0]
      have e1 : (1 + 2 * ε) * ((1 - ε) * w) ≤ (1 + 2 * ε) * z := mul_le_mul_of_nonneg_left (by linarith) (by linarith)
      have e2 : 0 ≤ ε * (1 - 2 * ε) * w := mul_nonneg (mul_nonneg hε0 (by linarith)) hw0.le
      linarith [show (1 + 2 * ε) * ((1 - ε) * w) = w + ε * (1 - 2 * ε) * w by ring]
    have g1 := Real.log_le_sub_one_of_pos q0
    have g2 := Real.one_sub_inv_le_log_of_pos q0
    rw [inv_div] at g2
    rw [abs_le]; constructor <;> linarith
  have hz2' : z ≤ 2 ^ (303 : ℤ) := Arith.double_zpow (e := 302) hw2 (by linarith)
  have hz1' : 2 ^ (-303 : ℤ) ≤ z := Arith.halve_zpow (e := -303) (show 2 ^ (-303 + 1 : ℤ) ≤ w from hw1) (by linarith)
  obtain ⟨l, l1, l2⟩ := hL.log z (Arith.dn_zpow hz1' (by norm_num)) (by
    have e1 : (2:ℝ) ^ (303 : ℤ) ≤ 2 ^ (1022 : ℤ) := Arith.small_zpow (by norm_num)
    have e2 : (2:ℝ) ^ (1022 : ℤ) < overflow64 := zpow_lt_zpow_right₀ (by norm_num) (by norm_num)
    exact (hz2'.trans e1).trans_lt e2)
  have ht := Arith.tiny_le (e := -1074) (by norm_num)
  rw [Arith.uRound_val2] at l2
  refine ⟨l, ?_, ?_, ?_, hlw, ?_⟩
  · rw [show (Flt.fin z).abs = .fin z from by simp [Flt.abs, abs_of_pos hz0], l1]
  · rw [← l1]; exact hL.machine _
  · rw [show (Flt.fin w).abs = .fin w from by simp [Flt.abs, abs_of_pos hw0], Flt.log_fin hw0]
  · have e1 : |Real.log z| ≤ 212 := by
      have := abs_add_le (Real.log z - Real.log w) (Real.log w)
      rw [sub_add_cancel] at this
      linarith
    have e2 : |l - Real.log w| ≤ |l - Real.log z| + |Real.log z - Real.log w| := by
      have := abs_add_le (l - Real.log z) (Real.log z - Real.log w)
      rwa [sub_add_sub_cancel] at this
    have e3 : 2 * Arith.uRound * |Real.log z| ≤ 2 * Arith.uRound * 212 := mul_le_mul_of_nonneg_left e1 (by linarith)
    have e4 : Arith.uRound / 2 ^ 100 ≤ Arith.uRound := div_le_self hu.le (by norm_num)
    linarith

theorem inv_range {d : ℝ} (h1 : 2 ^ (-300 : ℤ) ≤ d) (h2 : d ≤ 2 ^ (301 : ℤ)) : 2 ^ (-301 : ℤ) ≤ 1 / d ∧ 1 / d ≤ 2 ^ (300 : ℤ) := by
  have hd : 0 < d := lt_of_lt_of_le (two_zpow_pos _) h1
  constructor
  · rw [le_div_iff₀ hd]
    have := mul_le_mul_of_nonneg_left h2 (two_zpow_pos (-301)).le
    rwa [← Arith.zpow_split, show (-301 + 301 : ℤ) = 0 by norm_num, zpow_zero] at this
  · rw [div_le_iff₀ hd]
    have := mul_le_mul_of_nonneg_left h1 (two_zpow_pos 300).le
    rwa [← Arith.zpow_split, show (300 + -300 : ℤ) = 0 by norm_num, zpow_zero] at this

/-- The exact derivatives of one entry, and their sizes. -/
theorem exact_sizes {c : NumCls} {s : List Nat} {lb ub : PyNum} {dv : Bool} {fd : Option Bool} (hw : (Pattern.numeric c s lb ub dv fd).WF)
    (hm : Moderate A (.numeric c s lb ub dv fd)) {v : ℝ} (hv' : |v| ≤ 2 ^ (300 : ℤ)) (h1 : ∀ c, lb.toFlt = .fin c → 2 ^ (-300 : ℤ) ≤ v - c)
    (h2 : ∀ c, ub.toFlt = .fin c → 2 ^ (-300 : ℤ) ≤ c - v) :
    (∃ w, unconstrainJac1 lb.toFlt ub.toFlt (.fin v) = .fin w ∧ 2 ^ (-302 : ℤ) ≤ w ∧ w ≤ 2 ^ (302 : ℤ)) ∧
    ∃ w, constrainJac1 lb.toFlt ub.toFlt (unconstrain1 lb.toFlt ub.toFlt (.fin v)) = .fin w ∧ 2 ^ (-302 : ℤ) ≤ w ∧ w ≤ 2 ^ (302 : ℤ) := by
  have hz : (0:ℝ) < 2 ^ (-300 : ℤ) := two_zpow_pos _
  have hone : (2:ℝ) ^ (-302 : ℤ) ≤ 1 ∧ (1:ℝ) ≤ 2 ^ (302 : ℤ) :=
    ⟨zpow_le_one_of_nonpos₀ (by norm_num) (by norm_num), one_le_zpow₀ (by norm_num) (by norm_num)⟩
  simp only [Moderate] at hm
  obtain ⟨m1, m2, -⟩ := hm
  rcases numeric_cases hw with ⟨e1, e2⟩ | ⟨b, e1, e2⟩ | ⟨a, e1, e2⟩ | ⟨a, b, e1, e2⟩ <;> rw [e1, e2]
  · exact ⟨⟨1, by simp [unconstrainJac1, Flt.eq, Arith.one_flt], hone⟩, 1, by simp [constrainJac1, Flt.eq, Arith.one_flt], hone⟩
  · have h3 := h2 b e2
    have hq : 0 < b - v := by linarith
    have hs := Arith.size_sub' hv' (m2 b e2).2
    rw [abs_of_pos hq] at hs
    have hi := inv_range h3 hs
    refine ⟨⟨1 / (b - v), ?_, Arith.dn_zpow hi.1 (by norm_num), Arith.up_zpow hi.2 (by norm_num)⟩, b - v, ?_, Arith.dn_zpow h3 (by norm_num),
      Arith.up_zpow hs (by norm_num)⟩
    · simp only [unconstrainJac1, Flt.eq, if_true, Bool.false_eq_true, if_false, sub_fin, Arith.one_flt, div_fin _ _ hq.ne']
    · simp only [unconstrain1, constrainJac1, Flt.eq, if_true, Bool.false_eq_true, if_false, sub_fin, log_fin hq, mul_fin, exp_fin]
      rw [show -1 * (-1 * Real.log (b - v)) = Real.log (b - v) by ring, Real.exp_log hq]
  · have h3 := h1 a e1
    have hp : 0 < v - a := by linarith
    have hs := Arith.size_sub' (m1 a e1).2 hv'
    rw [abs_of_pos hp] at hs
    have hi := inv_range h3 hs
    refine ⟨⟨1 / (v - a), ?_, Arith.dn_zpow hi.1 (by norm_num), Arith.up_zpow hi.2 (by norm_num)⟩, v - a, ?_, Arith.dn_zpow h3 (by norm_num),
      Arith.up_zpow hs (by norm_num)⟩
    · simp only [unconstrainJac1, Flt.eq, if_true, Bool.false_eq_true, if_false, sub_fin, Arith.one_flt, div_fin _ _ hp.ne']
    · simp only [unconstrain1, constrainJac1, Flt.eq, if_true, Bool.false_eq_true, if_false, sub_fin, log_fin hp, exp_fin, Real.exp_log hp]
  · have h3 := h1 a e1
    have h4 := h2 b e2
    have hp : 0 < v - a := by linarith
    have hq : 0 < b - v := by linarith
    have hw0 : 0 < b - a := by linarith
    have hs := Arith.size_sub' (m1 a e1).2 hv'
    have hs' := Arith.size_sub' hv' (m2 b e2).2
    rw [abs_of_pos hp] at hs
    rw [abs_of_pos hq] at hs'
    have hi := inv_range h3 hs
    have hi' := inv_range h4 hs'
    have p1 : 0 < 1 / (v - a) := by positivity
    have p2 : 0 < 1 / (b - v) := by positivity
    refine ⟨⟨1 / (v - a) + 1 / (b - v), ?_, Arith.dn_zpow (hi.1.trans (by linarith)) (by norm_num), ?_⟩, (v - a) * (b - v) / (b - a), ?_, ?_, ?_⟩
    · simp only [unconstrainJac1, Flt.eq, if_true, Bool.false_eq_true, if_false, sub_fin, Arith.one_flt, div_fin _ _ hp.ne', div_fin _ _ hq.ne', add_fin]
    · have e : (2:ℝ) ^ (301 : ℤ) = 2 ^ (300 : ℤ) + 2 ^ (300 : ℤ) := by
        rw [show (301 : ℤ) = 300 + 1 by norm_num, Arith.zpow_split, zpow_one]; ring
      have e1 : 1 / (v - a) + 1 / (b - v) ≤ 2 ^ (301 : ℤ) := by rw [e]; exact add_le_add hi.2 hi'.2
      exact Arith.up_zpow e1 (by norm_num)
    · have hd : 1 + (v - a) / (b - v) ≠ 0 := by positivity
      simp only [unconstrain1, constrainJac1, Flt.eq, Bool.false_eq_true, if_false, sub_fin, log_fin hp, log_fin hq, exp_fin, Arith.one_flt, add_fin,
        mul_fin]
      rw [Real.exp_sub, Real.exp_log hp, Real.exp_log hq, div_fin _ _ hd]
      simp only [mul_fin, sub_fin]
      congr 1
      have : b - v + (v - a) ≠ 0 := by linarith
      have h2 : b - a = b - v + (v - a) := by ring
      rw [h2]
      have := hq.ne'
      field_simp
      ring
    · refine Arith.dn_zpow (e := -301) ?_ (by norm_num)
      have e : (2:ℝ) ^ (-300 : ℤ) = 2 ^ (-301 : ℤ) + 2 ^ (-301 : ℤ) := by
        rw [show (-300 : ℤ) = -301 + 1 by norm_num, Arith.zpow_split, zpow_one]; ring
      have hz1 : (0:ℝ) < 2 ^ (-301 : ℤ) := two_zpow_pos _
      rw [le_div_iff₀ hw0]
      rw [e] at h3 h4
      clear hs hs' hi hi' hv' h1 h2 hone e m1 m2 e1 e2 hw hz
      generalize (2:ℝ) ^ (-301 : ℤ) = t at *
      have q1 : 0 ≤ (v - a - 2 * t) * (b - v) := mul_nonneg (by linarith) hq.le
      have q2 : 0 ≤ (b - v - 2 * t) * (v - a) := mul_nonneg (by linarith) hp.le
      linarith [show (v - a - 2 * t) * (b - v) + (b - v - 2 * t) * (v - a) = 2 * ((v - a) * (b - v)) - 2 * (t * (b - a)) by ring]
    · refine Arith.up_zpow (le_trans ?_ hs) (show (301 : ℤ) ≤ 302 by norm_num)
      rw [div_le_iff₀ hw0]
      exact mul_le_mul_of_nonneg_left (by linarith) hp.le

/-- Sums of logarithms of entries. -/
theorem log_sum (hL : A.LogAccurate) (hS : A.SumAccurate) {ε : ℝ} (hε0 : 0 ≤ ε) (hε : ε ≤ 1 / 100) {f g : Flt → Flt} {l : List Flt} (hl : l.length ≤ 2 ^ 20)
    (h : ∀ x ∈ l, RelClose ε (f x) (g x) ∧ ∃ w, g x = .fin w ∧ 2 ^ (-302 : ℤ) ≤ w ∧ w ≤ 2 ^ (302 : ℤ)) :
    ∃ t T, A.sum ((l.map f).map fun x => A.log x.abs) = .fin t ∧ A.Machine (.fin t) ∧ Flt.sum ((l.map g).map fun x => x.abs.log) = .fin T ∧
      |T| ≤ l.length * 210 ∧ |t - T| ≤ l.length * (2 * ε + 425 * Arith.uRound + l.length * (425 * Arith.uRound)) := by
  have hu := Arith.uRound_pos
  have hu' : Arith.uRound ≤ 1 / 100000 := Arith.uRound_le.trans (by norm_num)
  have key : ∃ ts Ts : List ℝ, (l.map f).map (fun x => A.log x.abs) = ts.map .fin ∧ (l.map g).map (fun x => x.abs.log) = Ts.map .fin ∧
      ts.length = l.length ∧ Ts.length = l.length ∧ (∀ x ∈ ts, A.Machine (.fin x) ∧ |x| ≤ 212) ∧ |Ts.sum| ≤ l.length * 210 ∧
      |ts.sum - Ts.sum| ≤ l.length * (2 * ε + 425 * Arith.uRound) := by
    clear hl
    induction l with
    | nil => exact ⟨[], [], rfl, rfl, rfl, rfl, by simp, by simp, by simp⟩
    | cons x l ih =>
      obtain ⟨ts, Ts, a1, a2, a3, a4, a5, a6, a7⟩ := ih fun y hy => h y (by simp [hy])
      obtain ⟨hr, w, hw, w1, w2⟩ := h x (by simp)
      obtain ⟨t, b1, b2, b3, b4, b5⟩ := log_entry hL hε0 hε w1 w2 hw hr
      refine ⟨t :: ts, Real.log w :: Ts, ?_, ?_, by simp [a3], by simp [a4], ?_, ?_, ?_⟩
      · simp only [List.map_cons, b1]; rw [a1]
      · simp only [List.map_cons, b3]; rw [a2]
      · intro y hy
        rcases List.mem_cons.mp hy with rfl | hy
        · refine ⟨b2, ?_⟩
          have := abs_add_le (y - Real.log w) (Real.log w)
          rw [sub_add_cancel] at this
          linarith
        · exact a5 y hy
      · simp only [List.sum_cons, List.length_cons, Nat.cast_add, Nat.cast_one]
        refine (abs_add_le _ _).trans ?_
        linarith
      · simp only [List.sum_cons, List.length_cons, Nat.cast_add, Nat.cast_one]
        rw [show t + ts.sum - (Real.log w + Ts.sum) = (t - Real.log w) + (ts.sum - Ts.sum) by ring]
        refine (abs_add_le _ _).trans ?_
        linarith
  obtain ⟨ts, Ts, a1, a2, a3, a4, a5, a6, a7⟩ := key
  have h212 : (212 : ℝ) ≤ 2 ^ (900 : ℤ) := le_trans (by norm_num) (Arith.small_zpow (show (8 : ℤ) ≤ 900 by norm_num))
  obtain ⟨t, c1, c2, c3⟩ := hS.sum ts (by rw [a3]; exact hl) fun x hx => ⟨(a5 x hx).1, (a5 x hx).2.trans h212⟩
  have c4 := Arith.sum_abs_le fun x hx => (a5 x hx).2
  refine ⟨t, Ts.sum, by rw [a1, c1], c2, by rw [a2, Flt.sum_fin], a6, ?_⟩
  rw [Arith.uRound_val2, a3] at c3
  rw [a3] at c4
  have n0 : (0:ℝ) ≤ l.length := Nat.cast_nonneg _
  generalize (l.length : ℝ) = n at *
  have c5 : n * (2 * Arith.uRound) * (ts.map fun x => |x|).sum ≤ n * (2 * Arith.uRound) * (n * 212) := mul_le_mul_of_nonneg_left c4 (by positivity)
  have c6 : |t - Ts.sum| ≤ |t - ts.sum| + |ts.sum - Ts.sum| := by
    have := abs_add_le (t - ts.sum) (ts.sum - Ts.sum)
    rwa [sub_add_sub_cancel] at this
  have c7 : 0 ≤ n * (n * Arith.uRound) := by positivity
  linarith [show n * (2 * ε + 425 * Arith.uRound + n * (425 * Arith.uRound)) = n * (2 * ε + 425 * Arith.uRound) + 425 * (n * (n * Arith.uRound)) by ring,
    show n * (2 * Arith.uRound) * (n * 212) = 424 * (n * (n * Arith.uRound)) by ring]

/-- Adding one member's log determinant. -/
theorem add_member (hB : A.Accurate) {ε t T d D n m k j : ℝ} (hε : ε ≤ 1 / 100) (hn : 0 ≤ n) (hm : 0 ≤ m) (hk : 0 ≤ k) (hj : 0 ≤ j)
    (hnm : n + m ≤ 2 ^ 20) (hkj : k + j ≤ 2 ^ 20)
    (htm : A.Machine (.fin t)) (hdm : A.Machine (.fin d)) (hT : |T| ≤ n * 210) (hD : |D| ≤ k * 210)
    (ht : |t - T| ≤ n * (2 * ε + 425 * Arith.uRound + (n + m) * (425 * Arith.uRound)))
    (hd : |d - D| ≤ k * (2 * ε + 425 * Arith.uRound + (k + j) * (425 * Arith.uRound))) :
    ∃ z, A.add (.fin t) (.fin d) = .fin z ∧ |T + D| ≤ (n + k) * 210 ∧
      |z - (T + D)| ≤ (n + k) * (2 * ε + 425 * Arith.uRound + (n + k + (m + (j + 1))) * (425 * Arith.uRound)) := by
  have hu := Arith.uRound_pos
  have hTD : |T + D| ≤ (n + k) * 210 := (abs_add_le _ _).trans (by linarith)
  have hsmall : ∀ q : ℝ, 0 ≤ q → q ≤ 2 ^ 20 → q * (425 * Arith.uRound) ≤ 1 := fun q h0 h1 => by
    calc q * (425 * Arith.uRound) ≤ 2 ^ 20 * (425 * (1 / 2 ^ 50)) := mul_le_mul h1 (by linarith [Arith.uRound_le]) (by positivity) (by norm_num)
      _ ≤ 1 := by norm_num
  have h425 : 425 * Arith.uRound ≤ 1 := by linarith [hsmall 1 (by norm_num) (by norm_num)]
  have ht' : |t - T| ≤ n * 3 := ht.trans (mul_le_mul_of_nonneg_left (by linarith [hsmall _ (add_nonneg hn hm) hnm]) hn)
  have hd' : |d - D| ≤ k * 3 := hd.trans (mul_le_mul_of_nonneg_left (by linarith [hsmall _ (add_nonneg hk hj) hkj]) hk)
  have htd : |t + d| ≤ (n + k) * 213 := by
    have := abs_add_le (T + D) ((t - T) + (d - D))
    have h2 := abs_add_le (t - T) (d - D)
    rw [show T + D + (t - T + (d - D)) = t + d by ring] at this
    linarith
  obtain ⟨z, z1, z2⟩ := hB.add_rel htm hdm (by
    have e1 : (n + k) * 213 ≤ 2 ^ 40 := by linarith
    refine htd.trans (e1.trans ?_)
    exact le_trans (by norm_num) (Arith.small_zpow (show (40 : ℤ) ≤ 1010 by norm_num)))
  refine ⟨z, z1, hTD, ?_⟩
  have h1 : |z - (T + D)| ≤ |z - (t + d)| + |t - T| + |d - D| := by
    have e1 := abs_add_le (z - (t + d)) (t - T)
    have e2 := abs_add_le (z - (t + d) + (t - T)) (d - D)
    rw [show z - (t + d) + (t - T) + (d - D) = z - (T + D) by ring] at e2
    linarith
  have h2 : Arith.uRound * |t + d| ≤ Arith.uRound * ((n + k) * 213) := mul_le_mul_of_nonneg_left htd hu.le
  have p1 : 0 ≤ n * k * Arith.uRound := by positivity
  have p2 : 0 ≤ n * j * Arith.uRound := by positivity
  have p3 : 0 ≤ k * m * Arith.uRound := by positivity
  have p4 : 0 ≤ n * Arith.uRound := by positivity
  have p5 : 0 ≤ k * Arith.uRound := by positivity
  have e : (n + k) * (2 * ε + 425 * Arith.uRound + (n + k + (m + (j + 1))) * (425 * Arith.uRound)) =
      n * (2 * ε + 425 * Arith.uRound + (n + m) * (425 * Arith.uRound)) + k * (2 * ε + 425 * Arith.uRound + (k + j) * (425 * Arith.uRound)) +
      850 * (n * k * Arith.uRound) + 425 * (n * j * Arith.uRound) + 425 * (k * m * Arith.uRound) + 425 * (n * Arith.uRound) + 425 * (k * Arith.uRound) := by
    ring
  linarith [show Arith.uRound * ((n + k) * 213) = 213 * (n * Arith.uRound) + 213 * (k * Arith.uRound) by ring]

theorem log_free_tree (hA : A.Sane) (hB : A.Accurate) (hL : A.LogAccurate) (hS : A.SumAccurate) {B : ℝ} (p : Pattern) :
    p.WF → NumericDicts p → Moderate A p → p.flatLen false + members p ≤ 2 ^ 20 → ∀ V, Inside A B p V →
      ∃ t T, p.logAbsDetFreeingA A V = .ok (.fin t) ∧ A.Machine (.fin t) ∧ p.logAbsDetFreeing V = .ok (.fin T) ∧ |T| ≤ (p.flatLen false : ℝ) * 210 ∧
        |t - T| ≤ (p.flatLen false : ℝ) * (2 * (7 * Arith.uRound) + 425 * Arith.uRound + ((p.flatLen false : ℝ) + (members p : ℝ)) * (425 * Arith.uRound)) := by
  have hε0 : 0 ≤ (7 * Arith.uRound) := by have := Arith.uRound_pos; positivity
  have hε : (7 * Arith.uRound) ≤ 1 / 100 := by
    have := Arith.uRound_le
    linarith
  generalize hE : (7 * Arith.uRound) = ε at *
  induction p using Pattern.ind (Q := fun es => WFEs es → NumericDictsEs es → ModerateEs A es → ∀ vs, InsideEs A B es vs →
      ∀ (t T : ℝ) (n m : ℕ), n + m + (flatLenEs es false + membersEs es) ≤ 2 ^ 20 → A.Machine (.fin t) → |T| ≤ (n : ℝ) * 210 →
      |t - T| ≤ (n : ℝ) * (2 * ε + 425 * Arith.uRound + ((n : ℝ) + (m : ℝ)) * (425 * Arith.uRound)) →
      ∃ z Z, logAbsDetFreeingAEs A es vs (.fin t) = .ok (.fin z) ∧ A.Machine (.fin z) ∧ logAbsDetFreeingEs es vs (.fin T) = .ok (.fin Z) ∧
        |Z| ≤ ((n + flatLenEs es false : ℕ) : ℝ) * 210 ∧
        |z - Z| ≤ ((n + flatLenEs es false : ℕ) : ℝ) * (2 * ε + 425 * Arith.uRound +
          (((n + flatLenEs es false : ℕ) : ℝ) + ((m + membersEs es : ℕ) : ℝ)) * (425 * Arith.uRound))) with
  | hnum c s lb ub dv fd =>
    intro hw _ hm hlen V hV
    cases V with
    | dict d => simp [Inside] at hV
    | arr a =>
      simp only [Inside] at hV
      simp only [flatLen, members] at hlen ⊢
      obtain ⟨t, T, h1, h2, h3, h4, h5⟩ := log_sum hL hS hε0 hε (f := unconstrainJac1A A lb.toFlt ub.toFlt) (g := unconstrainJac1 lb.toFlt ub.toFlt)
        (l := a.data) (by rw [hV.2.1]; omega) (fun x hx => by
          obtain ⟨v, rfl, g1, g2, g3, g4⟩ := hV.2.2 x hx
          refine ⟨?_, ?_⟩
          · rw [← hE, ← Arith.uRound_val]
            exact freeJac_entry hA hB hw hm g1 g2 g3 g4
          · exact (exact_sizes hw hm g2 g3 g4).1)
      rw [hV.2.1] at h4 h5
      refine ⟨t, T, ?_, h2, ?_, h4, by simpa using h5⟩
      · simp only [logAbsDetFreeingA, Val.asArr, bind, Except.bind, pure, Except.pure, Numeric.logAbsDetFreeingA]
        rw [← h1]
      · simp only [logAbsDetFreeing, Val.asArr, bind, Except.bind, pure, Except.pure, Numeric.logAbsDetFreeing]
        rw [← h3]
  | hsim k s dv fd => intro _ h; simp [NumericDicts] at h
  | hpsd n lb dv fd => intro _ h; simp [NumericDicts] at h
  | harr s b fd ih => intro _ h; simp [NumericDicts] at h
  | hdict es ld fd ih =>
    intro hw hn hm hlen V hV
    cases V with
    | arr a => simp [Inside] at hV
    | dict vs =>
      simp only [Pattern.WF] at hw
      simp only [NumericDicts] at hn
      simp only [Moderate] at hm
      simp only [Inside] at hV
      simp only [flatLen, members] at hlen ⊢
      obtain ⟨z, Z, h1, h2, h3, h4, h5⟩ := ih hw.2 hn hm vs hV 0 0 0 0 (by omega) hA.zero_machine (by simp) (by simp)
      refine ⟨z, Z, ?_, h2, ?_, by simpa using h4, by simpa using h5⟩
      · simp only [logAbsDetFreeingA, Val.asDict, bind, Except.bind, Arith.zero_flt]; exact h1
      · simp only [logAbsDetFreeing, Val.asDict, bind, Except.bind, Arith.zero_flt]; exact h3
  | hnil hw hn hm vs hV t T n m hlen htm hT ht =>
    exact ⟨t, T, rfl, htm, rfl, by simpa [flatLenEs] using hT, by simpa [flatLenEs, membersEs] using ht⟩
  | hcons k p rest ihp ihr hw hn hm vs hV t T n m hlen htm hT ht =>
    simp only [WFEs] at hw
    simp only [NumericDictsEs] at hn
    simp only [ModerateEs] at hm
    simp only [InsideEs] at hV
    simp only [flatLenEs, membersEs] at hlen ⊢
    obtain ⟨⟨v, hl, hv⟩, hV⟩ := hV
    obtain ⟨d, D, d1, d2, d3, d4, d5⟩ := ihp hw.1 hn.1 hm.1 (by omega) v hv
    have hc1 : ((n : ℝ)) + (m : ℝ) ≤ 2 ^ 20 := by
      have : n + m ≤ 2 ^ 20 := by omega
      exact_mod_cast this
    have hc2 : ((p.flatLen false : ℕ) : ℝ) + ((members p : ℕ) : ℝ) ≤ 2 ^ 20 := by
      have : p.flatLen false + members p ≤ 2 ^ 20 := by omega
      exact_mod_cast this
    obtain ⟨z, z1, z2, z3⟩ := add_member hB hε (Nat.cast_nonneg n) (Nat.cast_nonneg m) (Nat.cast_nonneg _) (Nat.cast_nonneg _) hc1 hc2 htm d2 hT d4 ht d5
    have hzm : A.Machine (.fin z) := by
      rw [Arith.add, add_fin] at z1
      exact Arith.rnd_machine hA z1
    obtain ⟨y, Y, y1, y2, y3, y4, y5⟩ := ihr hw.2.2 hn.2 hm.2 vs hV z (T + D) (n + p.flatLen false) (m + (members p + 1)) (by omega) hzm
      (by push_cast; exact z2) (by push_cast; linarith)
    refine ⟨y, Y, ?_, y2, ?_, ?_, ?_⟩
    · simp only [logAbsDetFreeingAEs, hl, bind, Except.bind, d1, z1, y1]
    · simp only [logAbsDetFreeingEs, hl, bind, Except.bind, d3, add_fin, y3]
    · rw [← Nat.add_assoc]; exact y4
    · rw [← Nat.add_assoc, ← Nat.add_assoc]; exact y5

theorem log_unfree_tree (hA : A.Sane) (hB : A.Accurate) (hL : A.LogAccurate) (hS : A.SumAccurate) {B κ : ℝ} (hκ : 0 ≤ κ) (hκ2 : κ ≤ 2 ^ 40) (p : Pattern) :
    p.WF → NumericDicts p → Moderate A p → p.flatLen false + members p ≤ 2 ^ 20 → ∀ V, Inside A B p V → Clear κ p V →
      ∃ t T, p.logAbsDetUnfreeingA A V = .ok (.fin t) ∧ A.Machine (.fin t) ∧ p.logAbsDetUnfreeing V = .ok (.fin T) ∧ |T| ≤ (p.flatLen false : ℝ) * 210 ∧
        |t - T| ≤ (p.flatLen false : ℝ) * (2 * ((2600 + 10 * κ) * Arith.uRound) + 425 * Arith.uRound + ((p.flatLen false : ℝ) + (members p : ℝ)) * (425 * Arith.uRound)) := by
  have hε0 : 0 ≤ ((2600 + 10 * κ) * Arith.uRound) := by have := Arith.uRound_pos; positivity
  have hε : ((2600 + 10 * κ) * Arith.uRound) ≤ 1 / 100 := by
    have h1 : (2600 + 10 * κ) * Arith.uRound ≤ (2600 + 10 * 2 ^ 40) * (1 / 2 ^ 53) := mul_le_mul (by linarith) le_rfl Arith.uRound_pos.le (by norm_num)
    exact h1.trans (by norm_num)
  generalize hE : ((2600 + 10 * κ) * Arith.uRound) = ε at *
  induction p using Pattern.ind (Q := fun es => WFEs es → NumericDictsEs es → ModerateEs A es → ∀ vs, InsideEs A B es vs → ClearEs κ es vs →
      ∀ (t T : ℝ) (n m : ℕ), n + m + (flatLenEs es false + membersEs es) ≤ 2 ^ 20 → A.Machine (.fin t) → |T| ≤ (n : ℝ) * 210 →
      |t - T| ≤ (n : ℝ) * (2 * ε + 425 * Arith.uRound + ((n : ℝ) + (m : ℝ)) * (425 * Arith.uRound)) →
      ∃ z Z, logAbsDetUnfreeingAEs A es vs (.fin t) = .ok (.fin z) ∧ A.Machine (.fin z) ∧ logAbsDetUnfreeingEs es vs (.fin T) = .ok (.fin Z) ∧
        |Z| ≤ ((n + flatLenEs es false : ℕ) : ℝ) * 210 ∧
        |z - Z| ≤ ((n + flatLenEs es false : ℕ) : ℝ) * (2 * ε + 425 * Arith.uRound +
          (((n + flatLenEs es false : ℕ) : ℝ) + ((m + membersEs es : ℕ) : ℝ)) * (425 * Arith.uRound))) with
  | hnum c s lb ub dv fd =>
    intro hw _ hm hlen V hV hC
    cases V with
    | dict d => simp [Inside] at hV
    | arr a =>
      simp only [Inside] at hV
      simp only [Clear] at hC
      simp only [flatLen, members] at hlen ⊢
      obtain ⟨t, T, h1, h2, h3, h4, h5⟩ := log_sum hL hS hε0 hε (f := fun x => constrainJac1A A lb.toFlt ub.toFlt (unconstrain1A A lb.toFlt ub.toFlt x)) (g := fun x => constrainJac1 lb.toFlt ub.toFlt (unconstrain1 lb.toFlt ub.toFlt x))
        (l := a.data) (by rw [hV.2.1]; omega) (fun x hx => by
          obtain ⟨v, rfl, g1, g2, g3, g4⟩ := hV.2.2 x hx
          refine ⟨?_, ?_⟩
          · rw [← hE, ← Arith.uRound_val]
            exact unfreeJac_entry hA hB hL hw hm hκ g1 g2 g3 g4 fun l u e1 e2 => hC l u v e1 e2 hx
          · exact (exact_sizes hw hm g2 g3 g4).2)
      rw [hV.2.1] at h4 h5
      refine ⟨t, T, ?_, h2, ?_, h4, by simpa using h5⟩
      · simp only [logAbsDetUnfreeingA, Val.asArr, bind, Except.bind, pure, Except.pure, Numeric.logAbsDetUnfreeingA]
        rw [← h1]
        simp only [List.map_map, Function.comp_def]
      · simp only [logAbsDetUnfreeing, Val.asArr, bind, Except.bind, pure, Except.pure, Numeric.logAbsDetUnfreeing]
        rw [← h3]
        simp only [List.map_map, Function.comp_def]
  | hsim k s dv fd => intro _ h; simp [NumericDicts] at h
  | hpsd n lb dv fd => intro _ h; simp [NumericDicts] at h
  | harr s b fd ih => intro _ h; simp [NumericDicts] at h
  | hdict es ld fd ih =>
    intro hw hn hm hlen V hV hC
    cases V with
    | arr a => simp [Inside] at hV
    | dict vs =>
      simp only [Pattern.WF] at hw
      simp only [NumericDicts] at hn
      simp only [Moderate] at hm
      simp only [Inside] at hV
      simp only [Clear] at hC
      simp only [flatLen, members] at hlen ⊢
      obtain ⟨z, Z, h1, h2, h3, h4, h5⟩ := ih hw.2 hn hm vs hV hC 0 0 0 0 (by omega) hA.zero_machine (by simp) (by simp)
      refine ⟨z, Z, ?_, h2, ?_, by simpa using h4, by simpa using h5⟩
      · simp only [logAbsDetUnfreeingA, Val.asDict, bind, Except.bind, Arith.zero_flt]; exact h1
      · simp only [logAbsDetUnfreeing, Val.asDict, bind, Except.bind, Arith.zero_flt]; exact h3
  | hnil hw hn hm vs hV hC t T n m hlen htm hT ht =>
    exact ⟨t, T, rfl, htm, rfl, by simpa [flatLenEs] using hT, by simpa [flatLenEs, membersEs] using ht⟩
  | hcons k p rest ihp ihr hw hn hm vs hV hC t T n m hlen htm hT ht =>
    simp only [WFEs] at hw
    simp only [NumericDictsEs] at hn
    simp only [ModerateEs] at hm
    simp only [InsideEs] at hV
    simp only [ClearEs] at hC
    simp only [flatLenEs, membersEs] at hlen ⊢
    obtain ⟨⟨v, hl, hv⟩, hV⟩ := hV
    obtain ⟨d, D, d1, d2, d3, d4, d5⟩ := ihp hw.1 hn.1 hm.1 (by omega) v hv (hC.1 v hl)
    have hc1 : ((n : ℝ)) + (m : ℝ) ≤ 2 ^ 20 := by
      have : n + m ≤ 2 ^ 20 := by omega
      exact_mod_cast this
    have hc2 : ((p.flatLen false : ℕ) : ℝ) + ((members p : ℕ) : ℝ) ≤ 2 ^ 20 := by
      have : p.flatLen false + members p ≤ 2 ^ 20 := by omega
      exact_mod_cast this
    obtain ⟨z, z1, z2, z3⟩ := add_member hB hε (Nat.cast_nonneg n) (Nat.cast_nonneg m) (Nat.cast_nonneg _) (Nat.cast_nonneg _) hc1 hc2 htm d2 hT d4 ht d5
    have hzm : A.Machine (.fin z) := by
      rw [Arith.add, add_fin] at z1
      exact Arith.rnd_machine hA z1
    obtain ⟨y, Y, y1, y2, y3, y4, y5⟩ := ihr hw.2.2 hn.2 hm.2 vs hV hC.2 z (T + D) (n + p.flatLen false) (m + (members p + 1)) (by omega) hzm
      (by push_cast; exact z2) (by push_cast; linarith)
    refine ⟨y, Y, ?_, y2, ?_, ?_, ?_⟩
    · simp only [logAbsDetUnfreeingAEs, hl, bind, Except.bind, d1, z1, y1]
    · simp only [logAbsDetUnfreeingEs, hl, bind, Except.bind, d3, add_fin, y3]
    · rw [← Nat.add_assoc]; exact y4
    · rw [← Nat.add_assoc, ← Nat.add_assoc]; exact y5

/-! ### Without rounding -/

theorem exact_jacobians (ad : AutogradJacobian) (p : Pattern) : ∀ V,
    p.freeingJacobianA Arith.exact (freeingJacobian ad) V = p.freeingJacobian ad V ∧
    p.unfreeingJacobianA Arith.exact (unfreeingJacobian ad) V = p.unfreeingJacobian ad V ∧
    p.logAbsDetFreeingA Arith.exact V = p.logAbsDetFreeing V ∧ p.logAbsDetUnfreeingA Arith.exact V = p.logAbsDetUnfreeing V := by
  have hj : ∀ lb ub, unconstrainJac1A Arith.exact lb ub = unconstrainJac1 lb ub := by
    intro lb ub; funext x; simp only [unconstrainJac1A, unconstrainJac1, Arith.exact_add, Arith.exact_sub, Arith.exact_div]
  have hu : ∀ lb ub, unconstrain1A Arith.exact lb ub = unconstrain1 lb ub := by
    intro lb ub; funext x; simp only [unconstrain1A, unconstrain1, Arith.exact_mul, Arith.exact_sub]; rfl
  have hc : ∀ lb ub, constrainJac1A Arith.exact lb ub = constrainJac1 lb ub := by
    intro lb ub; funext x; simp only [constrainJac1A, constrainJac1, Arith.exact_add, Arith.exact_sub, Arith.exact_div, Arith.exact_mul]; rfl
  have hs : Simplex.unconstrainJacobianA Arith.exact = Simplex.unconstrainJacobian := by
    funext q; simp only [Simplex.unconstrainJacobianA, Simplex.unconstrainJacobian, Arith.exact_div]
  have ht : Simplex.constrainJacobianA Arith.exact = Simplex.constrainJacobian := by
    funext q; simp only [Simplex.constrainJacobianA, Simplex.constrainJacobian, Arith.exact_mul, Arith.exact_add]
  induction p using Pattern.ind (Q := fun es => ∀ vs,
      freeingJacobianAEs Arith.exact (freeingJacobian ad) es vs = freeingJacobianEs ad es vs ∧
      unfreeingJacobianAEs Arith.exact (unfreeingJacobian ad) es vs = unfreeingJacobianEs ad es vs ∧
      (∀ t, logAbsDetFreeingAEs Arith.exact es vs t = logAbsDetFreeingEs es vs t) ∧
      ∀ t, logAbsDetUnfreeingAEs Arith.exact es vs t = logAbsDetUnfreeingEs es vs t) with
  | hnum c s lb ub dv fd =>
    intro V
    simp only [freeingJacobianA, freeingJacobian, unfreeingJacobianA, unfreeingJacobian, logAbsDetFreeingA, logAbsDetFreeing, logAbsDetUnfreeingA, logAbsDetUnfreeing,
      Numeric.freeingJacobianA, Numeric.freeingJacobian, Numeric.unfreeingJacobianA, Numeric.unfreeingJacobian, Numeric.logAbsDetFreeingA, Numeric.logAbsDetFreeing,
      Numeric.logAbsDetUnfreeingA, Numeric.logAbsDetUnfreeing, hj, hu, hc]
    exact ⟨trivial, trivial, rfl, rfl⟩
  | hsim k s dv fd =>
    intro V
    simp only [freeingJacobianA, freeingJacobian, unfreeingJacobianA, unfreeingJacobian, logAbsDetFreeingA, logAbsDetFreeing, logAbsDetUnfreeingA, logAbsDetUnfreeing,
      hs, ht, and_self]
  | hpsd n lb dv fd =>
    intro V
    simp only [freeingJacobianA, unfreeingJacobianA, logAbsDetFreeingA, logAbsDetFreeing, logAbsDetUnfreeingA, logAbsDetUnfreeing, and_self]
  | harr s b fd ih =>
    intro V
    simp only [freeingJacobianA, freeingJacobian, unfreeingJacobianA, unfreeingJacobian, logAbsDetFreeingA, logAbsDetFreeing, logAbsDetUnfreeingA, logAbsDetUnfreeing,
      (ih _).1, (ih _).2.1, and_self]
  | hdict es l fd ih =>
    intro V
    simp only [freeingJacobianA, freeingJacobian, unfreeingJacobianA, unfreeingJacobian, logAbsDetFreeingA, logAbsDetFreeing, logAbsDetUnfreeingA, logAbsDetUnfreeing,
      (ih _).1, (ih _).2.1, (ih _).2.2.1, (ih _).2.2.2, and_self]
  | hnil vs =>
    simp only [freeingJacobianAEs, freeingJacobianEs, unfreeingJacobianAEs, unfreeingJacobianEs, logAbsDetFreeingAEs, logAbsDetFreeingEs, logAbsDetUnfreeingAEs,
      logAbsDetUnfreeingEs, and_self, implies_true]
  | hcons k p r ihp ihr vs =>
    have h1 := fun v => (ihp v).1
    have h2 := fun v => (ihp v).2.1
    have h3 := fun v => (ihp v).2.2.1
    have h4 := fun v => (ihp v).2.2.2
    obtain ⟨r1, r2, r3, r4⟩ := ihr vs
    simp only [freeingJacobianAEs, freeingJacobianEs, unfreeingJacobianAEs, unfreeingJacobianEs, logAbsDetFreeingAEs, logAbsDetFreeingEs, logAbsDetUnfreeingAEs,
      logAbsDetUnfreeingEs, h1, h2, h3, h4, r1, r2, r3, r4, Arith.exact_add]
    exact ⟨rfl, rfl, fun _ => rfl, fun _ => rfl⟩

/-! ### Near the upper bound -/

theorem mul_machine (hA : A.Sane) {x y : Flt} {z : ℝ} (h : A.mul x y = .fin z) : A.Machine (.fin z) := by
  cases hxy : x * y with
  | fin r => rw [Arith.mul, hxy] at h; exact Arith.rnd_machine hA h
  | _ => rw [Arith.mul, hxy] at h; simp [Arith.round] at h

theorem abs_log_small {x : ℝ} {e : ℕ} (he : e ≤ 2000) (h1 : 2 ^ (-(e : ℤ)) ≤ x) (h2 : x ≤ 2 ^ (e : ℤ)) : |Real.log x| ≤ 2000 := by
  have h0 : 0 < x := lt_of_lt_of_le (two_zpow_pos _) h1
  have a1 := Real.log_le_log (two_zpow_pos _) h1
  have a2 := Real.log_le_log h0 h2
  rw [Real.log_zpow] at a1 a2
  have hl := Real.log_two_lt_d9
  have hl0 : 0 < Real.log 2 := Real.log_pos (by norm_num)
  have he' : (e : ℝ) ≤ 2000 := by exact_mod_cast he
  have a3 : (e : ℝ) * Real.log 2 ≤ 2000 * 1 := mul_le_mul he' (by linarith) hl0.le (by norm_num)
  push_cast at a1 a2
  rw [abs_le]
  constructor <;> linarith

/-- The logarithm of a computed derivative. -/
theorem log_derivative (hA : A.Sane) (hB : A.Accurate) (hL : A.LogAccurate) {a b v : ℝ} (ha : A.Machine (.fin a)) (hb : A.Machine (.fin b))
    (hv : A.Machine (.fin v)) (ha' : |a| ≤ 2 ^ (300 : ℤ)) (hb' : |b| ≤ 2 ^ (300 : ℤ)) (hv' : |v| ≤ 2 ^ (300 : ℤ))
    (hp : 2 ^ (-300 : ℤ) ≤ v - a) (hq : 2 ^ (-300 : ℤ) ≤ b - v) :
    A.log (constrainJac1A A (.fin a) (.fin b) (unconstrain1A A (.fin a) (.fin b) (.fin v))).abs = .ninf ∨
    ∃ r, A.log (constrainJac1A A (.fin a) (.fin b) (unconstrain1A A (.fin a) (.fin b) (.fin v))).abs = .fin r ∧ A.Machine (.fin r) ∧ |r| ≤ 2 ^ (900 : ℤ) := by
  obtain ⟨z, z1, -, z3⟩ := Arith.two_sided_unfreeJac hA hB hL ha hb hv ha' hb' hv' hp hq
  have hzm : A.Machine (.fin z) := by
    refine mul_machine hA (x := ?_) (y := ?_) ?_
    case refine_3 =>
      rw [← z1, constrainJac1A]
      simp only [Flt.eq, Bool.false_eq_true, if_false]
      rfl
  have hp0 : 0 < v - a := lt_of_lt_of_le (two_zpow_pos _) hp
  have hq0 : 0 < b - v := lt_of_lt_of_le (two_zpow_pos _) hq
  have hw0 : 0 < b - a := by linarith
  have hs := Arith.size_sub' ha' hv'
  have hs' := Arith.size_sub' hv' hb'
  rw [abs_of_pos hp0] at hs
  rw [abs_of_pos hq0] at hs'
  have l1 : |Real.log (v - a)| ≤ 2000 := abs_log_small (e := 301) (by norm_num) (Arith.dn_zpow hp (by norm_num)) hs
  have l2 : |Real.log (b - v)| ≤ 2000 := abs_log_small (e := 301) (by norm_num) (Arith.dn_zpow hq (by norm_num)) hs'
  have hJ0 : 0 ≤ (v - a) * (b - v) / (b - a) := by positivity
  have hJ1 : (v - a) * (b - v) / (b - a) ≤ v - a := by
    rw [div_le_iff₀ hw0]
    exact mul_le_mul_of_nonneg_left (by linarith) hp0.le
  have hu := Arith.uRound_pos
  have hu' : Arith.uRound ≤ 1 / 100000 := Arith.uRound_le.trans (by norm_num)
  have hz : |z| ≤ 2 ^ (302 : ℤ) := by
    have b1 : (6 * |Real.log (v - a)| + 6 * |Real.log (b - v)| + 42) * ((v - a) * (b - v) / (b - a)) ≤ 24042 * (v - a) :=
      mul_le_mul (by linarith) hJ1 hJ0 (by norm_num)
    have b2 : Arith.uRound * ((6 * |Real.log (v - a)| + 6 * |Real.log (b - v)| + 42) * ((v - a) * (b - v) / (b - a)) + 10 * (v - a)) ≤
        1 / 100000 * (24052 * (v - a)) :=
      mul_le_mul hu' (by linarith) (by positivity) (by norm_num)
    have b3 := abs_add_le (z - (v - a) * (b - v) / (b - a)) ((v - a) * (b - v) / (b - a))
    rw [sub_add_cancel, abs_of_nonneg hJ0] at b3
    exact Arith.double_zpow (e := 301) hs (by linarith)
  rw [z1]
  have habs : (Flt.fin z).abs = .fin |z| := rfl
  rw [habs]
  rcases eq_or_ne z 0 with rfl | hne
  · left; rw [abs_zero]; exact hL.zero
  · right
    have hpos : 0 < |z| := abs_pos.mpr hne
    have hm : A.Machine (.fin |z|) := by
      rcases abs_choice z with h | h <;> rw [h]
      · exact hzm
      · exact hA.neg _ hzm
    have hlow := Arith.machine_pos hB hm hpos
    have hup : |z| < overflow64 := lt_of_le_of_lt hz (by
      unfold overflow64
      exact zpow_lt_zpow_right₀ (by norm_num) (by norm_num))
    obtain ⟨r, r1, r2⟩ := hL.log |z| hlow hup
    refine ⟨r, r1, r1 ▸ hL.machine _, ?_⟩
    have l3 : |Real.log (|z|)| ≤ 2000 := abs_log_small (e := 1074) (by norm_num) hlow (Arith.up_zpow hz (by norm_num))
    have r3 := abs_add_le (r - Real.log |z|) (Real.log |z|)
    rw [sub_add_cancel] at r3
    have t1 : (2:ℝ) ^ (-52 : ℤ) ≤ 1 := zpow_le_one_of_nonpos₀ (by norm_num) (by norm_num)
    have t2 : (2:ℝ) ^ (-1074 : ℤ) ≤ 1 := zpow_le_one_of_nonpos₀ (by norm_num) (by norm_num)
    have t3 := mul_le_of_le_one_left (abs_nonneg (Real.log (|z|))) t1
    have t4 : (8192 : ℝ) ≤ 2 ^ (900 : ℤ) := le_trans (by norm_num) (Arith.small_zpow (show (13 : ℤ) ≤ 900 by norm_num))
    generalize (2:ℝ) ^ (900 : ℤ) = w at *
    linarith

/-- Every entry of an array of numbers between two bounds. -/
theorem inside_two_sided {c : NumCls} {s : List Nat} {lb ub : PyNum} {dv : Bool} {fd : Option Bool} {B l u : ℝ} (hl : lb.toFlt = .fin l) (hu : ub.toFlt = .fin u)
    (hm : Moderate A (.numeric c s lb ub dv fd)) {a : NDArray Flt} (hV : Inside A B (.numeric c s lb ub dv fd) (.arr a)) :
    (A.Machine (.fin l) ∧ |l| ≤ 2 ^ (300 : ℤ)) ∧ (A.Machine (.fin u) ∧ |u| ≤ 2 ^ (300 : ℤ)) ∧
      ∀ v, Flt.fin v ∈ a.data → A.Machine (.fin v) ∧ |v| ≤ 2 ^ (300 : ℤ) ∧ 2 ^ (-300 : ℤ) ≤ v - l ∧ 2 ^ (-300 : ℤ) ≤ u - v := by
  simp only [Moderate] at hm
  simp only [Inside] at hV
  refine ⟨hm.1 l hl, hm.2.1 u hu, fun v hv => ?_⟩
  obtain ⟨w, e, g1, g2, g3, g4⟩ := hV.2.2 _ hv
  cases e
  exact ⟨g1, g2, g3 l hl, g4 u hu⟩

/-! ### The claims -/

/-- **C118, without rounding.**  In exact arithmetic the rounded functions are those of the exact model. -/
theorem C118_exact (ad : AutogradJacobian) (p : Pattern) (V : Val Flt) :
    p.freeingJacobianA Arith.exact (freeingJacobian ad) V = p.freeingJacobian ad V ∧
    p.unfreeingJacobianA Arith.exact (unfreeingJacobian ad) V = p.unfreeingJacobian ad V ∧
    p.logAbsDetFreeingA Arith.exact V = p.logAbsDetFreeing V ∧ p.logAbsDetUnfreeingA Arith.exact V = p.logAbsDetUnfreeing V :=
  exact_jacobians ad p V

/-- **C118, freeing Jacobians.**  `freeing_jacobian` of a value inside a pattern without matrices has the shape of the exact Jacobian, the same zeros, and every
entry within seven roundings of the exact one, relative to its size; it raises what it would raise without rounding. -/
theorem C118_freeing (hA : A.Sane) (hB : A.Accurate) {p : Pattern} (hp : Built p) (hn : NoPSD p) (hm : Moderate A p) {B : ℝ} (hB2 : B ≤ 690) {V : Val Flt}
    (hV : Inside A B p V) (ad : AutogradJacobian) (adA : Pattern → Val Flt → Except Err (NDArray Flt)) :
    SameOr (MatRel (RelClose (7 * 2 ^ (-53 : ℤ)))) (p.freeingJacobianA A adA V) (p.freeingJacobian ad V) :=
  free_tree hA hB hB2 ad adA p hp.wf hn hm V hV

/-- **C118, unfreeing Jacobians.**  `unfreeing_jacobian` likewise, if no value is nearer the upper one of two bounds than one part in `κ` of the interval, and no
probability that near one: every entry is within `2600 + 10 * κ` roundings. -/
theorem C118_unfreeing (hA : A.Sane) (hB : A.Accurate) (hL : A.LogAccurate) {p : Pattern} (hp : Built p) (hn : NoPSD p) (hm : Moderate A p) {B κ : ℝ} (hB2 : B ≤ 340)
    (hκ : 0 ≤ κ) (hκ2 : κ ≤ 2 ^ 40) {V : Val Flt} (hV : Inside A B p V) (hc : Clear κ p V) (ad : AutogradJacobian)
    (adA : Pattern → Val Flt → Except Err (NDArray Flt)) :
    SameOr (MatRel (RelClose ((2600 + 10 * κ) * 2 ^ (-53 : ℤ)))) (p.unfreeingJacobianA A adA V) (p.unfreeingJacobian ad V) :=
  unfree_tree hA hB hL hB2 hκ hκ2 ad adA p hp.wf hn hm V hV hc

/-- **C118, log determinants of freeing Jacobians.**  Of `n` numbers in nested dictionaries with `m` members in all: computed without failure, and near the exact
log determinant. -/
theorem C118_log_freeing (hA : A.Sane) (hB : A.Accurate) (hL : A.LogAccurate) (hS : A.SumAccurate) {p : Pattern} (hp : Built p) (hn : NumericDicts p)
    (hm : Moderate A p) (hlen : p.flatLen false + members p ≤ 2 ^ 20) {B : ℝ} {V : Val Flt} (hV : Inside A B p V) :
    ∃ t T, p.logAbsDetFreeingA A V = .ok (.fin t) ∧ p.logAbsDetFreeing V = .ok (.fin T) ∧
      |t - T| ≤ (p.flatLen false : ℝ) * ((439 + 425 * ((p.flatLen false : ℝ) + members p)) * 2 ^ (-53 : ℤ)) := by
  obtain ⟨t, T, h1, -, h3, -, h5⟩ := log_free_tree hA hB hL hS p hp.wf hn hm hlen V hV
  refine ⟨t, T, h1, h3, h5.trans (le_of_eq ?_)⟩
  rw [Arith.uRound_val]
  ring

/-- **C118, log determinants of unfreeing Jacobians.**  Likewise, for values not too near the upper one of two bounds. -/
theorem C118_log_unfreeing (hA : A.Sane) (hB : A.Accurate) (hL : A.LogAccurate) (hS : A.SumAccurate) {p : Pattern} (hp : Built p) (hn : NumericDicts p)
    (hm : Moderate A p) (hlen : p.flatLen false + members p ≤ 2 ^ 20) {B κ : ℝ} (hκ : 0 ≤ κ) (hκ2 : κ ≤ 2 ^ 40) {V : Val Flt} (hV : Inside A B p V)
    (hc : Clear κ p V) :
    ∃ t T, p.logAbsDetUnfreeingA A V = .ok (.fin t) ∧ p.logAbsDetUnfreeing V = .ok (.fin T) ∧
      |t - T| ≤ (p.flatLen false : ℝ) * ((5625 + 20 * κ + 425 * ((p.flatLen false : ℝ) + members p)) * 2 ^ (-53 : ℤ)) := by
  obtain ⟨t, T, h1, -, h3, -, h5⟩ := log_unfree_tree hA hB hL hS hκ hκ2 p hp.wf hn hm hlen V hV hc
  refine ⟨t, T, h1, h3, h5.trans (le_of_eq ?_)⟩
  rw [Arith.uRound_val]
  ring

/-- **C118, derivatives lost.**  A value inside two bounds, nearer to the upper one than `2 ** -56` of its distance from the lower one: its entry in the computed
`unfreeing_jacobian` is zero, although the derivative is positive. -/
theorem C118_lost (hA : A.Sane) (hB : A.Accurate) (hL : A.LogAccurate) {c : NumCls} {s : List Nat} {lb ub : PyNum} {dv : Bool} {fd : Option Bool} {B l u : ℝ}
    (hl : lb.toFlt = .fin l) (hu : ub.toFlt = .fin u) (hm : Moderate A (.numeric c s lb ub dv fd)) {a : NDArray Flt}
    (hV : Inside A B (.numeric c s lb ub dv fd) (.arr a)) {k : ℕ} {v : ℝ} (hk : a.data[k]? = some (.fin v)) (hfar : 2 ^ (56 : ℤ) * (u - v) ≤ v - l)
    (ad : AutogradJacobian) (adA : Pattern → Val Flt → Except Err (NDArray Flt)) :
    ∃ M N w, (Pattern.numeric c s lb ub dv fd).unfreeingJacobianA A adA (.arr a) = .ok M ∧ (Pattern.numeric c s lb ub dv fd).unfreeingJacobian ad (.arr a) = .ok N ∧
      M.shape = [s.prod, s.prod] ∧ N.shape = [s.prod, s.prod] ∧ entry s.prod M.data k k = .fin 0 ∧ entry s.prod N.data k k = .fin w ∧ 0 < w := by
  obtain ⟨⟨a1, a2⟩, ⟨b1, b2⟩, hin⟩ := inside_two_sided hl hu hm hV
  obtain ⟨c1, c2, c3, c4⟩ := hin v (List.mem_of_getElem? hk)
  simp only [Inside] at hV
  have hks : k < s.prod := by rw [← hV.2.1]; exact (List.getElem?_eq_some_iff.mp hk).1
  obtain ⟨z, -, z2, -⟩ := Arith.two_sided_unfreeJac hA hB hL a1 b1 c1 a2 b2 c2 c3 c4
  have z4 := Arith.two_sided_unfreeJac_lost hA hB hL a1 b1 c1 a2 b2 c2 c3 c4 hfar
  have hp0 : 0 < v - l := lt_of_lt_of_le (two_zpow_pos _) c3
  have hq0 : 0 < u - v := lt_of_lt_of_le (two_zpow_pos _) c4
  have hw0 : 0 < u - l := by linarith
  refine ⟨_, _, (v - l) * (u - v) / (u - l), rfl, rfl, ?_, ?_, ?_, ?_, by positivity⟩
  · simp [Numeric.unfreeingJacobianA, diagMat, ofFn2, hV.2.1]
  · simp [Numeric.unfreeingJacobian, diagMat, ofFn2, hV.2.1]
  · simp only [Numeric.unfreeingJacobianA, diagMat, List.length_map, hV.2.1]
    rw [entry_ofFn2 _ _ _ hks hks, if_pos rfl]
    simp [List.getD_eq_getElem?_getD, hk, hl, hu, z4]
  · simp only [Numeric.unfreeingJacobian, diagMat, List.length_map, hV.2.1]
    rw [entry_ofFn2 _ _ _ hks hks, if_pos rfl]
    simp [List.getD_eq_getElem?_getD, hk, hl, hu, z2]

/-- **C118, log determinants lost.**  With such a value among them `log_abs_det_unfreeing_jacobian` is minus infinity, although the exact one is a number. -/
theorem C118_lost_log (hA : A.Sane) (hB : A.Accurate) (hL : A.LogAccurate) (hS : A.SumAccurate) {c : NumCls} {s : List Nat} {lb ub : PyNum} {dv : Bool}
    {fd : Option Bool} {B l u : ℝ} (hl : lb.toFlt = .fin l) (hu : ub.toFlt = .fin u) (hm : Moderate A (.numeric c s lb ub dv fd)) (hlen : s.prod ≤ 2 ^ 20)
    {a : NDArray Flt} (hV : Inside A B (.numeric c s lb ub dv fd) (.arr a)) {v : ℝ} (hk : Flt.fin v ∈ a.data) (hfar : 2 ^ (56 : ℤ) * (u - v) ≤ v - l) :
    (Pattern.numeric c s lb ub dv fd).logAbsDetUnfreeingA A (.arr a) = .ok .ninf ∧
      ∃ T, (Pattern.numeric c s lb ub dv fd).logAbsDetUnfreeing (.arr a) = .ok (.fin T) := by
  obtain ⟨⟨a1, a2⟩, ⟨b1, b2⟩, hin⟩ := inside_two_sided hl hu hm hV
  simp only [Inside] at hV
  constructor
  · simp only [logAbsDetUnfreeingA, Val.asArr, bind, Except.bind, pure, Except.pure, Numeric.logAbsDetUnfreeingA, hl, hu]
    refine congrArg _ (hS.ninf _ (by simpa [hV.2.1] using hlen) ?_ ?_)
    · intro x hx
      simp only [List.map_map, List.mem_map, Function.comp] at hx
      obtain ⟨y, hy, rfl⟩ := hx
      obtain ⟨w, rfl, -⟩ := hV.2.2 y hy
      obtain ⟨c1, c2, c3, c4⟩ := hin w hy
      exact log_derivative hA hB hL a1 b1 c1 a2 b2 c2 c3 c4
    · simp only [List.map_map, List.mem_map, Function.comp]
      obtain ⟨c1, c2, c3, c4⟩ := hin v hk
      refine ⟨_, hk, ?_⟩
      rw [Arith.two_sided_unfreeJac_lost hA hB hL a1 b1 c1 a2 b2 c2 c3 c4 hfar]
      rw [show (Flt.fin 0).abs = .fin |0| from rfl, abs_zero, hL.zero]
  · have key : ∀ l' : List Flt, (∀ x ∈ l', x ∈ a.data) →
        ∃ Ts : List ℝ, ((l'.map (unconstrain1 (.fin l) (.fin u))).map (constrainJac1 (.fin l) (.fin u))).map (fun x => x.abs.log) = Ts.map .fin := by
      intro l' hl'
      induction l' with
      | nil => exact ⟨[], rfl⟩
      | cons x l' ih =>
        obtain ⟨Ts, hT⟩ := ih fun y hy => hl' y (by simp [hy])
        obtain ⟨w, rfl, -⟩ := hV.2.2 x (hl' _ (by simp))
        obtain ⟨c1, c2, c3, c4⟩ := hin w (hl' _ (by simp))
        obtain ⟨z, -, z2, -⟩ := Arith.two_sided_unfreeJac hA hB hL a1 b1 c1 a2 b2 c2 c3 c4
        have hp0 : 0 < w - l := lt_of_lt_of_le (two_zpow_pos _) c3
        have hq0 : 0 < u - w := lt_of_lt_of_le (two_zpow_pos _) c4
        have hw0 : 0 < u - l := by linarith
        have hJ : 0 < (w - l) * (u - w) / (u - l) := by positivity
        refine ⟨Real.log ((w - l) * (u - w) / (u - l)) :: Ts, ?_⟩
        simp only [List.map_cons, z2, hT]
        rw [show (Flt.fin ((w - l) * (u - w) / (u - l))).abs = .fin |(w - l) * (u - w) / (u - l)| from rfl, abs_of_pos hJ, log_fin hJ]
    obtain ⟨Ts, hT⟩ := key a.data fun _ h => h
    refine ⟨Ts.sum, ?_⟩
    simp only [logAbsDetUnfreeing, Val.asArr, bind, Except.bind, pure, Except.pure, Numeric.logAbsDetUnfreeing, hl, hu]
    rw [hT, Flt.sum_fin]

/-! ### Examples in binary64 -/

/-- A probability vector and two numbers between zero and four. -/
theorem jac_inside : Inside binary64 2 (.dict (.cons "p" (.simplex 3 [1] true none) (.cons "x" (.numeric .vector [2] (.int 0) (.int 4) true none) .nil)) true none)
      (.dict [("x", .arr ⟨[2], [3, 1 / 2].map .fin⟩), ("p", .arr ⟨[1, 3], [1 / 2, 1 / 4, 1 / 4].map .fin⟩)]) ∧
    Clear 4 (.dict (.cons "p" (.simplex 3 [1] true none) (.cons "x" (.numeric .vector [2] (.int 0) (.int 4) true none) .nil)) true none)
      (.dict [("x", .arr ⟨[2], [3, 1 / 2].map .fin⟩), ("p", .arr ⟨[1, 3], [1 / 2, 1 / 4, 1 / 4].map .fin⟩)]) := by
  obtain ⟨hmach, -, -, -⟩ := four64
  have h8 : (8 : ℝ) ≤ 2 ^ (300 : ℤ) := by
    have : (2 : ℝ) ^ (3 : ℤ) ≤ 2 ^ (300 : ℤ) := Arith.small_zpow (by norm_num)
    exact le_trans (by norm_num) this
  have h0 : (2 : ℝ) ^ (-300 : ℤ) ≤ 1 / 2 := by
    have : (2 : ℝ) ^ (-300 : ℤ) ≤ 2 ^ (-1 : ℤ) := Arith.small_zpow (by norm_num)
    exact this.trans (by norm_num)
  constructor
  · simp only [Inside, InsideEs]
    refine ⟨⟨_, rfl, rfl, _, rfl, rfl, quarters.1, ?_⟩, ⟨_, rfl, rfl, rfl, ?_⟩, trivial⟩
    · intro i hi
      have : i = 0 := by simpa using hi
      subst this
      have := quarters.2
      simpa [block] using this
    · intro x hx
      simp only [List.map_cons, List.map_nil, List.mem_cons, List.not_mem_nil, or_false] at hx
      rcases hx with rfl | rfl
      · refine ⟨3, rfl, ?_, le_trans (by norm_num) h8, ?_, ?_⟩
        · simpa using binary64_int_machine (m := 3) (by norm_num)
        · intro c hc
          have : c = 0 := by simpa [PyNum.toFlt, eq_comm] using hc
          subst this
          linarith
        · intro c hc
          have : c = 4 := by simpa [PyNum.toFlt, eq_comm] using hc
          subst this
          linarith
      · refine ⟨1 / 2, rfl, (quarters.1 _ (by simp)).1, le_trans (by norm_num) h8, ?_, ?_⟩
        · intro c hc
          have : c = 0 := by simpa [PyNum.toFlt, eq_comm] using hc
          subst this
          linarith
        · intro c hc
          have : c = 4 := by simpa [PyNum.toFlt, eq_comm] using hc
          subst this
          linarith
  · simp only [Clear, ClearEs]
    refine ⟨fun v hv => ?_, fun v hv => ?_, trivial⟩
    · cases hv
      intro _ v hv
      simp only [List.map_cons, List.map_nil, List.mem_cons, List.not_mem_nil, or_false, Flt.fin.injEq] at hv
      rcases hv with rfl | rfl | rfl <;> norm_num
    · cases hv
      intro l u v hl hu hv
      have e1 : l = 0 := by simpa [PyNum.toFlt, eq_comm] using hl
      have e2 : u = 4 := by simpa [PyNum.toFlt, eq_comm] using hu
      subst e1 e2
      simp only [List.map_cons, List.map_nil, List.mem_cons, List.not_mem_nil, or_false, Flt.fin.injEq] at hv
      rcases hv with rfl | rfl <;> norm_num

/-- Small integers as bounds. -/
theorem int_moderate {lo hi : ℤ} {c : NumCls} {s : List Nat} {dv : Bool} {fd : Option Bool} (h1 : |lo| ≤ 4) (h2 : |hi| ≤ 4) (h : lo < hi) :
    Moderate binary64 (.numeric c s (.int lo) (.int hi) dv fd) := by
  have h4 : (4 : ℝ) ≤ 2 ^ (300 : ℤ) := le_trans (by norm_num) (Arith.small_zpow (show (2 : ℤ) ≤ 300 by norm_num))
  have key : ∀ z : ℤ, |z| ≤ 4 → ModerateBound binary64 (.fin (z : ℝ)) := by
    intro z hz c hc
    injection hc with hc
    subst hc
    refine ⟨binary64_int_machine (hz.trans (by norm_num)), le_trans ?_ h4⟩
    exact_mod_cast hz
  simp only [Moderate, PyNum.toFlt]
  refine ⟨key lo h1, key hi h2, fun a b ha hb => ?_⟩
  injection ha with ha
  injection hb with hb
  subst ha hb
  have h5 : (lo : ℝ) + 1 ≤ hi := by exact_mod_cast h
  have h6 : (2 : ℝ) ^ (-200 : ℤ) ≤ 1 := zpow_le_one_of_nonpos₀ (by norm_num) (by norm_num)
  linarith

/-- Both Jacobians of them, computed in binary64, are near the exact ones. -/
example (ad : AutogradJacobian) (adA : Pattern → Val Flt → Except Err (NDArray Flt)) :
    SameOr (MatRel (RelClose (7 * 2 ^ (-53 : ℤ)))) ((Pattern.dict (.cons "p" (.simplex 3 [1] true none) (.cons "x" (.numeric .vector [2] (.int 0) (.int 4) true none) .nil)) true none).freeingJacobianA binary64 adA
        (.dict [("x", .arr ⟨[2], [3, 1 / 2].map .fin⟩), ("p", .arr ⟨[1, 3], [1 / 2, 1 / 4, 1 / 4].map .fin⟩)]))
      ((Pattern.dict (.cons "p" (.simplex 3 [1] true none) (.cons "x" (.numeric .vector [2] (.int 0) (.int 4) true none) .nil)) true none).freeingJacobian ad
        (.dict [("x", .arr ⟨[2], [3, 1 / 2].map .fin⟩), ("p", .arr ⟨[1, 3], [1 / 2, 1 / 4, 1 / 4].map .fin⟩)])) ∧
    SameOr (MatRel (RelClose ((2600 + 10 * 4) * 2 ^ (-53 : ℤ)))) ((Pattern.dict (.cons "p" (.simplex 3 [1] true none) (.cons "x" (.numeric .vector [2] (.int 0) (.int 4) true none) .nil)) true none).unfreeingJacobianA binary64 adA
        (.dict [("x", .arr ⟨[2], [3, 1 / 2].map .fin⟩), ("p", .arr ⟨[1, 3], [1 / 2, 1 / 4, 1 / 4].map .fin⟩)]))
      ((Pattern.dict (.cons "p" (.simplex 3 [1] true none) (.cons "x" (.numeric .vector [2] (.int 0) (.int 4) true none) .nil)) true none).unfreeingJacobian ad
        (.dict [("x", .arr ⟨[2], [3, 1 / 2].map .fin⟩), ("p", .arr ⟨[1, 3], [1 / 2, 1 / 4, 1 / 4].map .fin⟩)])) := by
  have h1 : (Pattern.dict (.cons "p" (.simplex 3 [1] true none) (.cons "x" (.numeric .vector [2] (.int 0) (.int 4) true none) .nil)) true none).WF := by
    simp [Pattern.WF, WFEs, Entries.keys, Entries.toList, isDict, lock, PyNum.toFlt, NotNaN, lt]
  have h2 : NoPSD (.dict (.cons "p" (.simplex 3 [1] true none) (.cons "x" (.numeric .vector [2] (.int 0) (.int 4) true none) .nil)) true none) := by simp [NoPSD, NoPSDEs]
  have h3 : Moderate binary64 (.dict (.cons "p" (.simplex 3 [1] true none) (.cons "x" (.numeric .vector [2] (.int 0) (.int 4) true none) .nil)) true none) := by
    simp only [Moderate.eq_5, ModerateEs]
    exact ⟨by simp [Moderate], int_moderate (by norm_num) (by norm_num) (by norm_num), trivial⟩
  exact ⟨C118_freeing binary64_sane binary64_accurate (WF.built _ h1) h2 h3 (by norm_num) jac_inside.1 ad adA,
    C118_unfreeing binary64_sane binary64_accurate binary64_logAccurate (WF.built _ h1) h2 h3 (by norm_num) (by norm_num) (by norm_num) jac_inside.1 jac_inside.2 ad adA⟩

/-- The log determinants for the two numbers: both within `2 ** -39`. -/
example : (∃ t T, (Pattern.dict (.cons "x" (.numeric .vector [2] (.int 0) (.int 4) true none) .nil) true none).logAbsDetFreeingA binary64
        (.dict [("x", .arr ⟨[2], [3, 1 / 2].map .fin⟩)]) = .ok (.fin t) ∧
      (Pattern.dict (.cons "x" (.numeric .vector [2] (.int 0) (.int 4) true none) .nil) true none).logAbsDetFreeing (.dict [("x", .arr ⟨[2], [3, 1 / 2].map .fin⟩)]) = .ok (.fin T) ∧ |t - T| ≤ 2 ^ (-39 : ℤ)) ∧
    ∃ t T, (Pattern.dict (.cons "x" (.numeric .vector [2] (.int 0) (.int 4) true none) .nil) true none).logAbsDetUnfreeingA binary64
        (.dict [("x", .arr ⟨[2], [3, 1 / 2].map .fin⟩)]) = .ok (.fin t) ∧
      (Pattern.dict (.cons "x" (.numeric .vector [2] (.int 0) (.int 4) true none) .nil) true none).logAbsDetUnfreeing (.dict [("x", .arr ⟨[2], [3, 1 / 2].map .fin⟩)]) = .ok (.fin T) ∧ |t - T| ≤ 2 ^ (-39 : ℤ) := by
  have h1 : (Pattern.dict (.cons "x" (.numeric .vector [2] (.int 0) (.int 4) true none) .nil) true none).WF := by
    simp [Pattern.WF, WFEs, Entries.keys, Entries.toList, isDict, lock, PyNum.toFlt, NotNaN, lt]
  have h2 : NumericDicts (Pattern.dict (.cons "x" (.numeric .vector [2] (.int 0) (.int 4) true none) .nil) true none) := by simp [NumericDicts, NumericDictsEs]
  have h3 : Moderate binary64 (Pattern.dict (.cons "x" (.numeric .vector [2] (.int 0) (.int 4) true none) .nil) true none) := by
    simp only [Moderate.eq_5, ModerateEs]
    exact ⟨int_moderate (by norm_num) (by norm_num) (by norm_num), trivial⟩
  have hl : (Pattern.dict (.cons "x" (.numeric .vector [2] (.int 0) (.int 4) true none) .nil) true none).flatLen false = 2 ∧
      members (Pattern.dict (.cons "x" (.numeric .vector [2] (.int 0) (.int 4) true none) .nil) true none) = 1 := by
    simp [flatLen, flatLenEs, members, membersEs]
  obtain ⟨hi, hc⟩ := jac_inside
  have hi' : Inside binary64 2 (Pattern.dict (.cons "x" (.numeric .vector [2] (.int 0) (.int 4) true none) .nil) true none) (.dict [("x", .arr ⟨[2], [3, 1 / 2].map .fin⟩)]) := by
    simp only [Inside.eq_5, InsideEs] at hi ⊢
    exact hi.2
  have hc' : Clear 4 (Pattern.dict (.cons "x" (.numeric .vector [2] (.int 0) (.int 4) true none) .nil) true none) (.dict [("x", .arr ⟨[2], [3, 1 / 2].map .fin⟩)]) := by
    simp only [Clear.eq_4, ClearEs] at hc ⊢
    exact hc.2
  obtain ⟨t, T, a1, a2, a3⟩ := C118_log_freeing binary64_sane binary64_accurate binary64_logAccurate Arith.binary64_sumAccurate (WF.built _ h1) h2 h3
    (by rw [hl.1, hl.2]; norm_num) hi'
  obtain ⟨r, R, b1, b2, b3⟩ := C118_log_unfreeing binary64_sane binary64_accurate binary64_logAccurate Arith.binary64_sumAccurate (WF.built _ h1) h2 h3
    (by rw [hl.1, hl.2]; norm_num) (by norm_num) (by norm_num) hi' hc'
  rw [hl.1, hl.2] at a3 b3
  exact ⟨⟨t, T, a1, a2, a3.trans (by norm_num)⟩, r, R, b1, b2, b3.trans (by norm_num)⟩

/-- Between minus one and zero the number `-2 ** -60` is inside, and its derivative lost. -/
theorem lost_inside : Inside binary64 2 (Pattern.numeric .array [2] (.int (-1)) (.int 0) true none) (.arr ⟨[2], [-1 / 2, -(2 ^ (-60 : ℤ))].map .fin⟩) := by
  have hA : binary64.Machine (.fin (-1 / 2)) := by
    have := binary64_sane.neg _ (quarters.1 (1 / 2) (by simp)).1
    rwa [show -(1 / 2 : ℝ) = -1 / 2 by norm_num] at this
  have hB : binary64.Machine (.fin (-(2 ^ (-60 : ℤ)))) := by
    have := binary64_accurate.machine_of (m := 1) (e := -60) (by norm_num) (by norm_num) (by norm_num)
    exact binary64_sane.neg _ (by simpa using this)
  have h1 : (1 : ℝ) ≤ 2 ^ (300 : ℤ) := one_le_zpow₀ (by norm_num) (by norm_num)
  have h2 : (2 : ℝ) ^ (-300 : ℤ) ≤ 2 ^ (-60 : ℤ) := Arith.small_zpow (by norm_num)
  have h3 : (2 : ℝ) ^ (-60 : ℤ) ≤ 1 / 2 := (Arith.small_zpow (show (-60 : ℤ) ≤ -1 by norm_num)).trans (by norm_num)
  have h4 : (0 : ℝ) < 2 ^ (-60 : ℤ) := two_zpow_pos _
  generalize (2 : ℝ) ^ (-60 : ℤ) = w at *
  simp only [Inside]
  refine ⟨trivial, rfl, fun x hx => ?_⟩
  generalize (2 : ℝ) ^ (-300 : ℤ) = t at *
  generalize (2 : ℝ) ^ (300 : ℤ) = g at *
  simp only [List.map_cons, List.map_nil, List.mem_cons, List.not_mem_nil, or_false] at hx
  rcases hx with rfl | rfl
  · refine ⟨-1 / 2, rfl, hA, le_trans (by norm_num [abs_of_nonneg]) h1, ?_, ?_⟩
    · intro c hc
      have : c = -1 := by simpa [PyNum.toFlt, eq_comm] using hc
      subst this
      linarith
    · intro c hc
      have : c = 0 := by simpa [PyNum.toFlt, eq_comm] using hc
      subst this
      linarith
  · refine ⟨_, rfl, hB, ?_, ?_, ?_⟩
    · rw [abs_neg, abs_of_pos h4]; linarith
    · intro c hc
      have : c = -1 := by simpa [PyNum.toFlt, eq_comm] using hc
      subst this
      linarith
    · intro c hc
      have : c = 0 := by simpa [PyNum.toFlt, eq_comm] using hc
      subst this
      linarith

/-- The entry on the diagonal is zero, and the log determinant minus infinity. -/
example (ad : AutogradJacobian) (adA : Pattern → Val Flt → Except Err (NDArray Flt)) :
    (∃ M N w, (Pattern.numeric .array [2] (.int (-1)) (.int 0) true none).unfreeingJacobianA binary64 adA (.arr ⟨[2], [-1 / 2, -(2 ^ (-60 : ℤ))].map .fin⟩) = .ok M ∧
      (Pattern.numeric .array [2] (.int (-1)) (.int 0) true none).unfreeingJacobian ad (.arr ⟨[2], [-1 / 2, -(2 ^ (-60 : ℤ))].map .fin⟩) = .ok N ∧
      M.shape = [2, 2] ∧ N.shape = [2, 2] ∧ entry 2 M.data 1 1 = .fin 0 ∧ entry 2 N.data 1 1 = .fin w ∧ 0 < w) ∧
    (Pattern.numeric .array [2] (.int (-1)) (.int 0) true none).logAbsDetUnfreeingA binary64 (.arr ⟨[2], [-1 / 2, -(2 ^ (-60 : ℤ))].map .fin⟩) = .ok .ninf ∧
      ∃ T, (Pattern.numeric .array [2] (.int (-1)) (.int 0) true none).logAbsDetUnfreeing (.arr ⟨[2], [-1 / 2, -(2 ^ (-60 : ℤ))].map .fin⟩) = .ok (.fin T) := by
  have hm : Moderate binary64 (Pattern.numeric .array [2] (.int (-1)) (.int 0) true none) := int_moderate (by norm_num) (by norm_num) (by norm_num)
  have hfar : (2:ℝ) ^ (56 : ℤ) * (0 - -(2 ^ (-60 : ℤ))) ≤ -(2 ^ (-60 : ℤ)) - -1 := by norm_num
  constructor
  · simpa using C118_lost binary64_sane binary64_accurate binary64_logAccurate (l := -1) (u := 0) (by simp [PyNum.toFlt]) (by simp [PyNum.toFlt]) hm lost_inside (k := 1)
      (v := -(2 ^ (-60 : ℤ))) rfl hfar ad adA
  · exact C118_lost_log binary64_sane binary64_accurate binary64_logAccurate Arith.binary64_sumAccurate (l := -1) (u := 0) (by simp [PyNum.toFlt]) (by simp [PyNum.toFlt]) hm
      (by norm_num) lost_inside (v := -(2 ^ (-60 : ℤ))) (by simp) hfar

end Paragami
