import Verif.Proofs.RoundingWitness

/-! # The sums of rounded simplexes -/

set_option linter.unusedSimpArgs false

namespace Paragami
open NDArray Flt

namespace Arith
variable {A : Arith}

/-! ### Error bounds -/

/-- Half a unit in the last place of one. -/
noncomputable def uRound : ℝ := 1 / 2 ^ 53

theorem uRound_pos : 0 < uRound := by unfold uRound; positivity
theorem uRound_val : (2:ℝ) ^ (-53 : ℤ) = uRound := by unfold uRound; norm_num
theorem uRound_val2 : (2:ℝ) ^ (-52 : ℤ) = 2 * uRound := by rw [u_val, uRound_val]
theorem tiny_le {e : ℤ} (h : e ≤ -200) : (2:ℝ) ^ e ≤ uRound / 2 ^ 100 := by
  refine (small_zpow h).trans ?_
  unfold uRound; norm_num

theorem rnd64_rel (h : A.Accurate) {x B : ℝ} (hx : |x| ≤ B) (hB : 1 ≤ B) (hB' : B ≤ 2 ^ 40) :
    ∃ y, A.round (.fin x) = .fin y ∧ |y - x| ≤ (B + 1) * uRound := by
  have h1 := rndReal_rel x
  have h2 := tiny_le (e := -1075) (by norm_num)
  have hu := uRound_pos
  rw [uRound_val] at h1
  have h3 : |rndReal x - x| ≤ (B + 1) * uRound := by
    have : uRound * |x| ≤ uRound * B := mul_le_mul_of_nonneg_left hx hu.le
    have h4 : uRound / 2 ^ 100 ≤ uRound := by
      rw [div_le_iff₀ (by positivity)]; nlinarith
    generalize (2:ℝ) ^ (-1075 : ℤ) = t at *
    linarith
  refine ⟨rndReal x, ?_, h3⟩
  rw [h.round_fin]
  apply rnd64_of rfl
  have h5 : |rndReal x| ≤ |x| + (B + 1) * uRound := by
    have := abs_sub_abs_le_abs_sub (rndReal x) x; linarith
  have h6 : (2:ℝ) ^ (42 : ℤ) ≤ overflow64 := zpow_le_zpow_right₀ (by norm_num) (by norm_num)
  have h7 : uRound ≤ 1 := by unfold uRound; norm_num
  norm_num at h6 hB'
  nlinarith

theorem exp_sub_one_le {d : ℝ} (h : |d| ≤ 1) : |Real.exp d - 1| ≤ |d| + d ^ 2 := by
  have h1 := Real.abs_exp_sub_one_sub_id_le h
  have e : Real.exp d - 1 = (Real.exp d - 1 - d) + d := by ring
  rw [e]
  refine (abs_add_le _ _).trans ?_
  linarith

/-- The computed exponential of a perturbed argument. -/
theorem exp_perturbed (h : A.Accurate) {t t' c : ℝ} (hc : |t' - t| ≤ c * uRound) (hc0 : 0 ≤ c) (hc1 : c ≤ 10000) (ht : t' ≤ 709) :
    ∃ v, A.exp (.fin t') = .fin v ∧ |v - Real.exp t| ≤ (c + 4) * uRound * Real.exp t + uRound / 2 ^ 90 := by
  obtain ⟨v, h1, h2⟩ := h.exp t' ht
  refine ⟨v, h1, ?_⟩
  rw [uRound_val2] at h2
  have h3 := tiny_le (e := -1074) (by norm_num)
  have hu := uRound_pos
  have hu1 : uRound * 2 ^ 53 = 1 := by unfold uRound; norm_num
  have hE := Real.exp_pos t
  set δ := t' - t with hδ
  have hcu : c * uRound ≤ 1 / 2 ^ 39 := by
    have : uRound ≤ 1 / 2 ^ 53 := by unfold uRound; exact le_rfl
    have h7 : c * uRound ≤ 10000 * (1 / 2 ^ 53) := by nlinarith
    refine h7.trans ?_
    norm_num
  have hd1 : |δ| ≤ 1 := by
    refine hc.trans (hcu.trans ?_); norm_num
  have h4 := exp_sub_one_le hd1
  have h5 : |Real.exp δ - 1| ≤ (c + 1) * uRound := by
    have h6 : δ ^ 2 ≤ uRound := by
      rw [← sq_abs]
      have h8 : |δ| ^ 2 ≤ (10000 * uRound) ^ 2 := by
        apply pow_le_pow_left₀ (abs_nonneg _)
        refine hc.trans ?_
        nlinarith
      refine h8.trans ?_
      unfold uRound; norm_num
    linarith
  have e1 : Real.exp t' = Real.exp t * Real.exp δ := by rw [← Real.exp_add, hδ]; ring_nf
  have h6 : |Real.exp t' - Real.exp t| ≤ (c + 1) * uRound * Real.exp t := by
    rw [e1, show Real.exp t * Real.exp δ - Real.exp t = Real.exp t * (Real.exp δ - 1) by ring, abs_mul, abs_of_pos hE]
    nlinarith
  have h7 : Real.exp t' ≤ (3 / 2) * Real.exp t := by
    have := (abs_le.mp h6).2
    have h8 : (c + 1) * uRound ≤ 1 / 2 := by
      have : uRound ≤ 1 / 2 ^ 53 := by unfold uRound; exact le_rfl
      have h9 : uRound ≤ 1 / 2 ^ 40 := this.trans (by norm_num)
      have : (c + 1) * uRound = c * uRound + uRound := by ring
      rw [this]
      have : (1:ℝ) / 2 ^ 39 + 1 / 2 ^ 40 ≤ 1 / 2 := by norm_num
      linarith
    nlinarith
  have e2 : v - Real.exp t = (v - Real.exp t') + (Real.exp t' - Real.exp t) := by ring
  rw [e2]
  refine (abs_add_le _ _).trans ?_
  have h8 : uRound / 2 ^ 100 ≤ uRound / 2 ^ 90 := div_le_div_of_nonneg_left hu.le (by positivity) (by norm_num)
  have h9 : 2 * uRound * Real.exp t' ≤ 3 * uRound * Real.exp t := by nlinarith
  generalize (2:ℝ) ^ (-1074 : ℤ) = tt at *
  nlinarith

/-- Sums of perturbed lists. -/
theorem sum_perturbed {ι : Type} {f g : ι → ℝ} {a b : ℝ} : ∀ l : List ι, (∀ i ∈ l, |f i - g i| ≤ a * g i + b) →
    |(l.map f).sum - (l.map g).sum| ≤ a * (l.map g).sum + l.length * b
  | [], _ => by simp
  | i :: l, h => by
    have h1 := h i (by simp)
    have h2 := sum_perturbed l fun j hj => h j (by simp [hj])
    simp only [List.map_cons, List.sum_cons, List.length_cons]
    have e : f i + (l.map f).sum - (g i + (l.map g).sum) = (f i - g i) + ((l.map f).sum - (l.map g).sum) := by ring
    rw [e]
    refine (abs_add_le _ _).trans ?_
    push_cast
    linarith

theorem log_perturbed {S S' c : ℝ} (hS : 0 < S) (h : |S' - S| ≤ c * uRound * S) (hc0 : 0 ≤ c) (hc : c ≤ 10000) :
    |Real.log S' - Real.log S| ≤ (c + 1) * uRound := by
  have hu := uRound_pos
  have hu1 : uRound = 1 / 2 ^ 53 := rfl
  have hcu : c * uRound ≤ 1 / 2 ^ 39 := by
    have h7 : c * uRound ≤ 10000 * uRound := by nlinarith
    refine h7.trans ?_
    rw [hu1]; norm_num
  set q := S' / S with hq
  have hq1 : |q - 1| ≤ c * uRound := by
    have : q - 1 = (S' - S) / S := by rw [hq]; field_simp
    rw [this, abs_div, abs_of_pos hS, div_le_iff₀ hS]; exact h
  have hcu' : c * uRound ≤ 1 / 2 := hcu.trans (by norm_num)
  have hq0 : 1 / 2 ≤ q := by have := (abs_le.mp hq1).1; linarith
  have hS' : S' = q * S := by rw [hq]; field_simp
  rw [hS', Real.log_mul (by linarith) hS.ne', add_sub_cancel_right, abs_le]
  constructor
  · have h1 := Real.one_sub_inv_le_log_of_pos (show 0 < q by linarith)
    have h2 : -((c + 1) * uRound) ≤ 1 - q⁻¹ := by
      have h3 : q * q⁻¹ = 1 := mul_inv_cancel₀ (by linarith)
      have h4 := (abs_le.mp hq1).1
      have h5 : q⁻¹ ≤ 2 := by
        rw [inv_le_comm₀ (by linarith) (by norm_num)]; linarith
      have h7 : q⁻¹ - 1 = (1 - q) * q⁻¹ := by rw [sub_mul, one_mul, h3]
      have h6 : 0 < q⁻¹ := by positivity
      -- q⁻¹ ≤ 1 + 2 c u
      have h8 : q⁻¹ ≤ 1 + 2 * (c * uRound) := by
        have a1 : (1 - q) * q⁻¹ ≤ (c * uRound) * q⁻¹ := mul_le_mul_of_nonneg_right (by linarith) h6.le
        have a2 : (c * uRound) * q⁻¹ ≤ (c * uRound) * 2 := mul_le_mul_of_nonneg_left h5 (by positivity)
        linarith
      have h9 : (1 - q) * q⁻¹ ≤ (c * uRound) * (1 + 2 * (c * uRound)) := by
        have : (1 - q) * q⁻¹ ≤ (c * uRound) * q⁻¹ := mul_le_mul_of_nonneg_right (by linarith) h6.le
        exact this.trans (mul_le_mul_of_nonneg_left h8 (by positivity))
      have h10 : 2 * (c * uRound) * (c * uRound) ≤ uRound := by
        have h11 : c * uRound ≤ 10000 * uRound := by nlinarith
        have h12 : 2 * (c * uRound) * (c * uRound) ≤ 2 * (10000 * uRound) * (10000 * uRound) := by
          have : 0 ≤ c * uRound := by positivity
          nlinarith
        refine h12.trans ?_
        rw [hu1]; norm_num
      nlinarith
    linarith
  · have h1 := Real.log_le_sub_one_of_pos (show 0 < q by linarith)
    have := (abs_le.mp hq1).2
    linarith

theorem round_sub (A : Arith) (a b : ℝ) : A.sub (.fin a) (.fin b) = A.round (.fin (a - b)) := by rw [sub, sub_fin]

/-- The sum of a computed simplex of at most 500 entries, from free numbers of size at most 1000. -/
theorem simplex_sum (hs : A.Sane) (h : A.Accurate) {r : List ℝ} (hm : ∀ x ∈ r, A.Machine (.fin x)) (hB : ∀ x ∈ r, |x| ≤ 1000)
    (hK : r.length < 500) :
    ∃ d : List ℝ, constrainSimplexRowA A (r.map .fin) = d.map .fin ∧
      ∃ F, A.sum (d.map .fin) = .fin F ∧ |F - 1| ≤ 9000 * uRound := by
  have h0 : (0 : Flt) = .fin 0 := by change Flt.fin ((0:ℕ):ℝ) = _; simp
  have hu := uRound_pos
  have huv : uRound = 1 / 2 ^ 53 := rfl
  set m := r.foldl max 0 with hmdef
  have hmax : Flt.maxOf 0 (r.map .fin) = .fin m := by rw [h0]; exact Flt.maxOf_fin 0 r
  obtain ⟨g1, g2, g3⟩ := foldl_max_ge r 0
  rw [← hmdef] at g1 g2 g3
  have hcons : ((0 : Flt) :: r.map .fin) = (0 :: r).map .fin := by rw [List.map_cons, h0]
  set xs : List ℝ := 0 :: r with hxs
  have hlen : xs.length ≤ 500 := by simp [hxs]; omega
  have hlen' : (xs.length : ℝ) ≤ 500 := by exact_mod_cast hlen
  have hmem : m ∈ xs := by
    rcases g3 with g3 | g3
    · simp [hxs, g3]
    · simp [hxs, g3]
  have hxB : ∀ x ∈ xs, |x| ≤ 1000 := by
    intro x hx
    rcases List.mem_cons.mp hx with rfl | hx
    · simp
    · exact hB x hx
  have hxm : ∀ x ∈ xs, x ≤ m := by
    intro x hx
    rcases List.mem_cons.mp hx with rfl | hx
    · exact g1
    · exact g2 x hx
  have hmB : m ≤ 1000 := by have := abs_le.mp (hxB m hmem); exact this.2
  -- the differences and their exponentials
  have hd : ∀ x, ∃ e : ℝ, x ∈ xs → A.exp (A.sub (.fin x) (.fin m)) = .fin e ∧ 0 ≤ e ∧ e ≤ 1 ∧ A.Machine (.fin e) ∧
      |e - Real.exp (x - m)| ≤ 2005 * uRound * Real.exp (x - m) + uRound / 2 ^ 90 := by
    intro x
    by_cases hx : x ∈ xs
    · have hxb := abs_le.mp (hxB x hx)
      obtain ⟨y, hy1, hy2⟩ := rnd64_rel h (x := x - m) (B := 2000)
        (by rw [abs_le]; constructor <;> linarith) (by norm_num) (by norm_num)
      have hy0 : y ≤ 0 := by
        have := hs.round_le hs.zero_machine (a := .fin (x - m)) (by simpa using hxm x hx)
        rw [hy1] at this; simpa using this
      obtain ⟨e, he1, he2⟩ := exp_perturbed h (t := x - m) (t' := y) (c := 2001) (by linarith) (by norm_num) (by norm_num) (by linarith)
      refine ⟨e, fun _ => ?_⟩
      rw [round_sub, hy1]
      have h1 := hs.exp_nonneg y
      have h2 := hs.exp_le_one y hy0
      have h3 := hs.exp_machine (.fin y)
      rw [he1] at h1 h2 h3
      exact ⟨he1, by simpa using h1, by simpa using h2, h3, by
        have e1 : (2001 + 4 : ℝ) = 2005 := by norm_num
        rw [e1] at he2; exact he2⟩
    · exact ⟨0, fun h => absurd h hx⟩
  choose e he using hd
  set S := (xs.map fun x => Real.exp (x - m)).sum with hS
  have hem : e m = 1 := by
    have h1 := (he m hmem).1
    rw [round_sub, sub_self, round_fin, hs.zero, hs.exp_zero] at h1
    injection h1 with h1; exact h1.symm
  have hS1 : 1 ≤ S := by
    have : Real.exp (m - m) ≤ S := List.single_le_sum (by
      intro y hy; obtain ⟨x, _, rfl⟩ := List.mem_map.mp hy; positivity) _ (List.mem_map.mpr ⟨m, hmem, rfl⟩)
    rwa [sub_self, Real.exp_zero] at this
  have hS2 : S ≤ 500 := by
    have h1 : S ≤ (xs.map fun _ => (1:ℝ)).sum := List.sum_le_sum fun x hx => Real.exp_le_one_iff.mpr (by have := hxm x hx; linarith)
    rw [List.map_const', List.sum_replicate, nsmul_eq_mul, mul_one] at h1
    linarith
  have hlist : ((0 : Flt) :: r.map .fin).map (fun x => A.exp (A.sub x (.fin m))) = (xs.map e).map .fin := by
    rw [hcons, List.map_map, List.map_map]
    exact List.map_congr_left fun x hx => (he x hx).1
  have hEsum := sum_perturbed (f := e) (g := fun x => Real.exp (x - m)) (a := 2005 * uRound) (b := uRound / 2 ^ 90) xs
    (fun x hx => (he x hx).2.2.2.2)
  rw [← hS] at hEsum
  set E := (xs.map e).sum with hE
  have hE1 : |E - S| ≤ 2006 * uRound * S := by
    refine hEsum.trans ?_
    have : (xs.length : ℝ) * (uRound / 2 ^ 90) ≤ uRound := by
      have h1 : (xs.length : ℝ) * (uRound / 2 ^ 90) ≤ 500 * (uRound / 2 ^ 90) := mul_le_mul_of_nonneg_right hlen' (by positivity)
      refine h1.trans ?_
      rw [huv]; norm_num
    nlinarith
  obtain ⟨S', hS'1, hS'2⟩ := h.sum (xs.map e) (by
    intro y hy; obtain ⟨x, hx, rfl⟩ := List.mem_map.mp hy
    obtain ⟨_, h1, h2, h3, _⟩ := he x hx
    exact ⟨h1, by linarith, h3⟩) (by simp; omega)
  rw [List.length_map, ← hE, uRound_val2] at hS'2
  have hE2 : E ≤ (1 + 1 / 1000) * S := by
    have := (abs_le.mp hE1).2
    have h1 : 2006 * uRound ≤ 1 / 1000 := by rw [huv]; norm_num
    nlinarith
  have hE0 : 0 ≤ E := List.sum_nonneg (by
    intro y hy; obtain ⟨x, hx, rfl⟩ := List.mem_map.mp hy; exact (he x hx).2.1)
  have hS'3 : |S' - S| ≤ 3010 * uRound * S := by
    have e1 : S' - S = (S' - E) + (E - S) := by ring
    rw [e1]
    refine (abs_add_le _ _).trans ?_
    have h1 : (xs.length : ℝ) * (2 * uRound) * E ≤ 1000 * uRound * ((1 + 1 / 1000) * S) := by
      have h2 : (xs.length : ℝ) * (2 * uRound) ≤ 1000 * uRound := by nlinarith
      exact mul_le_mul h2 hE2 hE0 (by positivity)
    have h2 : 0 ≤ uRound * S := by positivity
    nlinarith
  have hS'4 : 1 ≤ S' := by
    have h1 := hs.sum_ge ((xs.map e).map .fin) (by
      intro y hy
      obtain ⟨z, hz, rfl⟩ := List.mem_map.mp hy
      obtain ⟨x, hx, rfl⟩ := List.mem_map.mp hz
      obtain ⟨_, h1, _, h3, _⟩ := he x hx
      exact ⟨by simpa using h1, h3⟩) (.fin 1) (List.mem_map.mpr ⟨1, List.mem_map.mpr ⟨m, hmem, hem⟩, rfl⟩)
    rw [hS'1] at h1; simpa using h1
  have hS'5 : S' ≤ 501 := by
    have := (abs_le.mp hS'3).2
    have h1 : 3010 * uRound ≤ 1 / 1000 := by rw [huv]; norm_num
    nlinarith
  -- the logarithm
  obtain ⟨L, hL1, hL2⟩ := h.log S' hS'4 (by
    have := overflow64_big
    norm_num at this; linarith)
  rw [uRound_val2] at hL2
  have hlogS' : Real.log S' ≤ 7 := by
    rw [Real.log_le_iff_le_exp (by linarith)]
    have h1 : (2.7182818283 : ℝ) ^ 7 ≤ Real.exp 7 := by
      calc (2.7182818283 : ℝ) ^ 7 ≤ Real.exp 1 ^ 7 := pow_le_pow_left₀ (by norm_num) Real.exp_one_gt_d9.le 7
        _ = Real.exp 7 := by rw [← Real.exp_nat_mul]; norm_num
    have h2 : (501:ℝ) ≤ (2.7182818283 : ℝ) ^ 7 := by norm_num
    linarith
  have hlogS'0 : 0 ≤ Real.log S' := Real.log_nonneg hS'4
  have htiny : (2:ℝ) ^ (-1074 : ℤ) ≤ uRound := (tiny_le (by norm_num)).trans (by rw [huv]; norm_num)
  have hL3 : |L - Real.log S| ≤ 3030 * uRound := by
    have h1 := log_perturbed (by linarith : 0 < S) hS'3 (by norm_num) (by norm_num)
    have e1 : L - Real.log S = (L - Real.log S') + (Real.log S' - Real.log S) := by ring
    rw [e1]
    refine (abs_add_le _ _).trans ?_
    generalize (2:ℝ) ^ (-1074 : ℤ) = tt at *
    nlinarith
  have hL4 : |L| ≤ 8 := by
    have h1 := abs_le.mp hL2
    generalize (2:ℝ) ^ (-1074 : ℤ) = tt at *
    have h2 : 2 * uRound * Real.log S' ≤ 1 / 4 := by
      have : 2 * uRound ≤ 1 / 28 := by rw [huv]; norm_num
      nlinarith
    have h3 : uRound ≤ 1 / 4 := by rw [huv]; norm_num
    rw [abs_le]; constructor <;> linarith
  obtain ⟨N, hN1, hN2⟩ := rnd64_rel h (x := L + m) (B := 1008) (by
    have := abs_le.mp hL4
    rw [abs_le]; constructor <;> linarith) (by norm_num) (by norm_num)
  have hN3 : |N - (Real.log S + m)| ≤ 4039 * uRound := by
    have e1 : N - (Real.log S + m) = (N - (L + m)) + (L - Real.log S) := by ring
    rw [e1]
    refine (abs_add_le _ _).trans ?_
    linarith
  have hlse : logsumexp1A A 0 (r.map .fin) = .fin N := by
    simp only [logsumexp1A, hmax, hlist, hS'1, hL1, add, add_fin, hN1]
  have hlogS : Real.log S ≤ 8 ∧ -1 ≤ Real.log S := by
    have h1 := abs_le.mp hL3
    have h2 := abs_le.mp hL4
    have h3 : 3030 * uRound ≤ 1 := by rw [huv]; norm_num
    constructor
    · have := Real.log_le_sub_one_of_pos (show 0 < S by linarith)
      have h4 := abs_le.mp hL2
      have h5 : 2 * uRound * Real.log S' ≤ 1 / 4 := by
        have : 2 * uRound ≤ 1 / 28 := by rw [huv]; norm_num
        nlinarith
      have h6 : uRound ≤ 1 / 1000000 := by rw [huv]; norm_num
      generalize (2:ℝ) ^ (-1074 : ℤ) = tt at *
      linarith
    · have := Real.log_nonneg hS1; linarith
  have hNB : |N| ≤ 1010 := by
    have h1 := abs_le.mp hN3
    have h3 : 4039 * uRound ≤ 1 := by rw [huv]; norm_num
    rw [abs_le]; constructor <;> linarith [hlogS.1, hlogS.2]
  -- the entries
  have hd2 : ∀ x, ∃ e : ℝ, x ∈ xs → A.exp (A.sub (.fin x) (.fin N)) = .fin e ∧
      |e - Real.exp (x - (Real.log S + m))| ≤ 6060 * uRound * Real.exp (x - (Real.log S + m)) + uRound / 2 ^ 90 := by
    intro x
    by_cases hx : x ∈ xs
    · have hxb := abs_le.mp (hxB x hx)
      have hNb := abs_le.mp hNB
      obtain ⟨y, hy1, hy2⟩ := rnd64_rel h (x := x - N) (B := 2010)
        (by rw [abs_le]; constructor <;> linarith) (by norm_num) (by norm_num)
      have hy3 : |y - (x - (Real.log S + m))| ≤ 6056 * uRound := by
        have e1 : y - (x - (Real.log S + m)) = (y - (x - N)) + -(N - (Real.log S + m)) := by ring
        rw [e1]
        refine (abs_add_le _ _).trans ?_
        rw [abs_neg]
        linarith
      have hy0 : y ≤ 709 := by
        have h1 := (abs_le.mp hy3).2
        have h3 : 6056 * uRound ≤ 1 := by rw [huv]; norm_num
        have := hxm x hx
        linarith [hlogS.2]
      obtain ⟨e, he1, he2⟩ := exp_perturbed h hy3 (by norm_num) (by norm_num) hy0
      refine ⟨e, fun _ => ?_⟩
      rw [round_sub, hy1]
      exact ⟨he1, by
        have e1 : (6056 + 4 : ℝ) = 6060 := by norm_num
        rw [e1] at he2; exact he2⟩
    · exact ⟨0, fun h => absurd h hx⟩
  choose w hw using hd2
  have hrow : constrainSimplexRowA A (r.map .fin) = (xs.map w).map .fin := by
    simp only [constrainSimplexRowA, hlse, hcons]
    rw [List.map_map, List.map_map]
    exact List.map_congr_left fun x hx => (hw x hx).1
  refine ⟨xs.map w, hrow, ?_⟩
  have hrange := hs.simplex_row hm
  rw [hrow] at hrange
  have hW := sum_perturbed (f := w) (g := fun x => Real.exp (x - (Real.log S + m))) (a := 6060 * uRound) (b := uRound / 2 ^ 90) xs
    (fun x hx => (hw x hx).2)
  have hone : (xs.map fun x => Real.exp (x - (Real.log S + m))).sum = 1 := by
    have e1 : (fun x => Real.exp (x - (Real.log S + m))) = fun x => Real.exp (x - m) * S⁻¹ := by
      funext x
      rw [show x - (Real.log S + m) = (x - m) + -Real.log S by ring, Real.exp_add, Real.exp_neg, Real.exp_log (by linarith)]
    rw [e1, List.sum_map_mul_right, ← hS]
    exact mul_inv_cancel₀ (by linarith)
  rw [hone] at hW
  set W := (xs.map w).sum with hWdef
  have hW1 : |W - 1| ≤ 6061 * uRound := by
    refine hW.trans ?_
    have : (xs.length : ℝ) * (uRound / 2 ^ 90) ≤ uRound := by
      have h1 : (xs.length : ℝ) * (uRound / 2 ^ 90) ≤ 500 * (uRound / 2 ^ 90) := mul_le_mul_of_nonneg_right hlen' (by positivity)
      refine h1.trans ?_
      rw [huv]; norm_num
    linarith
  obtain ⟨F, hF1, hF2⟩ := h.sum (xs.map w) (by
    intro y hy
    have h1 := hrange (.fin y) (List.mem_map.mpr ⟨y, hy, rfl⟩)
    obtain ⟨x, hx, rfl⟩ := List.mem_map.mp hy
    have h3 := hs.exp_machine (A.sub (.fin x) (.fin N))
    rw [(hw x hx).1] at h3
    have h4 : w x ≤ 1 := by simpa using h1.2
    exact ⟨by simpa using h1.1, by linarith, h3⟩) (by simp; omega)
  refine ⟨F, hF1, ?_⟩
  rw [List.length_map, ← hWdef, uRound_val2] at hF2
  have e1 : F - 1 = (F - W) + (W - 1) := by ring
  rw [e1]
  refine (abs_add_le _ _).trans ?_
  have hW2 : W ≤ 2 := by
    have := (abs_le.mp hW1).2
    have h3 : 6061 * uRound ≤ 1 := by rw [huv]; norm_num
    linarith
  have hW0 : 0 ≤ W := by
    have := (abs_le.mp hW1).1
    have h3 : 6061 * uRound ≤ 1 := by rw [huv]; norm_num
    linarith
  have h4 : (xs.length : ℝ) * (2 * uRound) * W ≤ 1000 * uRound * 2 := by
    have h2 : (xs.length : ℝ) * (2 * uRound) ≤ 1000 * uRound := by nlinarith
    exact mul_le_mul h2 hW2 hW0 (by positivity)
  linarith

end Arith
end Paragami
