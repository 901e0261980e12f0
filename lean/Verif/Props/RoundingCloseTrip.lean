import Verif.Props.RoundingClose

/-!
# C109: round trips of whole values in floating point
-/

set_option linter.unusedSimpArgs false

namespace Paragami
open NDArray Pattern Flt Spec

variable {A : Arith}

/-! ### Leaves -/

theorem foldA_len {p : Pattern} {l : List Flt} {v : Val Flt} (h : p.foldFreeA A (vec l) = .ok v) : l.length = p.flatLen true := by
  cases p with
  | numeric c s lb ub dv fd =>
    simp only [foldFreeA] at h
    obtain ⟨a, h1, -⟩ := bind_ok h
    simp only [Numeric.foldFreeA] at h1
    by_contra hl
    have : (vec l).atleast1d.size ≠ s.prod := by
      rw [atleast1d_of_ne (by simp [vec]), vec_size]; simpa [flatLen] using hl
    rw [if_pos this] at h1
    simp [throw, throwThe, MonadExceptOf.throw, bind, Except.bind] at h1
  | simplex k s dv fd =>
    simp only [foldFreeA] at h
    obtain ⟨a, h1, -⟩ := bind_ok h
    simp only [Simplex.foldFreeA] at h1
    obtain ⟨n, h2, h3⟩ := bind_ok h1
    have hn : n = l.length := by simpa [vec, NDArray.len] using h2.symm
    by_contra hl
    have : n ≠ (s ++ [k - 1]).prod := by rw [hn]; simpa [flatLen] using hl
    rw [if_pos this] at h3
    simp [throw, throwThe, MonadExceptOf.throw, bind, Except.bind] at h3
  | psd n lb dv fd =>
    simp only [foldFreeA] at h
    obtain ⟨a, h1, -⟩ := bind_ok h
    simp only [PSD.foldFreeA] at h1
    have h0 : (vec l).atleast1d = vec l := atleast1d_of_ne (by simp [vec])
    rw [h0] at h1
    by_contra hl
    have : (vec l).size ≠ n * (n + 1) / 2 := by rw [vec_size]; simpa [flatLen] using hl
    rw [if_pos this] at h1
    split at h1 <;> simp [throw, throwThe, MonadExceptOf.throw, bind, Except.bind] at h1
  | array s b fd =>
    simp only [foldFreeA] at h
    obtain ⟨a, h1, _⟩ := bind_ok h
    have := (checkFlat_ok h1).2.2
    simpa [flatLen, vec] using this
  | dict es l fd =>
    simp only [foldFreeA] at h
    obtain ⟨a, h1, _⟩ := bind_ok h
    have := (checkFlat_ok h1).2.2
    simpa [flatLen, vec] using this

/-- A value that was flattened is valid. -/
theorem flattenA_valid {p : Pattern} {v : Val Flt} {vv : Option Bool} {x : NDArray Flt} (h : p.flattenFreeA A v vv = .ok x)
    (hw : p.WF) (hv : p.isDict = false → ∃ a : NDArray Flt, v = .arr a ∧ a.shape ≠ []) : ∃ m, p.validateA A v vv = .ok (true, m) := by
  have key : ∀ {r : Except Err (Bool × String)} {f : Unit → Except Err (NDArray Flt)}, (requireValid r >>= f) = .ok x → ∃ m, r = .ok (true, m) := by
    intro r f h
    obtain ⟨u, h1, -⟩ := bind_ok h
    simp only [requireValid] at h1
    obtain ⟨⟨b, m⟩, h2, h3⟩ := bind_ok h1
    cases b
    · simp [throw, throwThe, MonadExceptOf.throw] at h3
    · exact ⟨m, h2⟩
  cases p with
  | numeric c s lb ub dv fd =>
    obtain ⟨a, rfl, ha⟩ := hv rfl
    simp only [flattenFreeA, Val.asArr, bind, Except.bind, Numeric.flattenFreeA, atleast1d_of_ne ha] at h
    simp only [validateA, Val.asArr, bind, Except.bind, pure, Except.pure]
    rcases hr : Numeric.validate s lb.toFlt ub.toFlt dv a vv with ⟨b, m⟩
    rw [hr] at h
    cases b
    · simp [throw, throwThe, MonadExceptOf.throw] at h
    · exact ⟨m, rfl⟩
  | simplex k s dv fd =>
    obtain ⟨a, rfl, -⟩ := hv rfl
    simp only [flattenFreeA, Val.asArr, bind, Except.bind, Simplex.flattenFreeA] at h
    simp only [validateA, Val.asArr, bind, Except.bind, pure, Except.pure]
    rcases hr : Simplex.validateA A k s dv a vv with e | ⟨b, m⟩
    · rw [hr] at h; simp at h
    · rw [hr] at h
      cases b
      · simp [throw, throwThe, MonadExceptOf.throw] at h
      · exact ⟨m, rfl⟩
  | psd n lb dv fd =>
    obtain ⟨a, rfl, -⟩ := hv rfl
    simp only [flattenFreeA, Val.asArr, bind, Except.bind, PSD.flattenFreeA] at h
    simp only [validateA, Val.asArr, bind, Except.bind, pure, Except.pure]
    rcases hr : PSD.validate n lb.toFlt dv a vv with e | ⟨b, m⟩
    · rw [hr] at h; simp at h
    · rw [hr] at h
      cases b
      · simp [throw, throwThe, MonadExceptOf.throw] at h
      · exact ⟨m, rfl⟩
  | array s b fd =>
    simp only [flattenFreeA] at h
    exact key h
  | dict es l fd =>
    simp only [flattenFreeA] at h
    exact key h

/-- One entry of a numeric pattern. -/
theorem numeric_back (hA : A.Sane) (hB : A.Accurate) (hL : A.LogAccurate) {c : NumCls} {s : List Nat} {lb ub : PyNum} {dv : Bool} {fd : Option Bool}
    (hw : (Pattern.numeric c s lb ub dv fd).WF) (hm : Moderate A (.numeric c s lb ub dv fd)) {B v : ℝ} (hv : A.Machine (.fin v))
    (hv' : |v| ≤ 2 ^ (300 : ℤ)) (h1 : ∀ c, lb.toFlt = .fin c → 2 ^ (-300 : ℤ) ≤ v - c) (h2 : ∀ c, ub.toFlt = .fin c → 2 ^ (-300 : ℤ) ≤ c - v) :
    ((Flt.fin v).lt lb.toFlt = false ∧ (Flt.fin v).gt ub.toFlt = false) ∧
    ∃ y w, unconstrain1A A lb.toFlt ub.toFlt (.fin v) = .fin y ∧ constrain1A A lb.toFlt ub.toFlt (.fin y) = .fin w ∧
      |w - v| ≤ tripError B (.numeric c s lb ub dv fd) v := by
  simp only [Pattern.WF] at hw
  simp only [Moderate] at hm
  obtain ⟨m1, m2, -⟩ := hm
  have hlt := hw.2.2.2.2.2
  have hz : (0:ℝ) < 2 ^ (-300 : ℤ) := two_zpow_pos _
  have hsm : (2:ℝ) ^ (-1000 : ℤ) ≤ 2 ^ (-300 : ℤ) := Arith.small_zpow (by norm_num)
  simp only [tripError]
  generalize lb.toFlt = a at *
  generalize ub.toFlt = b at *
  cases a with
  | nan => cases b <;> simp [Flt.lt] at hlt
  | pinf => cases b <;> simp [Flt.lt] at hlt
  | ninf =>
    cases b with
    | nan => simp [Flt.lt] at hlt
    | ninf => simp [Flt.lt] at hlt
    | pinf => exact ⟨by simp [Flt.lt, Flt.gt], v, v, by simp [unconstrain1A, Flt.eq], by simp [constrain1A, Flt.eq], by simp⟩
    | fin b =>
      obtain ⟨hb, hb'⟩ := m2 b rfl
      have h3 := h2 b rfl
      refine ⟨by simp [Flt.lt, Flt.gt]; linarith, ?_⟩
      have := Arith.upper_trip hA hB hL hb hv (moderate_size hb') (moderate_size hv') (hsm.trans h3)
      simpa only [← Arith.uRound_val] using this
  | fin a =>
    obtain ⟨ha, ha'⟩ := m1 a rfl
    have h3 := h1 a rfl
    cases b with
    | nan => simp [Flt.lt] at hlt
    | ninf => simp [Flt.lt] at hlt
    | pinf =>
      refine ⟨by simp [Flt.lt, Flt.gt]; linarith, ?_⟩
      have := Arith.lower_trip hA hB hL ha hv (moderate_size ha') (moderate_size hv') (hsm.trans h3)
      simpa only [← Arith.uRound_val] using this
    | fin b =>
      obtain ⟨hb, hb'⟩ := m2 b rfl
      have h4 := h2 b rfl
      refine ⟨by simp [Flt.lt, Flt.gt]; constructor <;> linarith, ?_⟩
      have := Arith.two_sided_trip hA hB hL ha hb hv ha' hb' hv' h3 h4
      simpa only [← Arith.uRound_val] using this

theorem numeric_back_map (hA : A.Sane) (hB : A.Accurate) (hL : A.LogAccurate) {c : NumCls} {s : List Nat} {lb ub : PyNum} {dv : Bool} {fd : Option Bool}
    (hw : (Pattern.numeric c s lb ub dv fd).WF) (hm : Moderate A (.numeric c s lb ub dv fd)) {B : ℝ} : ∀ l : List Flt,
    (∀ x ∈ l, ∃ v, x = .fin v ∧ A.Machine (.fin v) ∧ |v| ≤ 2 ^ (300 : ℤ) ∧ (∀ c, lb.toFlt = .fin c → 2 ^ (-300 : ℤ) ≤ v - c) ∧
      ∀ c, ub.toFlt = .fin c → 2 ^ (-300 : ℤ) ≤ c - v) →
    (∀ x ∈ l, x.lt lb.toFlt = false ∧ x.gt ub.toFlt = false) ∧
    ∃ (y : List ℝ) (W : List Flt), l.map (unconstrain1A A lb.toFlt ub.toFlt) = y.map .fin ∧ (y.map Flt.fin).map (constrain1A A lb.toFlt ub.toFlt) = W ∧
      List.Forall₂ (fun x y => ∃ v w : ℝ, x = .fin v ∧ y = .fin w ∧ |w - v| ≤ tripError B (.numeric c s lb ub dv fd) v) l W
  | [], _ => ⟨by simp, [], [], rfl, rfl, .nil⟩
  | x :: l, h => by
    obtain ⟨v, rfl, h1, h2, h3, h4⟩ := h x (by simp)
    obtain ⟨g0, y, w, g1, g2, g3⟩ := numeric_back hA hB hL hw hm (B := B) h1 h2 h3 h4
    obtain ⟨f0, ys, ws, f1, f2, f3⟩ := numeric_back_map hA hB hL hw hm (B := B) l fun x hx => h x (by simp [hx])
    refine ⟨?_, y :: ys, .fin w :: ws, ?_, ?_, .cons ⟨v, w, rfl, rfl, g3⟩ f3⟩
    · intro x hx
      rcases List.mem_cons.mp hx with rfl | hx
      · exact g0
      · exact f0 x hx
    · rw [List.map_cons, g1, f1, List.map_cons]
    · rw [List.map_cons, List.map_cons, g2, f2]

theorem simplex_return {B K s v w : ℝ} (hB : B ≤ 140) (hK0 : 0 ≤ 22 * B + 2 * K) (hK : K ≤ 500) (hv : 0 < v) (hs : |s - 1| ≤ 1 / 10 ^ 13)
    (h : |w - v / s| ≤ 2 ^ (-53 : ℤ) * (22 * B + 2 * K + 70) * (v / s)) : |w - v| ≤ 2 ^ (-53 : ℤ) * (22 * B + 2 * K + 1000) * v := by
  obtain ⟨h1, h2⟩ := abs_le.mp hs
  have hs0 : 0 < s := by linarith [show (1:ℝ) / 10 ^ 13 ≤ 1 / 2 by norm_num]
  have e1 : |v / s - v| ≤ 902 * 2 ^ (-53 : ℤ) * v := by
    have : v / s - v = v * ((1 - s) / s) := by field_simp
    rw [this, abs_mul, abs_of_pos hv, abs_div, abs_of_pos hs0, abs_sub_comm, mul_comm]
    apply mul_le_mul_of_nonneg_right _ hv.le
    rw [div_le_iff₀ hs0]
    calc |s - 1| ≤ 1 / 10 ^ 13 := hs
      _ ≤ 902 * 2 ^ (-53 : ℤ) * (1 - 1 / 10 ^ 13) := by norm_num
      _ ≤ 902 * 2 ^ (-53 : ℤ) * s := mul_le_mul_of_nonneg_left (by linarith) (by positivity)
  have e2 : v / s ≤ (1 + 1 / 10 ^ 10) * v := by
    rw [div_le_iff₀ hs0]
    have : 1 ≤ (1 + 1 / 10 ^ 10) * s := by
      calc (1:ℝ) ≤ (1 + 1 / 10 ^ 10) * (1 - 1 / 10 ^ 13) := by norm_num
        _ ≤ (1 + 1 / 10 ^ 10) * s := mul_le_mul_of_nonneg_left (by linarith) (by norm_num)
    nlinarith
  have e3 := abs_add_le (w - v / s) (v / s - v)
  rw [sub_add_sub_cancel] at e3
  have hz : (0:ℝ) < 2 ^ (-53 : ℤ) := two_zpow_pos _
  have e4 : 2 ^ (-53 : ℤ) * (22 * B + 2 * K + 70) * (v / s) ≤ 2 ^ (-53 : ℤ) * (22 * B + 2 * K + 70) * ((1 + 1 / 10 ^ 10) * v) :=
    mul_le_mul_of_nonneg_left e2 (mul_nonneg hz.le (by linarith))
  have e5 : (22 * B + 2 * K + 70) * (1 + 1 / 10 ^ 10) + 902 ≤ 22 * B + 2 * K + 1000 := by
    have : (22 * B + 2 * K + 70) ≤ 5000 := by linarith
    have : (22 * B + 2 * K + 70) * (1 / 10 ^ 10) ≤ 5000 * (1 / 10 ^ 10) := mul_le_mul_of_nonneg_right this (by norm_num)
    norm_num at this ⊢
    linarith
  have e6 := mul_le_mul_of_nonneg_left e5 (mul_pos hz hv).le
  generalize (2:ℝ) ^ (-53 : ℤ) = z at *
  nlinarith

theorem tripSize_bound {t : List ℝ} {B : ℝ} (hB : 0 ≤ B) (h : ∀ u ∈ t, |u| ≤ B) (i k : ℕ) : tripSize t i k ≤ (1 + Real.exp B) * (Real.exp B + B) := by
  unfold tripSize
  have hl := lower_bound hB h
  have hE := Real.exp_pos B
  have h0 : 0 ≤ Real.exp B * (Real.exp B + B) := by positivity
  split
  · nlinarith [hl i k]
  · split
    · have h1 : Real.exp (lower t i i) ≤ Real.exp B := Real.exp_le_exp.mpr ((le_abs_self _).trans (hl i i))
      have h2 := Real.exp_pos (lower t i i)
      apply mul_le_mul (by linarith) (by linarith [hl i i]) (by positivity) (by positivity)
    · nlinarith

/-- A leaf. -/
theorem leaf_back (hA : A.Sane) (hB : A.Accurate) (hL : A.LogAccurate) (hD : A.DotAccurate) (hC : A.CholAccurate) {p : Pattern} (hw : p.WF)
    (hm : Moderate A p) (hd : p.isDict = false) (ha : ∀ s b fd, p ≠ .array s b fd) {B : ℝ} (hB1 : 1 ≤ B) (hB2 : B ≤ 140) {V : Val Flt} {vv : Option Bool}
    (hV : Comfortable A B vv p V) :
    ∃ (a : NDArray Flt) (y : List ℝ) (W : List Flt), V = .arr a ∧ a.shape = p.shape ∧ p.flattenFreeA A V vv = .ok (vec (y.map .fin)) ∧
      p.foldFreeA A (vec (y.map .fin)) = .ok (.arr ⟨p.shape, W⟩) ∧ a.data.length = p.shape.prod ∧
      List.Forall₂ (fun x y => ∃ v w : ℝ, x = .fin v ∧ y = .fin w ∧ |w - v| ≤ tripError B p v) a.data W := by
  cases V with
  | dict d => cases p <;> first | (simp [isDict] at hd; done) | exact absurd hV (by simp [Comfortable])
  | arr a =>
  cases p with
  | numeric c s lb ub dv fd =>
    simp only [Comfortable] at hV
    obtain ⟨h1, h2, h3⟩ := hV
    obtain ⟨g0, y, W, g1, g2, g3⟩ := numeric_back_map hA hB hL hw hm (B := B) a.data h3
    simp only [Pattern.WF] at hw
    have hne : a.shape ≠ [] := by rw [h1]; exact hw.1
    have hlen : (y.map Flt.fin).length = s.prod := by rw [← g1, List.length_map, h2]
    refine ⟨a, y, W, rfl, h1, ?_, ?_, h2, g3⟩
    · have hval : Numeric.validate s lb.toFlt ub.toFlt dv a vv = (true, "") := by
        rw [numeric_validate_true]
        exact ⟨rfl, by rw [atleast1d_of_ne hne, h1], fun _ x hx => g0 x hx⟩
      simp only [flattenFreeA, Val.asArr, bind, Except.bind, Numeric.flattenFreeA, atleast1d_of_ne hne, hval]
      simp [pure, Except.pure, NDArray.map, NDArray.flatten, g1, vec]
    · simp only [foldFreeA, numeric_foldFreeA hlen, g2, bind, Except.bind, pure, Except.pure, Pattern.shape]
  | simplex k s dv fd =>
    have hV0 := hV
    simp only [Comfortable] at hV
    obtain ⟨h1, r, h2, h3, h4, h5⟩ := hV
    have hw0 := hw
    simp only [Pattern.WF] at hw
    simp only [Moderate] at hm
    have hmk : mkSimplex k s dv fd = .ok (.simplex k s dv fd) := by
      simp only [mkSimplex]; rw [if_neg (by omega)]; simp
    obtain ⟨y, w, g1, g2, g3⟩ := C100_trip hA hB hL hmk (by omega) hB1 hB2 (x := r) (by simpa using h3) h4 (by simpa using h5) vv
    simp only [Int.toNat_natCast] at g1 g2 g3
    obtain ⟨a1, a2⟩ := a
    simp only at h1 h2
    subst h1 h2
    have hwl : w.length = s.prod * k := by
      obtain ⟨x, e1, -, -, e3, -⟩ := round_vec (A := A) (.simplex k s dv fd) hw0 (by simp [FiniteLb]) (y.map .fin) (foldA_len g2)
      obtain ⟨d, rfl, e2⟩ := e3 rfl
      rw [g2] at e1
      injection e1 with e1; injection e1 with e1; injection e1 with _ e1
      rw [← e1] at e2; simpa [Pattern.shape] using e2
    refine ⟨_, y, w.map .fin, rfl, rfl, g1, g2, by simpa [Pattern.shape] using h3, ?_⟩
    have hch : ∀ i < s.prod, List.Forall₂ (fun v w => |w - v| ≤ tripError B (.simplex k s dv fd) v) (chunk k r i) (chunk k w i) := by
      intro i hi
      have := g3 i hi
      have hmem : ∀ v ∈ chunk k r i, 0 < v := fun v hv => (h4 v (List.mem_of_mem_drop (List.mem_of_mem_take hv))).2.1
      have hs := h5 i hi
      change List.Forall₂ _ (chunk k r i) (chunk k w i) at this
      rw [List.forall₂_iff_get] at this ⊢
      refine ⟨this.1, fun j j1 j2 => ?_⟩
      simp only [tripError]
      exact simplex_return hB2 (by have : (0:ℝ) ≤ k := by positivity
                                   linarith) (by exact_mod_cast hm) (hmem _ (List.get_mem _ _)) hs (this.2 j j1 j2)
    apply forall₂_reals
    have e1 := chunk_flatMap _ _ r h3
    have e2 := chunk_flatMap _ _ w hwl
    rw [← e1, ← e2]
    exact forall₂_flatMap fun i hi => hch i (List.mem_range.mp hi)
  | psd n lb dv fd =>
    simp only [Comfortable, ComfortableMatrix] at hV
    obtain ⟨hn, ⟨M, rfl, hsym, hM, hMd⟩, y, hy, hfl⟩ := hV
    simp only [Pattern.WF] at hw
    simp only [Moderate] at hm
    obtain ⟨-, hfin, hmb⟩ := hm
    obtain ⟨c, hc⟩ := isFin_iff.mp hfin
    obtain ⟨hcm, hc'⟩ := hmb c hc
    have hmk : mkPSD n lb dv fd = .ok (.psd n lb dv fd) := by simp only [mkPSD, hw]; rfl
    have hB0 : 0 ≤ B := by linarith
    have hfl' : (Pattern.psd n lb dv fd).flattenFreeA A (.arr ⟨[n, n], matData M⟩) vv = .ok (vec (y.map .fin)) := by
      rw [hfl]; simp [vec]
    obtain ⟨M', g1, g2, g3⟩ := C108_trip hA hB hL hD hC hmk hn hc hcm (moderate_size hc') hM (hMd c hc) hfl'
      (fun i _ => (lower_bound hB0 hy i i).trans (by linarith))
    refine ⟨_, y, matData M', rfl, rfl, hfl', g1, by rw [matData_len]; simp [Pattern.shape],
      forall₂_ofFn2 (P := fun v w => |w - v| ≤ tripError B (.psd n lb dv fd) v) ?_⟩
    have hT0 : 0 ≤ (1 + Real.exp B) * (Real.exp B + B) := by positivity
    have key : ∀ i j, j ≤ i → |M' i j - M i j| ≤ tripError B (.psd n lb dv fd) (M i j) := by
      intro i j hij
      refine (g3 i j hij).trans ?_
      simp only [tripError]
      have hsum : ∑ k ∈ Finset.range n, tripSize y i k * tripSize y j k ≤ n * ((1 + Real.exp B) * (Real.exp B + B)) ^ 2 := by
        calc ∑ k ∈ Finset.range n, tripSize y i k * tripSize y j k ≤ ∑ k ∈ Finset.range n, ((1 + Real.exp B) * (Real.exp B + B)) ^ 2 :=
              Finset.sum_le_sum fun k _ => by
                rw [sq]; exact mul_le_mul (tripSize_bound hB0 hy _ _) (tripSize_bound hB0 hy _ _) (tripSize_nonneg _ _ _) hT0
          _ = n * ((1 + Real.exp B) * (Real.exp B + B)) ^ 2 := by simp
      have h17 : (0:ℝ) ≤ 8 * n + 19 := by positivity
      have := mul_le_mul_of_nonneg_left hsum h17
      have hz : (0:ℝ) ≤ 2 ^ (-53 : ℤ) := (two_zpow_pos _).le
      have h6 := mul_le_mul_of_nonneg_left (add_le_add_left this |M i j|) hz
      rw [mul_assoc (8 * (n:ℝ) + 19)]
      generalize (2:ℝ) ^ (-53 : ℤ) = z at *
      generalize (n:ℝ) * 2 ^ (-498 : ℤ) = z at *
      linarith
    intro i j
    rcases le_total j i with h | h
    · exact key i j h
    · have e1 : M' i j = M' j i := g2.apply j i
      have e2 : M i j = M j i := hsym.apply j i
      rw [e1, e2]; exact key j i h
  | array s b fd => exact absurd rfl (ha s b fd)
  | dict es l fd => simp [isDict] at hd

/-! ### Trees -/

theorem returned_arr {err : Pattern → ℝ → ℝ} {p : Pattern} (hd : p.isDict = false) {v w : Val Flt} : Returned err p v w ↔ Near err p v w := by
  cases p <;> first | (simp [isDict] at hd; done) | simp only [Returned]

theorem validA_array {s : List ℕ} {b : Pattern} {fd : Option Bool} {a : NDArray Flt} {vv : Option Bool} (hs : a.shape = s ++ b.shape)
    (h : ∀ i < s.prod, ∃ m, b.validateA A (.arr ⟨b.shape, chunk b.shape.prod a.data i⟩) vv = .ok (true, m)) :
    ∃ m, (Pattern.array s b fd).validateA A (.arr a) vv = .ok (true, m) := by
  have hn : a.ndim = (s ++ b.shape).length := by simp [ndim, hs]
  have key := (validateItems_true (f := fun sub => b.validateA A (.arr sub) vv) hs (items := productRanges s) (fun _ h => h)).mpr (by
    intro it hit
    apply h
    rw [← List.mem_range, ← map_ravel_productRanges]
    exact List.mem_map_of_mem hit)
  simpa [validateA, Val.asArr, bind, Except.bind, hn, hs] using key

theorem requireValid_true {r : Except Err (Bool × String)} (h : ∃ m, r = .ok (true, m)) : requireValid r = .ok () := by
  obtain ⟨m, rfl⟩ := h
  rfl

theorem tree_back (hA : A.Sane) (hB : A.Accurate) (hL : A.LogAccurate) (hD : A.DotAccurate) (hC : A.CholAccurate) {B : ℝ} (hB1 : 1 ≤ B) (hB2 : B ≤ 140)
    {vv : Option Bool} (p : Pattern) : p.WF → Moderate A p → p.NoEmpty → ∀ V, Comfortable A B vv p V →
    ∃ (y : List ℝ) (W : Val Flt), p.flattenFreeA A V vv = .ok (vec (y.map .fin)) ∧ p.foldFreeA A (vec (y.map .fin)) = .ok W ∧ Returned (tripError B) p V W ∧
      (∃ m, p.validateA A V vv = .ok (true, m)) ∧
      (p.isDict = false → ∃ a w, V = .arr a ∧ a.shape = p.shape ∧ a.data.length = p.shape.prod ∧ W = .arr ⟨p.shape, w⟩) := by
  have leaf : ∀ p : Pattern, p.isDict = false → (∀ s b fd, p ≠ .array s b fd) → p.WF → Moderate A p → p.NoEmpty → ∀ V, Comfortable A B vv p V →
    ∃ (y : List ℝ) (W : Val Flt), p.flattenFreeA A V vv = .ok (vec (y.map .fin)) ∧ p.foldFreeA A (vec (y.map .fin)) = .ok W ∧ Returned (tripError B) p V W ∧
      (∃ m, p.validateA A V vv = .ok (true, m)) ∧
      (p.isDict = false → ∃ a w, V = .arr a ∧ a.shape = p.shape ∧ a.data.length = p.shape.prod ∧ W = .arr ⟨p.shape, w⟩) := by
    intro p hd ha hw hm _ V hV
    obtain ⟨a, y, W, rfl, h1, h2, h3, h4, h5⟩ := leaf_back hA hB hL hD hC hw hm hd ha hB1 hB2 hV
    have hne : a.shape ≠ [] := by
      rw [h1]
      cases p with
      | numeric c s lb ub dv fd => simp only [Pattern.WF] at hw; exact hw.1
      | simplex k s dv fd => simp [Pattern.shape]
      | psd n lb dv fd => simp [Pattern.shape]
      | array s b fd => exact absurd rfl (ha s b fd)
      | dict es l fd => simp [isDict] at hd
    exact ⟨y, _, h2, h3, (returned_arr hd).mpr ((near_arr hd).mpr ⟨h1, rfl, h4, h5⟩), flattenA_valid h2 hw fun _ => ⟨a, rfl, hne⟩,
      fun _ => ⟨a, W, rfl, h1, h4, rfl⟩⟩
  induction p using Pattern.ind (Q := fun es => WFEs es → ModerateEs A es → NoEmptyEs es → ∀ vs, ComfortableEs A B vv es vs →
      ∃ (y : List ℝ) (ws : List (String × Val Flt)), y.length = flatLenEs es true ∧
        (∃ parts, flattenFreeAEs A es vs vv = .ok parts ∧ (es ≠ .nil → parts ≠ []) ∧ parts.flatMap (·.data) = y.map .fin) ∧
        (∀ pre : List ℝ, foldFreeAEs A es (vec ((pre ++ y).map .fin)) pre.length = .ok ws) ∧ ReturnedEs (tripError B) es vs ws ∧
        ∃ m, validateAEs A es vs vv = .ok (true, m)) with
  | hnum c s lb ub dv fd => exact leaf _ rfl (by simp)
  | hsim k s dv fd => exact leaf _ rfl (by simp)
  | hpsd n lb dv fd => exact leaf _ rfl (by simp)
  | harr s b fd ih =>
    intro hw hm hne V hV
    cases V with
    | dict d => simp [Comfortable] at hV
    | arr a =>
    simp only [Comfortable] at hV
    simp only [Pattern.WF] at hw
    simp only [Moderate] at hm
    simp only [NoEmpty] at hne
    obtain ⟨hsh, hlen, hb⟩ := hV
    have hch : ∀ i, ∃ q : List ℝ × List Flt, i < s.prod →
        b.flattenFreeA A (.arr ⟨b.shape, chunk b.shape.prod a.data i⟩) vv = .ok (vec (q.1.map .fin)) ∧
        b.foldFreeA A (vec (q.1.map .fin)) = .ok (.arr ⟨b.shape, q.2⟩) ∧
        List.Forall₂ (fun x y => ∃ v w : ℝ, x = .fin v ∧ y = .fin w ∧ |w - v| ≤ tripError B b v) (chunk b.shape.prod a.data i) q.2 ∧
        ∃ m, b.validateA A (.arr ⟨b.shape, chunk b.shape.prod a.data i⟩) vv = .ok (true, m) := by
      intro i
      by_cases hi : i < s.prod
      · obtain ⟨y, W, g1, g2, g3, g4, g5⟩ := ih hw.2.2 hm hne.2 _ (hb i hi)
        obtain ⟨a', w, -, -, -, rfl⟩ := g5 hw.2.1
        exact ⟨(y, w), fun _ => ⟨g1, g2, ((near_arr hw.2.1).mp ((returned_arr hw.2.1).mp g3)).2.2.2, g4⟩⟩
      · exact ⟨([], []), fun h => absurd h hi⟩
    choose q hq using hch
    have hyl : ∀ i < s.prod, ((q i).1).length = b.flatLen true := fun i hi => by
      have := foldA_len (hq i hi).2.1
      simpa using this
    have hwl : ∀ i < s.prod, (q i).2.length = b.shape.prod := fun i hi => by
      rw [← (hq i hi).2.2.1.length_eq]; exact length_chunk hlen hi
    have hval := validA_array (A := A) (fd := fd) (vv := vv) hsh fun i hi => (hq i hi).2.2.2
    have hylen := length_flatMap_range (fun i => (q i).1) hyl
    have e1 := foldItems_eq (f := fun sub => b.foldFreeA A sub) (x := vec (((List.range s.prod).flatMap fun i => (q i).1).map .fin)) (s := s)
      (bshape := b.shape) (g := fun i => (q i).2) (len := b.flatLen true) (fun i hi => by
        rw [vec_data, chunk_map, chunk_of_flatMap (fun i => (q i).1) hyl hi]
        exact (hq i hi).2.1) hwl
    refine ⟨(List.range s.prod).flatMap fun i => (q i).1, .arr ⟨s ++ b.shape, (List.range s.prod).flatMap fun i => (q i).2⟩, ?_, ?_, ?_, hval,
      fun _ => ⟨a, _, rfl, hsh, by simpa [Pattern.shape] using hlen, rfl⟩⟩
    · simp only [flattenFreeA, requireValid_true hval, bind, Except.bind, Val.asArr]
      rw [flattenItems_eq hsh (g := fun i => (q i).1.map .fin) (fun i hi => (hq i hi).1) hne.1, List.map_flatMap]
    · simp only [foldFreeA]
      rw [checkFlat_vec (by rw [List.length_map, hylen])]
      simp only [bind, Except.bind, e1, pure, Except.pure]
    · rw [returned_arr rfl, near_arr rfl]
      refine ⟨hsh, rfl, by simpa [Pattern.shape] using hlen, ?_⟩
      conv => arg 2; rw [← chunk_flatMap _ _ a.data hlen]
      exact flatMap_rel fun i hi => by simpa only [tripError] using (hq i (List.mem_range.mp hi)).2.2.1
  | hdict es ld fd ih =>
    intro hw hm hne V hV
    cases V with
    | arr a => simp [Comfortable] at hV
    | dict vs =>
    simp only [Comfortable] at hV
    simp only [Pattern.WF] at hw
    simp only [Moderate] at hm
    simp only [NoEmpty] at hne
    obtain ⟨y, ws, h1, ⟨parts, h2, h3, h4⟩, h5, h6, h7⟩ := ih hw.2 hm hne.2 vs hV
    have hval : ∃ m, (Pattern.dict es ld fd).validateA A (.dict vs) vv = .ok (true, m) := by
      simpa [validateA, Val.asDict, bind, Except.bind] using h7
    refine ⟨y, .dict ws, ?_, ?_, h6, hval, by simp [isDict]⟩
    · simp only [flattenFreeA, requireValid_true hval, bind, Except.bind, Val.asDict, h2, hstack]
      have := h3 hne.1
      split
      · contradiction
      · rw [h4]
    · have := h5 []
      simp only [List.nil_append, List.length_nil] at this
      simp only [foldFreeA]
      rw [checkFlat_vec (by simpa using h1)]
      simp only [bind, Except.bind, this]
      rfl
  | hnil hw hm hne vs hV =>
    exact ⟨[], [], by simp [flatLenEs], ⟨[], by simp [flattenFreeAEs], by simp, by simp⟩, fun pre => by simp [foldFreeAEs], by simp [ReturnedEs],
      "", by simp [validateAEs]⟩
  | hcons k p rest ihp ihr hw hm hne vs hV =>
    simp only [WFEs] at hw
    simp only [ModerateEs] at hm
    simp only [NoEmptyEs] at hne
    simp only [ComfortableEs] at hV
    obtain ⟨⟨v, hl, hv⟩, hV⟩ := hV
    obtain ⟨y1, w, a1, a2, a3, ⟨m1, a4⟩, -⟩ := ihp hw.1 hm.1 hne.1 v hv
    obtain ⟨y2, ws, b1, ⟨parts, b2, b3, b4⟩, b5, b6, m2, b7⟩ := ihr hw.2.2 hm.2 hne.2 vs hV
    have hy1 : y1.length = p.flatLen true := by simpa using foldA_len a2
    refine ⟨y1 ++ y2, (k, w) :: ws, by simp [hy1, b1, flatLenEs], ⟨vec (y1.map .fin) :: parts, ?_, by simp, by simp [b4]⟩, fun pre => ?_,
      ⟨rfl, ⟨v, hl, a3⟩, b6⟩, ?_⟩
    · simp only [flattenFreeAEs, hl, a1, bind, Except.bind, b2]
      rfl
    · have e1 : (vec ((pre ++ (y1 ++ y2)).map Flt.fin)).slice pre.length (p.flatLen true) = vec (y1.map .fin) := by
        simp only [slice, vec_data, vec_inj, ← List.map_drop, ← List.map_take, List.drop_left, ← hy1, List.take_left]
      have e2 := b5 (pre ++ y1)
      rw [List.append_assoc, List.length_append, hy1] at e2
      simp only [foldFreeAEs, e1, a2, e2, bind, Except.bind]
      rfl
    · simp only [validateAEs, hl, a4, bind, Except.bind]
      exact ⟨m2, by simpa using b7⟩

/-- **C109, round trips.**  Flattening a value away from the bounds succeeds, and folding what it gives returns the value: the same keys (in the order of the
pattern), the same shapes, and every entry within `tripError B` of what it was. -/
theorem C109_trip (hA : A.Sane) (hB : A.Accurate) (hL : A.LogAccurate) (hD : A.DotAccurate) (hC : A.CholAccurate) {p : Pattern} (hp : Built p)
    (hne : p.NoEmpty) (hm : Moderate A p) {B : ℝ} (hB1 : 1 ≤ B) (hB2 : B ≤ 140) {V : Val Flt} {vv : Option Bool} (hV : Comfortable A B vv p V) :
    ∃ (y : List ℝ) (W : Val Flt), p.flattenFreeA A V vv = .ok (vec (y.map .fin)) ∧ p.foldFreeA A (vec (y.map .fin)) = .ok W ∧
      Returned (tripError B) p V W := by
  obtain ⟨y, W, h1, h2, h3, -⟩ := tree_back hA hB hL hD hC hB1 hB2 p hp.wf hm hne V hV
  exact ⟨y, W, h1, h2, h3⟩

/-- Two positive numbers, a matrix and three probabilities, given in another order than the pattern's, in binary64. -/
example : ∃ (y : List ℝ) (W : Val Flt),
    (Pattern.dict (.cons "p" (.simplex 3 [1] true none) (.cons "m" (.psd 2 (.int 0) true none)
      (.cons "x" (.numeric .vector [2] (.int 0) (.flt .pinf) true none) .nil))) true none).flattenFreeA binary64
        (.dict [("x", .arr ⟨[2], [3, 1 / 2].map .fin⟩), ("p", .arr ⟨[1, 3], [1 / 2, 1 / 4, 1 / 4].map .fin⟩),
          ("m", .arr ⟨[2, 2], matData !![4, 2; 2, 5]⟩)]) (some false) = .ok (vec (y.map .fin)) ∧
    (Pattern.dict (.cons "p" (.simplex 3 [1] true none) (.cons "m" (.psd 2 (.int 0) true none)
      (.cons "x" (.numeric .vector [2] (.int 0) (.flt .pinf) true none) .nil))) true none).foldFreeA binary64 (vec (y.map .fin)) = .ok W ∧
    Returned (tripError 2) (Pattern.dict (.cons "p" (.simplex 3 [1] true none) (.cons "m" (.psd 2 (.int 0) true none)
      (.cons "x" (.numeric .vector [2] (.int 0) (.flt .pinf) true none) .nil))) true none)
        (.dict [("x", .arr ⟨[2], [3, 1 / 2].map .fin⟩), ("p", .arr ⟨[1, 3], [1 / 2, 1 / 4, 1 / 4].map .fin⟩),
          ("m", .arr ⟨[2, 2], matData !![4, 2; 2, 5]⟩)]) W := by
  have hz : ModerateBound binary64 (.fin 0) := by
    intro c hc; injection hc with hc; subst hc
    exact ⟨binary64_sane.zero_machine, by simp⟩
  obtain ⟨hmach, y2, hb2, hfl⟩ := four64
  have h8 : (8 : ℝ) ≤ 2 ^ (300 : ℤ) := by
    have : (2 : ℝ) ^ (3 : ℤ) ≤ 2 ^ (300 : ℤ) := Arith.small_zpow (by norm_num)
    exact le_trans (by norm_num) this
  have h9 : (8 : ℝ) ≤ 2 ^ (900 : ℤ) := by
    have : (2 : ℝ) ^ (3 : ℤ) ≤ 2 ^ (900 : ℤ) := Arith.small_zpow (by norm_num)
    exact le_trans (by norm_num) this
  have h0 : (2 : ℝ) ^ (-300 : ℤ) ≤ 1 / 2 := by
    have : (2 : ℝ) ^ (-300 : ℤ) ≤ 2 ^ (-1 : ℤ) := Arith.small_zpow (by norm_num)
    exact this.trans (by norm_num)
  refine C109_trip binary64_sane binary64_accurate binary64_logAccurate binary64_dotAccurate binary64_cholAccurate (WF.built _ ?_) ?_ ?_ (by norm_num)
    (by norm_num) ⟨⟨_, rfl, rfl, _, rfl, rfl, quarters.1, ?_⟩, ⟨_, rfl, by norm_num, ⟨_, rfl, ?_, ?_, ?_⟩, [y2, 1, y2], ?_, hfl⟩,
      ⟨_, rfl, rfl, rfl, ?_⟩, trivial⟩
  · simp [Pattern.WF, WFEs, Entries.keys, Entries.toList, isDict, lock, PyNum.toFlt, NotNaN, lt]
  · simp [NoEmpty, NoEmptyEs]
  · simpa [Moderate, ModerateEs, PyNum.toFlt, IsFin, ModerateBound] using hz
  · intro i hi
    have : i = 0 := by simpa using hi
    subst this
    have := quarters.2
    simpa [block] using this
  · ext i j
    fin_cases i <;> fin_cases j <;> simp
  · refine fun i j => ⟨hmach i j, le_trans ?_ h9⟩
    fin_cases i <;> fin_cases j <;> simp <;> norm_num
  · intro c hc i
    have : c = 0 := by simpa [PyNum.toFlt, eq_comm] using hc
    subst this
    fin_cases i <;> simp <;> norm_num
  · intro u hu
    simp only [List.mem_cons, List.not_mem_nil, or_false] at hu
    rcases hu with rfl | rfl | rfl
    exacts [hb2, by norm_num, hb2]
  · intro x hx
    have hx' : x = .fin 3 ∨ x = .fin (1 / 2) := by simpa using hx
    rcases hx' with rfl | rfl
    · refine ⟨3, rfl, by simpa using binary64_int_machine (m := 3) (by norm_num), le_trans (by norm_num) h8, ?_, by simp [PyNum.toFlt]⟩
      intro c hc
      have : c = 0 := by simpa [PyNum.toFlt, eq_comm] using hc
      subst this
      linarith
    · refine ⟨1 / 2, rfl, (quarters.1 _ (by simp)).1, le_trans (by norm_num) h8, ?_, by simp [PyNum.toFlt]⟩
      intro c hc
      have : c = 0 := by simpa [PyNum.toFlt, eq_comm] using hc
      subst this
      linarith

end Paragami
