import Verif.Spec.RoundingFree
import Verif.Proofs.RoundingTwoSided
import Verif.Proofs.TriangularInverse
import Verif.Proofs.JacobianPSD
import Mathlib.Analysis.SpecialFunctions.Trigonometric.DerivHyp
import Verif.Props.RoundingCloseTrip
import Verif.Props.Conditioning

/-!
# C113: whole free vectors, folded and flattened in floating point
-/

set_option linter.unusedSimpArgs false

namespace Paragami
open NDArray Pattern Flt Spec

variable {A : Arith}

/-! ### Leaves -/

/-- An exception that the Cholesky factorization of the machine raised. -/
def FromChol (A : Arith) (e : Err) : Prop := ∃ n a, A.chol n a = .error e

theorem cosh_le {u B : ℝ} (h : |u| ≤ B) : Real.exp u + Real.exp (-u) ≤ Real.exp B + Real.exp (-B) := by
  have h1 := Real.cosh_le_cosh.mpr (show |u| ≤ |B| by rwa [abs_of_nonneg ((abs_nonneg u).trans h)])
  rw [Real.cosh_eq, Real.cosh_eq] at h1
  linarith

/-- One free value of a numeric pattern. -/
theorem numeric_recovered (hA : A.Sane) (hB : A.Accurate) (hL : A.LogAccurate) {c : NumCls} {s : List Nat} {lb ub : PyNum} {dv : Bool} {fd : Option Bool}
    (hw : (Pattern.numeric c s lb ub dv fd).WF) (hm : Moderate A (.numeric c s lb ub dv fd)) {B u : ℝ} (hr : Recoverable B (.numeric c s lb ub dv fd))
    (hB2 : B ≤ 60) (hu : A.Machine (.fin u)) (hu' : |u| ≤ B) :
    ∃ w y, constrain1A A lb.toFlt ub.toFlt (.fin u) = .fin w ∧ unconstrain1A A lb.toFlt ub.toFlt (.fin w) = .fin y ∧
      |y - u| ≤ freeError B (.numeric c s lb ub dv fd) u ∧ (Flt.fin w).lt lb.toFlt = false ∧ (Flt.fin w).gt ub.toFlt = false := by
  simp only [Pattern.WF] at hw
  simp only [Moderate] at hm
  simp only [Recoverable] at hr
  obtain ⟨h1, h2, h3⟩ := hm
  have hlt := hw.2.2.2.2.2
  have hB0 : 0 ≤ B := (abs_nonneg u).trans hu'
  have hub := abs_le.mp hu'
  simp only [freeError]
  generalize lb.toFlt = a at *
  generalize ub.toFlt = b at *
  cases a with
  | nan => cases b <;> simp [Flt.lt] at hlt
  | pinf => cases b <;> simp [Flt.lt] at hlt
  | ninf =>
    cases b with
    | nan => simp [Flt.lt] at hlt
    | ninf => simp [Flt.lt] at hlt
    | pinf =>
      exact ⟨u, u, by simp [constrain1A, Flt.eq], by simp [unconstrain1A, Flt.eq], by simp, by simp [Flt.lt], by simp [Flt.gt, Flt.lt]⟩
    | fin b =>
      obtain ⟨hb, hb'⟩ := h2 b rfl
      simp only at hr
      obtain ⟨w, y, g1, g2, g3⟩ := Arith.upper_free_trip hA hB hL hb hu (moderate_size hb') (hu'.trans (by linarith))
        (hr.trans (mul_le_mul_of_nonneg_left (Real.exp_le_exp.mpr (by linarith)) (by norm_num)))
      have h5 := hA.constrain_one_sided (lb := .ninf) (ub := .fin b) (y := .fin u) rfl hb rfl (Or.inl rfl) trivial
      rw [g1] at h5
      exact ⟨w, y, g1, g2, by simpa only [← Arith.uRound_val] using g3, not_lt_of_nan_or_le (Or.inr h5.2.1), not_gt_of_nan_or_le (Or.inr h5.2.2)⟩
  | fin a =>
    obtain ⟨ha, ha'⟩ := h1 a rfl
    cases b with
    | nan => simp [Flt.lt] at hlt
    | ninf => simp [Flt.lt] at hlt
    | pinf =>
      simp only at hr
      obtain ⟨w, y, g1, g2, g3⟩ := Arith.lower_free_trip hA hB hL ha (moderate_size ha') (hu'.trans (by linarith : B ≤ 690))
        (hr.trans (mul_le_mul_of_nonneg_left (Real.exp_le_exp.mpr (by linarith)) (by norm_num)))
      have h5 := hA.constrain_one_sided (lb := .fin a) (ub := .pinf) (y := .fin u) ha rfl rfl (Or.inr rfl) trivial
      rw [g1] at h5
      exact ⟨w, y, g1, g2, by simpa only [← Arith.uRound_val] using g3, not_lt_of_nan_or_le (Or.inr h5.2.1), not_gt_of_nan_or_le (Or.inr h5.2.2)⟩
    | fin b =>
      obtain ⟨hb, hb'⟩ := h2 b rfl
      simp only at hr
      have hd := h3 a b rfl rfl
      have hd0 : 0 < b - a := lt_of_lt_of_le (two_zpow_pos _) hd
      obtain ⟨w, y, g1, g2, g3, g4, g5⟩ := Arith.two_sided_free_trip hA hB hL ha hb ha' hb' hd (t := u)
        (le_trans (mul_le_mul_of_nonneg_left (by linarith [cosh_le hu']) (by positivity)) hr)
      exact ⟨w, y, g1, g2, by simpa only [← Arith.uRound_val] using g5, by simp [Flt.lt, g3.le], by simp [Flt.gt, Flt.lt, g4.le]⟩

/-- The factor made from a free vector, its inverse, and their sizes. -/
theorem matrix_setup {n : ℕ} {B : ℝ} (hB1 : 1 ≤ B) (hB2 : B ≤ 60) (hn : n ≤ 1000) {t : List ℝ} (hsz : ∀ u ∈ t, |u| ≤ B) :
    ∃ L W : Matrix (Fin n) (Fin n) ℝ, (∀ i : Fin n, L i i = Real.exp (lower t i i)) ∧ (∀ i j : Fin n, j < i → L i j = lower t i j) ∧
      (∀ i j : Fin n, i < j → L i j = 0) ∧ W * L = 1 ∧ (∀ i, ∑ k, |W i k| ≤ inverseSize n B) ∧ ∑ i, ∑ k, W i k ^ 2 ≤ inverseSize n B ^ 2 ∧
      (∀ i < n, ∑ k ∈ Finset.range n, factorSize t i k ^ 2 ≤ n * (Real.exp B + B) ^ 2) ∧ n * (Real.exp B + B) ^ 2 ≤ (2:ℝ) ^ (800 : ℤ) := by
  have hB0 : 0 ≤ B := by linarith
  have hE := Real.exp_pos B
  have hlow := lower_bound hB0 hsz
  let L : Matrix (Fin n) (Fin n) ℝ := fun i j => if j < i then lower t i j else if i = j then Real.exp (lower t i i) else 0
  have hLd : ∀ i : Fin n, L i i = Real.exp (lower t i i) := fun i => by simp [L]
  have hLo : ∀ i j : Fin n, j < i → L i j = lower t i j := fun i j h => by simp [L, h]
  have hLz : ∀ i j : Fin n, i < j → L i j = 0 := fun i j h => by simp [L, h.ne, not_lt.mpr h.le]
  obtain ⟨W, hW, hrow⟩ := tri_inverse hLz hB0 hE (fun i => by
    rw [hLd, ← Real.exp_add]
    exact Real.one_le_exp (by linarith [(abs_le.mp (hlow i i)).1])) (fun i j h => by rw [hLo i j h]; exact hlow i j)
  have hq1 : 1 ≤ 1 + B * Real.exp B := by have := mul_nonneg hB0 hE.le; linarith
  have hρ : ∀ i, ∑ k, |W i k| ≤ inverseSize n B := fun i => by
    refine (hrow i).trans ?_
    unfold inverseSize
    calc Real.exp B * (1 + B * Real.exp B) ^ (i : ℕ) ≤ (1 + B * Real.exp B) * (1 + B * Real.exp B) ^ (i : ℕ) :=
          mul_le_mul_of_nonneg_right (by nlinarith) (by positivity)
      _ = (1 + B * Real.exp B) ^ ((i : ℕ) + 1) := by rw [pow_succ, mul_comm]
      _ ≤ (1 + B * Real.exp B) ^ n := pow_le_pow_right₀ hq1 i.2
  have hS : ∀ i < n, ∑ k ∈ Finset.range n, factorSize t i k ^ 2 ≤ n * (Real.exp B + B) ^ 2 := fun i _ => by
    calc ∑ k ∈ Finset.range n, factorSize t i k ^ 2 ≤ ∑ _k ∈ Finset.range n, (Real.exp B + B) ^ 2 :=
          Finset.sum_le_sum fun k _ => pow_le_pow_left₀ (factorSize_nonneg _ _ _) (factorSize_bound hB0 hsz _ _) 2
      _ = n * (Real.exp B + B) ^ 2 := by simp
  have hS' : n * (Real.exp B + B) ^ 2 ≤ (2:ℝ) ^ (800 : ℤ) := by
    have h1 : Real.exp B ≤ 2 ^ (90 : ℤ) := by
      have h1 : Real.exp B ≤ Real.exp (Real.log 2 * (90:ℤ)) := by
        apply Real.exp_le_exp.mpr
        have := Real.log_two_gt_d9
        push_cast; linarith
      rwa [Real.exp_mul, Real.exp_log (by norm_num), Real.rpow_intCast] at h1
    have h2 : Real.exp B + B ≤ 2 ^ (91 : ℤ) := by
      have : (60:ℝ) ≤ 2 ^ (90 : ℤ) := le_trans (by norm_num) (Arith.small_zpow (e := 6) (f := 90) (by norm_num))
      have e : (2:ℝ) ^ (91 : ℤ) = 2 ^ (90 : ℤ) + 2 ^ (90 : ℤ) := by
        rw [show (91 : ℤ) = 90 + 1 by norm_num, Arith.zpow_split, zpow_one]; ring
      linarith
    have h3 : (n:ℝ) ≤ 2 ^ (10 : ℤ) := le_trans (by exact_mod_cast hn) (by norm_num : (1000:ℝ) ≤ 2 ^ (10 : ℤ))
    calc (n:ℝ) * (Real.exp B + B) ^ 2 ≤ 2 ^ (10 : ℤ) * (2 ^ (91 : ℤ)) ^ 2 :=
          mul_le_mul h3 (pow_le_pow_left₀ (by positivity) h2 2) (by positivity) (by positivity)
      _ = 2 ^ (192 : ℤ) := by rw [sq, ← Arith.zpow_split, ← Arith.zpow_split]; norm_num
      _ ≤ 2 ^ (800 : ℤ) := Arith.small_zpow (by norm_num)
  refine ⟨L, W, hLd, hLo, hLz, hW, hρ, ?_, hS, hS'⟩
  set q := 1 + B * Real.exp B with hq
  have hqE : Real.exp B ^ 2 ≤ q ^ 2 - 1 := by
    have : Real.exp B ≤ B * Real.exp B := by nlinarith
    nlinarith
  calc ∑ i, ∑ k, W i k ^ 2 ≤ ∑ i : Fin n, (Real.exp B * q ^ (i : ℕ)) ^ 2 := Finset.sum_le_sum fun i _ => by
        refine le_trans ?_ (pow_le_pow_left₀ (Finset.sum_nonneg fun k _ => abs_nonneg _) (hrow i) 2)
        simp only [← sq_abs (W i _)]
        exact Finset.sum_sq_le_sq_sum_of_nonneg fun k _ => abs_nonneg _
    _ = ∑ i ∈ Finset.range n, (Real.exp B * q ^ i) ^ 2 := (Finset.sum_range fun i => (Real.exp B * q ^ i) ^ 2).symm
    _ = Real.exp B ^ 2 * ∑ i ∈ Finset.range n, (q ^ 2) ^ i := by
        rw [Finset.mul_sum]; exact Finset.sum_congr rfl fun i _ => by ring_nf
    _ ≤ (q ^ 2 - 1) * ∑ i ∈ Finset.range n, (q ^ 2) ^ i := mul_le_mul_of_nonneg_right hqE (by positivity)
    _ = (q ^ 2) ^ n - 1 := mul_geom_sum _ _
    _ ≤ inverseSize n B ^ 2 := by unfold inverseSize; rw [← pow_mul, ← pow_mul, mul_comm]; linarith

/-- The bounds of C112 for every entry of a free vector. -/
theorem matrix_entries {n : ℕ} {B c : ℝ} (hB1 : 1 ≤ B) {t y : List ℝ} (hsz : ∀ u ∈ t, |u| ≤ B) (hl : t.length = n * (n + 1) / 2)
    {L : Matrix (Fin n) (Fin n) ℝ} (hLd : ∀ i : Fin n, L i i = Real.exp (lower t i i)) (hLo : ∀ i j : Fin n, j < i → L i j = lower t i j)
    (hLz : ∀ i j : Fin n, i < j → L i j = 0) (hyl : y.length = t.length)
    (hyd : ∀ i < n, |lower y i i - lower t i i| ≤
      3 * (inverseSize n B ^ 2 * matrixRounding n B c) + 2 ^ (-53 : ℤ) * (5 * |lower t i i| + 3 * Real.exp (lower t i i)))
    (hyo : ∀ i : Fin n, ∀ j < i, |lower y i j - lower t i j| ≤ 2 * (inverseSize n B ^ 2 * matrixRounding n B c) * ∑ k, |L i k|) :
    List.Forall₂ (fun u u' => |u' - u| ≤ (3 + 2 * n * (Real.exp B + B)) * (inverseSize n B ^ 2 * matrixRounding n B c) +
      2 ^ (-53 : ℤ) * (5 * B + 3 * Real.exp B)) t y := by
  have hB0 : 0 ≤ B := by linarith
  have hE := Real.exp_pos B
  have hlow := lower_bound hB0 hsz
  rw [List.forall₂_iff_get]
  refine ⟨hyl.symm, fun m h1 h2 => ?_⟩
  obtain ⟨i, j, hi, hj, hij⟩ := Jac.exists_symIndex (n := n) (c := m) (by unfold tri; rw [← hl]; exact h1)
  have hm : i * (i + 1) / 2 + j = m := by rw [← hij]; simp only [symIndex, if_pos hj]; omega
  have hget : ∀ (l : List ℝ) (h : m < l.length), l.get ⟨m, h⟩ = lower l i j := fun l h => by
    rw [lower, hm, List.getD, List.getElem?_eq_getElem h, Option.getD_some, List.get_eq_getElem]
  have e1 := hget t h1
  have e2 := hget y h2
  rw [e1, e2]
  have hε0 : 0 ≤ inverseSize n B ^ 2 * matrixRounding n B c := by
    unfold matrixRounding
    have : (0:ℝ) < 2 ^ (-53 : ℤ) := two_zpow_pos _
    have : (0:ℝ) < 2 ^ (-499 : ℤ) := two_zpow_pos _
    positivity
  have hz : (0:ℝ) < 2 ^ (-53 : ℤ) := two_zpow_pos _
  have hFs : 0 ≤ Real.exp B + B := by linarith
  rcases Nat.lt_or_eq_of_le hj with h | h
  · refine (hyo ⟨i, hi⟩ ⟨j, by omega⟩ h).trans ?_
    have hsum : ∑ k, |L ⟨i, hi⟩ k| ≤ n * (Real.exp B + B) := by
      calc ∑ k, |L ⟨i, hi⟩ k| ≤ ∑ _k : Fin n, (Real.exp B + B) := Finset.sum_le_sum fun k _ => by
            rcases lt_trichotomy k ⟨i, hi⟩ with h | rfl | h
            · rw [hLo _ _ h]; linarith [hlow i k]
            · rw [hLd, abs_of_pos (Real.exp_pos _)]
              have : Real.exp (lower t i i) ≤ Real.exp B := Real.exp_le_exp.mpr ((le_abs_self _).trans (hlow i i))
              linarith
            · rw [hLz _ _ h]; simpa using hFs
        _ = n * (Real.exp B + B) := by rw [Finset.sum_const, Finset.card_univ, Fintype.card_fin, nsmul_eq_mul]
    have g1 := mul_le_mul_of_nonneg_left hsum (mul_nonneg (by norm_num : (0:ℝ) ≤ 2) hε0)
    have g2 : 0 ≤ 2 ^ (-53 : ℤ) * (5 * B + 3 * Real.exp B) := by positivity
    generalize (2:ℝ) ^ (-53 : ℤ) * (5 * B + 3 * Real.exp B) = z at *
    generalize inverseSize n B ^ 2 * matrixRounding n B c = x at *
    nlinarith
  · rw [h]
    refine (hyd i hi).trans ?_
    have g0 : Real.exp (lower t i i) ≤ Real.exp B := Real.exp_le_exp.mpr ((le_abs_self _).trans (hlow i i))
    have g1 : (2:ℝ) ^ (-53 : ℤ) * (5 * |lower t i i| + 3 * Real.exp (lower t i i)) ≤ 2 ^ (-53 : ℤ) * (5 * B + 3 * Real.exp B) :=
      mul_le_mul_of_nonneg_left (by linarith [hlow i i]) hz.le
    have g2 : 0 ≤ (n:ℝ) * (Real.exp B + B) * (inverseSize n B ^ 2 * matrixRounding n B c) := by positivity
    generalize (2:ℝ) ^ (-53 : ℤ) * (5 * B + 3 * Real.exp B) = z at *
    generalize (2:ℝ) ^ (-53 : ℤ) * (5 * |lower t i i| + 3 * Real.exp (lower t i i)) = z' at *
    generalize inverseSize n B ^ 2 * matrixRounding n B c = x at *
    nlinarith

/-- A matrix. -/
theorem matrix_recovered (hA : A.Sane) (hB : A.Accurate) (hL : A.LogAccurate) (hD : A.DotAccurate) (hC : A.CholAccurate) {n : ℕ} {lb : PyNum}
    {dv : Bool} {fd : Option Bool} (hw : (Pattern.psd n lb dv fd).WF) (hm : Moderate A (.psd n lb dv fd)) {B : ℝ} (hr : Recoverable B (.psd n lb dv fd))
    (hB1 : 1 ≤ B) (hB2 : B ≤ 60) {t : List ℝ} (hmach : ∀ u ∈ t, A.Machine (.fin u)) (hsz : ∀ u ∈ t, |u| ≤ B)
    (hl : t.length = (Pattern.psd n lb dv fd).flatLen true) {v : Val Flt} (hv : (Pattern.psd n lb dv fd).foldFreeA A (vec (t.map .fin)) = .ok v)
    {vv : Option Bool} {w : NDArray Flt} (hflat : (Pattern.psd n lb dv fd).flattenFreeA A v vv = .ok w) :
    ∃ y : List ℝ, w = vec (y.map .fin) ∧ List.Forall₂ (fun u u' => |u' - u| ≤ freeError B (.psd n lb dv fd) u) t y := by
  simp only [Pattern.WF] at hw
  simp only [Moderate] at hm
  simp only [Recoverable] at hr
  obtain ⟨-, hfin, hmb⟩ := hm
  obtain ⟨hn, hρε⟩ := hr
  obtain ⟨c, hc⟩ := isFin_iff.mp hfin
  obtain ⟨hcm, hc'⟩ := hmb c hc
  have hmk : mkPSD n lb dv fd = .ok (.psd n lb dv fd) := by simp only [mkPSD, hw]; rfl
  have hB0 : 0 ≤ B := by linarith
  have hE := Real.exp_pos B
  simp only [flatLen, if_true] at hl
  have hlow := lower_bound hB0 hsz
  obtain ⟨L, W, hLd, hLo, hLz, hW, hρ, -, hS, hS'⟩ := matrix_setup hB1 hB2 hn hsz
  rw [hc] at hρε
  simp only [realOf] at hρε
  obtain ⟨y, hy, hyl, hyd, hyo⟩ := C112_float hA hB hL hD hC hmk hn hc hcm (hc'.trans (Arith.small_zpow (by norm_num))) hl hmach
    (fun i _ => (hlow i i).trans (by linarith)) hS hS' hLd hLo hLz hW hρ (ε := matrixRounding n B c) (le_of_eq rfl) hρε hv hflat
  refine ⟨y, hy, ?_⟩
  simp only [freeError, hc, realOf]
  exact matrix_entries hB1 hsz hl hLd hLo hLz hyl hyd hyo

/-! ### Trees -/

theorem mapE_from {ε α β : Type} {f : α → Except ε β} {e : ε} : ∀ {l : List α}, mapE f l = .error e → ∃ a ∈ l, f a = .error e
  | [], h => by simp [mapE] at h
  | a :: l, h => by
    rw [mapE] at h
    cases ha : f a with
    | error e' =>
      rw [ha] at h
      simp only [Except.error.injEq] at h
      exact ⟨a, by simp, by rw [ha, h]⟩
    | ok b =>
      rw [ha] at h
      cases hl : mapE f l with
      | ok bs => rw [hl] at h; simp at h
      | error e' =>
        rw [hl] at h
        simp only [Except.error.injEq] at h
        obtain ⟨x, hx, hx'⟩ := mapE_from hl
        exact ⟨x, by simp [hx], by rw [hx', h]⟩

/-- Every exception of the loop over an array is an exception of one of its elements. -/
theorem flattenItems_from {f : Val Flt → Except Err (NDArray Flt)} {a : NDArray Flt} {s bshape : List Nat} {e : Err} (ha : a.shape = s ++ bshape)
    (hs : 0 < s.prod) (h : flattenItems f a s = .error e) : ∃ i < s.prod, f (.arr ⟨bshape, chunk bshape.prod a.data i⟩) = .error e := by
  have h0 : mapE (fun item => (a.getItem item >>= fun sub => f (.arr sub))) (productRanges s) =
      mapE (fun item => f (.arr ⟨bshape, chunk bshape.prod a.data (ravel s item)⟩)) (productRanges s) := by
    apply mapE_congr
    intro item hi
    rw [getItem_eq ha hi]; rfl
  have h1 := mapE_productRanges s (fun i => f (.arr ⟨bshape, chunk bshape.prod a.data i⟩))
  simp only [flattenItems] at h
  rw [h0, h1] at h
  cases hm : mapE (fun i => f (.arr ⟨bshape, chunk bshape.prod a.data i⟩)) (List.range s.prod) with
  | error e' =>
    rw [hm] at h
    simp only [bind, Except.bind, Except.error.injEq] at h
    obtain ⟨i, hi, hi'⟩ := mapE_from hm
    exact ⟨i, List.mem_range.mp hi, by rw [hi', h]⟩
  | ok parts =>
    rw [hm] at h
    have hne : parts ≠ [] := by
      rintro rfl
      have := (mapE_ok_iff.mp hm).length_eq
      rw [List.length_range, List.length_nil] at this
      omega
    cases parts with
    | nil => contradiction
    | cons x xs => simp [bind, Except.bind, hstack] at h

/-- What the tree theorem says of a pattern and a free vector. -/
def Back (A : Arith) (E : Err → Prop) (B : ℝ) (p : Pattern) (t : List ℝ) (V : Val Flt) : Prop :=
  ∀ vv, (∃ m, p.validateA A V vv = .ok (true, m)) ∧
    ((∃ y : List ℝ, p.flattenFreeA A V vv = .ok (vec (y.map .fin)) ∧ Recovered (freeError B) p t y) ∨
      ∃ e, p.flattenFreeA A V vv = .error e ∧ E e)

/-- Every exception of flattening a matrix that was folded from a free vector satisfies `E`. -/
def MatrixErrors (A : Arith) (E : Err → Prop) (B : ℝ) : Prop :=
  ∀ n lb dv fd, (Pattern.psd n lb dv fd).WF → Moderate A (.psd n lb dv fd) → Recoverable B (.psd n lb dv fd) → ∀ t : List ℝ, (∀ u ∈ t, A.Machine (.fin u)) →
    (∀ u ∈ t, |u| ≤ B) → t.length = n * (n + 1) / 2 → ∀ W, (Pattern.psd n lb dv fd).foldFreeA A (vec (t.map .fin)) = .ok (.arr ⟨[n, n], W⟩) →
    ∀ vv m, PSD.validate n lb.toFlt dv ⟨[n, n], W⟩ vv = .ok (true, m) → ∀ e, packPosdefA A n lb.toFlt ⟨[n, n], W⟩ = .error e → E e

theorem matrixErrors_chol (B : ℝ) : MatrixErrors A (FromChol A) B := by
  intro n lb dv fd _ _ _ t _ _ _ W _ vv m _ e hf
  simp only [packPosdefA, bind, Except.bind] at hf
  cases hch : A.chol n (ofFn2 n n fun i j => A.sub (entry n W i j) (if i = j then lb.toFlt else 0)) with
  | error e' =>
    rw [hch] at hf
    injection hf with hf
    exact ⟨n, _, hf ▸ hch⟩
  | ok C =>
    rw [hch] at hf
    simp only [logDiagA, vectorizeLd_ofFn2] at hf
    cases hf

theorem recovered_leaf {err : Pattern → ℝ → ℝ} {p : Pattern} (hd : p.isDict = false) {t y : List ℝ} :
    Recovered err p t y ↔ List.Forall₂ (fun u u' => |u' - u| ≤ err p u) t y := by
  cases p <;> first | (simp [isDict] at hd; done) | simp only [Recovered]

/-- A leaf. -/
theorem leaf_recovered {E : Err → Prop} (hA : A.Sane) (hB : A.Accurate) (hL : A.LogAccurate) (hD : A.DotAccurate) (hC : A.CholAccurate) {p : Pattern} (hw : p.WF)
    (hm : Moderate A p) {B : ℝ} (hE : MatrixErrors A E B) (hr : Recoverable B p) (hd : p.isDict = false) (ha : ∀ s b fd, p ≠ .array s b fd) (hB1 : 1 ≤ B) (hB2 : B ≤ 60)
    {t : List ℝ} (hmach : ∀ u ∈ t, A.Machine (.fin u)) (hsz : ∀ u ∈ t, |u| ≤ B) (hl : t.length = p.flatLen true) :
    ∃ W : List Flt, p.foldFreeA A (vec (t.map .fin)) = .ok (.arr ⟨p.shape, W⟩) ∧ W.length = p.shape.prod ∧ Back A E B p t (.arr ⟨p.shape, W⟩) := by
  have hshape : p.shape ≠ [] := by
    cases p with
    | numeric c s lb ub dv fd => simp only [Pattern.WF] at hw; exact hw.1
    | simplex k s dv fd => simp [Pattern.shape]
    | psd n lb dv fd => simp [Pattern.shape]
    | array s b fd => exact absurd rfl (ha s b fd)
    | dict es l fd => simp [isDict] at hd
  obtain ⟨V, W, g1, g2, g3, g4⟩ := leaf_close hA hB hD hw hm hd ha hB1 hB2 hmach hsz hl
  have hlen : W.length = p.shape.prod := by rw [← g4.length_eq, g3]
  refine ⟨W, g2, hlen, fun vv => ?_⟩
  have fin : ∀ {y : List ℝ}, p.flattenFreeA A (.arr ⟨p.shape, W⟩) vv = .ok (vec (y.map .fin)) →
      List.Forall₂ (fun u u' => |u' - u| ≤ freeError B p u) t y →
      (∃ m, p.validateA A (.arr ⟨p.shape, W⟩) vv = .ok (true, m)) ∧
      ((∃ y : List ℝ, p.flattenFreeA A (.arr ⟨p.shape, W⟩) vv = .ok (vec (y.map .fin)) ∧ Recovered (freeError B) p t y) ∨
      ∃ e, p.flattenFreeA A (.arr ⟨p.shape, W⟩) vv = .error e ∧ E e) := fun h1 h2 =>
    ⟨flattenA_valid h1 hw fun _ => ⟨_, rfl, hshape⟩, Or.inl ⟨_, h1, (recovered_leaf hd).mpr h2⟩⟩
  cases p with
  | numeric c s lb ub dv fd =>
    have hl' : t.length = s.prod := by simpa [flatLen] using hl
    have hmk : mkNumericArray s lb ub dv fd = .ok (.numeric .array s lb ub dv fd) := by
      simp only [Pattern.WF] at hw
      exact mkNumeric_ok.mpr ⟨rfl, hw.1, by tauto, by tauto, by tauto⟩
    obtain ⟨w, y, h1, h2, h3⟩ := free_trip (A := A) hmk hl' vv (bound := freeError B (.numeric c s lb ub dv fd))
      fun u hu => numeric_recovered hA hB hL hw hm hr hB2 (hmach u hu) (hsz u hu)
    have h1' : (Pattern.numeric c s lb ub dv fd).foldFreeA A (vec (t.map .fin)) = .ok (.arr ⟨s, w.map .fin⟩) := by
      rw [← h1]; simp only [foldFreeA]
    rw [h1'] at g2
    injection g2 with g2; injection g2 with g2; injection g2 with _ g2
    subst g2
    exact fin (by rw [← h2]; simp only [flattenFreeA, Pattern.shape]) h3
  | simplex k s dv fd =>
    simp only [Pattern.WF] at hw
    simp only [Moderate] at hm
    have hmk : mkSimplex k s dv fd = .ok (.simplex k s dv fd) := by
      simp only [mkSimplex]; rw [if_neg (by omega)]; simp
    have hl' : t.length = s.prod * (k - 1) := by simpa [flatLen] using hl
    obtain ⟨w, y, h1, h2, h3⟩ := C100_free hA hB hL hmk (by omega) hB1 (by linarith) (l := t) (by simpa using hl') (fun x hx => ⟨hmach x hx, hsz x hx⟩) vv
    simp only [Int.toNat_natCast] at h1 h2 h3
    rw [h1] at g2
    injection g2 with g2; injection g2 with g2; injection g2 with _ g2
    subst g2
    exact fin h2 h3
  | psd n lb dv fd =>
    have hmach' := hm
    simp only [Moderate] at hmach'
    obtain ⟨-, hfin, hmb⟩ := hmach'
    obtain ⟨c, hc⟩ := isFin_iff.mp hfin
    obtain ⟨hcm, -⟩ := hmb c hc
    have hnan : ∀ x ∈ W, x.NotNaN := by
      intro x hx
      obtain ⟨i, hi, rfl⟩ := List.getElem_of_mem hx
      obtain ⟨v, w, -, h2, -⟩ := (List.forall₂_iff_get.mp g4).2 i (by rw [g4.length_eq]; exact hi) hi
      rw [List.get_eq_getElem] at h2
      rw [h2]; trivial
    have hfold : PSD.foldFreeA A n lb.toFlt (vec (t.map .fin)) = .ok ⟨[n, n], W⟩ := by
      simp only [foldFreeA] at g2
      obtain ⟨a, h1, h2⟩ := bind_ok g2
      simp only [pure, Except.pure, Except.ok.injEq, Val.arr.injEq] at h2
      rw [h1, h2]; rfl
    have hacc : Acc (.psd n lb dv fd) (.arr ⟨[n, n], W⟩) vv := acc_psd_A hA (by rw [hc]; exact hcm) hfin (l := t.map .fin)
      (by rw [List.length_map, hl]; simp [flatLen, tri]) (by intro x hx; obtain ⟨u, -, rfl⟩ := List.mem_map.mp hx; trivial) hfold hnan vv
    obtain ⟨m, hacc⟩ := hacc
    have hval : (Pattern.psd n lb dv fd).validateA A (.arr ⟨[n, n], W⟩) vv = .ok (true, m) := by
      simpa only [validateA, validate] using hacc
    refine ⟨⟨m, hval⟩, ?_⟩
    cases hf : (Pattern.psd n lb dv fd).flattenFreeA A (.arr ⟨[n, n], W⟩) vv with
    | ok w =>
      obtain ⟨y, rfl, hy⟩ := matrix_recovered hA hB hL hD hC hw hm hr hB1 hB2 hmach hsz hl g2 hf
      exact Or.inl ⟨y, hf, (recovered_leaf rfl).mpr hy⟩
    | error e =>
      refine Or.inr ⟨e, hf, ?_⟩
      have hval' : PSD.validate n lb.toFlt dv ⟨[n, n], W⟩ vv = .ok (true, m) := by
        simpa only [validateA, Val.asArr, bind, Except.bind] using hval
      change PSD.flattenFreeA A n lb.toFlt dv ⟨[n, n], W⟩ vv = .error e at hf
      simp only [PSD.flattenFreeA, hval', bind, Except.bind, Bool.not_true, Bool.false_eq_true, if_false, pure, Except.pure] at hf
      exact hE n lb dv fd hw hm hr t hmach hsz (by simpa [flatLen] using hl) W g2 vv m hval' e hf
  | array s b fd => exact absurd rfl (ha s b fd)
  | dict es l fd => simp [isDict] at hd

theorem tree_recovered {E : Err → Prop} (hA : A.Sane) (hB : A.Accurate) (hL : A.LogAccurate) (hD : A.DotAccurate) (hC : A.CholAccurate) {B : ℝ}
    (hE : MatrixErrors A E B) (hB1 : 1 ≤ B) (hB2 : B ≤ 60) (p : Pattern) : p.WF → Moderate A p → Recoverable B p → p.NoEmpty → ∀ t : List ℝ, (∀ u ∈ t, A.Machine (.fin u)) → (∀ u ∈ t, |u| ≤ B) →
    t.length = p.flatLen true → ∃ V, p.foldFreeA A (vec (t.map .fin)) = .ok V ∧ Back A E B p t V ∧
      (p.isDict = false → ∃ W, V = .arr ⟨p.shape, W⟩ ∧ W.length = p.shape.prod) := by
  have leaf : ∀ p : Pattern, p.isDict = false → (∀ s b fd, p ≠ .array s b fd) → p.WF → Moderate A p → Recoverable B p → p.NoEmpty → ∀ t : List ℝ,
      (∀ u ∈ t, A.Machine (.fin u)) → (∀ u ∈ t, |u| ≤ B) → t.length = p.flatLen true → ∃ V, p.foldFreeA A (vec (t.map .fin)) = .ok V ∧ Back A E B p t V ∧
      (p.isDict = false → ∃ W, V = .arr ⟨p.shape, W⟩ ∧ W.length = p.shape.prod) := by
    intro p hd ha hw hm hr _ t h1 h2 h3
    obtain ⟨W, g1, g2, g3⟩ := leaf_recovered hA hB hL hD hC hw hm hE hr hd ha hB1 hB2 h1 h2 h3
    exact ⟨_, g1, g3, fun _ => ⟨W, rfl, g2⟩⟩
  induction p using Pattern.ind (Q := fun es => WFEs es → ModerateEs A es → RecoverableEs B es → NoEmptyEs es → es.keys.Nodup → ∀ (t : List ℝ) (off : ℕ),
      (∀ u ∈ t, A.Machine (.fin u)) → (∀ u ∈ t, |u| ≤ B) → off + flatLenEs es true ≤ t.length →
      ∃ ws : List (String × Val Flt), foldFreeAEs A es (vec (t.map .fin)) off = .ok ws ∧ ∀ vs : List (String × Val Flt),
        (∀ k ∈ es.keys, vs.lookup k = ws.lookup k) → ∀ vv, (∃ m, validateAEs A es vs vv = .ok (true, m)) ∧
        ((∃ parts y, flattenFreeAEs A es vs vv = .ok parts ∧ (es ≠ .nil → parts ≠ []) ∧ parts.flatMap (·.data) = y.map .fin ∧
          RecoveredEs (freeError B) es ((t.drop off).take (flatLenEs es true)) y) ∨
        ∃ e, flattenFreeAEs A es vs vv = .error e ∧ E e)) with
  | hnum c s lb ub dv fd => exact leaf _ rfl (by simp)
  | hsim k s dv fd => exact leaf _ rfl (by simp)
  | hpsd n lb dv fd => exact leaf _ rfl (by simp)
  | harr s b fd ih =>
    intro hw hm hr hne t h1 h2 hl
    simp only [Pattern.WF] at hw
    simp only [Moderate] at hm
    simp only [Recoverable] at hr
    simp only [NoEmpty] at hne
    simp only [flatLen] at hl
    have hch : ∀ i, ∃ q : List Flt, i < s.prod → b.foldFreeA A (vec (chunk (b.flatLen true) (t.map .fin) i)) = .ok (.arr ⟨b.shape, q⟩) ∧
        q.length = b.shape.prod ∧ Back A E B b (chunk (b.flatLen true) t i) (.arr ⟨b.shape, q⟩) := by
      intro i
      by_cases hi : i < s.prod
      · have hsub : ∀ u ∈ chunk (b.flatLen true) t i, u ∈ t := fun u hu => List.mem_of_mem_drop (List.mem_of_mem_take hu)
        obtain ⟨V, g1, g2, g3⟩ := ih hw.2.2 hm hr hne.2 (chunk (b.flatLen true) t i) (fun u hu => h1 u (hsub u hu)) (fun u hu => h2 u (hsub u hu))
          (length_chunk hl hi)
        obtain ⟨w, rfl, hv⟩ := g3 hw.2.1
        rw [← chunk_map] at g1
        exact ⟨w, fun _ => ⟨g1, hv, g2⟩⟩
      · exact ⟨[], fun h => absurd h hi⟩
    choose q hq using hch
    have hl' : (t.map Flt.fin).length = s.prod * b.flatLen true := by rw [List.length_map, hl]
    have hwl : ∀ i < s.prod, (q i).length = b.shape.prod := fun i hi => (hq i hi).2.1
    have hlen := length_flatMap_range q hwl
    have e1 := foldItems_eq (f := fun sub => b.foldFreeA A sub) (x := vec (t.map .fin)) (s := s) (bshape := b.shape) (g := q)
      (fun i hi => (hq i hi).1) hwl
    refine ⟨.arr ⟨s ++ b.shape, (List.range s.prod).flatMap q⟩, ?_, fun vv => ?_, fun _ => ⟨_, rfl, by simp [Pattern.shape, hlen]⟩⟩
    · simp only [foldFreeA, checkFlat_vec hl', bind, Except.bind, e1, pure, Except.pure]
    have hc : ∀ i < s.prod, chunk b.shape.prod ((List.range s.prod).flatMap q) i = q i := fun i hi => chunk_of_flatMap q hwl hi
    have hval := validA_array (A := A) (fd := fd) (vv := vv) (a := ⟨s ++ b.shape, (List.range s.prod).flatMap q⟩) rfl fun i hi => by
      rw [hc i hi]; exact ((hq i hi).2.2 vv).1
    refine ⟨hval, ?_⟩
    have hfl : (Pattern.array s b fd).flattenFreeA A (.arr ⟨s ++ b.shape, (List.range s.prod).flatMap q⟩) vv =
        flattenItems (fun sub => b.flattenFreeA A sub vv) ⟨s ++ b.shape, (List.range s.prod).flatMap q⟩ s := by
      simp only [flattenFreeA, requireValid_true hval, bind, Except.bind, Val.asArr]
    rw [hfl]
    cases hf : flattenItems (fun sub => b.flattenFreeA A sub vv) ⟨s ++ b.shape, (List.range s.prod).flatMap q⟩ s with
    | error e =>
      obtain ⟨i, hi, hi'⟩ := flattenItems_from rfl hne.1 hf
      rw [hc i hi] at hi'
      refine Or.inr ⟨e, rfl, ?_⟩
      rcases ((hq i hi).2.2 vv).2 with ⟨y, hy, -⟩ | ⟨e', he, he'⟩
      · rw [hi'] at hy; cases hy
      · rw [hi'] at he; injection he with he; rw [he]; exact he'
    | ok x =>
      have hall := (flattenItems_ok rfl hf).2
      have hy : ∀ i, ∃ y : List ℝ, i < s.prod → b.flattenFreeA A (.arr ⟨b.shape, q i⟩) vv = .ok (vec (y.map .fin)) ∧
          List.Forall₂ (fun u u' => |u' - u| ≤ freeError B b u) (chunk (b.flatLen true) t i) y := by
        intro i
        by_cases hi : i < s.prod
        · rcases ((hq i hi).2.2 vv).2 with ⟨y, hy, hy'⟩ | ⟨e', he, he'⟩
          · exact ⟨y, fun _ => ⟨hy, (recovered_leaf hw.2.1).mp hy'⟩⟩
          · obtain ⟨z, hz⟩ := hall i hi
            simp only [hc i hi] at hz
            rw [hz] at he; cases he
        · exact ⟨[], fun h => absurd h hi⟩
      choose y hy using hy
      rw [flattenItems_eq rfl (g := fun i => (y i).map .fin) (fun i hi => by simp only [hc i hi]; exact (hy i hi).1) hne.1] at hf
      rw [← hf]
      refine Or.inl ⟨(List.range s.prod).flatMap y, by rw [List.map_flatMap], (recovered_leaf rfl).mpr ?_⟩
      rw [← chunk_flatMap _ _ t hl]
      exact forall₂_flatMap fun i hi => by simpa only [freeError] using (hy i (List.mem_range.mp hi)).2
  | hdict es ld fd ih =>
    intro hw hm hr hne t h1 h2 hl
    simp only [Pattern.WF] at hw
    simp only [Moderate] at hm
    simp only [Recoverable] at hr
    simp only [NoEmpty] at hne
    simp only [flatLen] at hl
    have hl' : (t.map Flt.fin).length = flatLenEs es true := by rw [List.length_map, hl]
    obtain ⟨ws, g1, g2⟩ := ih hw.2 hm hr hne.2 hw.1 t 0 h1 h2 (by omega)
    refine ⟨.dict ws, ?_, fun vv => ?_, by simp [isDict]⟩
    · simp only [foldFreeA, checkFlat_vec hl', bind, Except.bind, g1, pure, Except.pure]
    obtain ⟨g3, g4⟩ := g2 ws (fun _ _ => rfl) vv
    have hval : ∃ m, (Pattern.dict es ld fd).validateA A (.dict ws) vv = .ok (true, m) := by
      simpa [validateA, Val.asDict, bind, Except.bind] using g3
    refine ⟨hval, ?_⟩
    simp only [flattenFreeA, requireValid_true hval, bind, Except.bind, Val.asDict]
    rcases g4 with ⟨parts, y, k1, k2, k3, k4⟩ | ⟨e, k1, k2⟩
    · refine Or.inl ⟨y, ?_, ?_⟩
      · rw [k1]
        simp only [hstack]
        have := k2 hne.1
        split
        · contradiction
        · rw [k3]
      · rw [List.drop_zero, ← hl, List.take_length] at k4
        simpa only [Recovered] using k4
    · exact Or.inr ⟨e, by rw [k1], k2⟩
  | hnil =>
    exact ⟨[], by simp [foldFreeAEs], fun vs _ vv => ⟨⟨"", by simp [validateAEs]⟩, Or.inl ⟨[], [], by simp [flattenFreeAEs], by simp, by simp,
      by simp [RecoveredEs, flatLenEs]⟩⟩⟩
  | hcons k p rest ihp ihr hw hm hr hne hnd t off h1 h2 hl =>
    simp only [WFEs] at hw
    simp only [ModerateEs] at hm
    simp only [RecoverableEs] at hr
    simp only [NoEmptyEs] at hne
    simp only [flatLenEs] at hl
    have hkeys : (Entries.cons k p rest).keys = k :: rest.keys := by simp [Entries.keys, Entries.toList]
    rw [hkeys] at hnd
    have hnd' := List.nodup_cons.mp hnd
    have hsub : ∀ u ∈ (t.drop off).take (p.flatLen true), u ∈ t := fun u hu => List.mem_of_mem_drop (List.mem_of_mem_take hu)
    have hlen : ((t.drop off).take (p.flatLen true)).length = p.flatLen true := by simp; omega
    obtain ⟨W, g1, g2, -⟩ := ihp hw.1 hm.1 hr.1 hne.1 ((t.drop off).take (p.flatLen true)) (fun u hu => h1 u (hsub u hu))
      (fun u hu => h2 u (hsub u hu)) hlen
    obtain ⟨ws, f1, f2⟩ := ihr hw.2.2 hm.2 hr.2 hne.2 hnd'.2 t (off + p.flatLen true) h1 h2 (by omega)
    rw [List.map_take, List.map_drop] at g1
    refine ⟨(k, W) :: ws, ?_, fun vs hvs vv => ?_⟩
    · simp only [foldFreeAEs, slice, vec_data] at g1 ⊢
      simp only [g1, bind, Except.bind, f1]; rfl
    have hk : vs.lookup k = some W := by
      rw [hvs k (by rw [hkeys]; simp)]; simp [List.lookup]
    have hrest : ∀ k' ∈ rest.keys, vs.lookup k' = ws.lookup k' := by
      intro k' hk'
      rw [hvs k' (by rw [hkeys]; simp [hk'])]
      have : k' ≠ k := fun h => hnd'.1 (h ▸ hk')
      rw [List.lookup, beq_false_of_ne this]
    obtain ⟨⟨m1, v1⟩, r1⟩ := g2 vv
    obtain ⟨⟨m2, v2⟩, r2⟩ := f2 vs hrest vv
    refine ⟨⟨m2, by simp only [validateAEs, hk, v1, bind, Except.bind]; simpa using v2⟩, ?_⟩
    simp only [flattenFreeAEs, hk]
    rcases r1 with ⟨y1, a1, a2⟩ | ⟨e, a1, a2⟩
    · rcases r2 with ⟨parts, y2, b1, b2, b3, b4⟩ | ⟨e, b1, b2⟩
      · refine Or.inl ⟨vec (y1.map .fin) :: parts, y1 ++ y2, ?_, by simp, by simp [b3], _, _, y1, y2, ?_, rfl, ?_, a2, b4⟩
        · simp only [a1, b1, bind, Except.bind]; rfl
        · rw [flatLenEs, List.take_add, List.drop_drop]
        · rw [hlen]; simp [Pattern.flatLength, freeWithDefault, bind, Except.bind, pure, Except.pure]
      · exact Or.inr ⟨e, by simp only [a1, b1, bind, Except.bind], b2⟩
    · exact Or.inr ⟨e, by simp only [a1, bind, Except.bind], a2⟩

/-- **C113.**  Folding a free vector of machine numbers between `-B` and `B`, where `B` is at most 60, and flattening the result, with any pattern whose
bounds are machine numbers of moderate size: the fold succeeds, what it returns is accepted, and flattening it returns a free vector of the same length
whose entries differ from the original ones by at most `freeError B`, unless the machine's Cholesky routine raises an exception. -/
theorem C113_trip (hA : A.Sane) (hB : A.Accurate) (hL : A.LogAccurate) (hD : A.DotAccurate) (hC : A.CholAccurate) {p : Pattern} (hp : Built p)
    (hne : p.NoEmpty) (hm : Moderate A p) {B : ℝ} (hr : Recoverable B p) (hB1 : 1 ≤ B) (hB2 : B ≤ 60) {t : List ℝ}
    (ht : ∀ u ∈ t, A.Machine (.fin u) ∧ |u| ≤ B) (hl : p.flatLength (some true) = .ok t.length) :
    ∃ V, p.foldFreeA A (vec (t.map .fin)) = .ok V ∧ ∀ vv, (∃ m, p.validateA A V vv = .ok (true, m)) ∧
      ((∃ y : List ℝ, p.flattenFreeA A V vv = .ok (vec (y.map .fin)) ∧ Recovered (freeError B) p t y) ∨
        ∃ e n a, p.flattenFreeA A V vv = .error e ∧ A.chol n a = .error e) := by
  have hl' : t.length = p.flatLen true := by
    simp only [Pattern.flatLength, freeWithDefault, bind, Except.bind, pure, Except.pure] at hl
    injection hl with hl; exact hl.symm
  obtain ⟨V, h1, h2, -⟩ := tree_recovered hA hB hL hD hC (matrixErrors_chol B) hB1 hB2 p hp.wf hm hr hne t (fun u hu => (ht u hu).1) (fun u hu => (ht u hu).2) hl'
  refine ⟨V, h1, fun vv => ⟨(h2 vv).1, ?_⟩⟩
  rcases (h2 vv).2 with h | ⟨e, h3, n, a, h4⟩
  · exact Or.inl h
  · exact Or.inr ⟨e, n, a, h3, h4⟩

/-- Two numbers between zero and one, two simplexes and a two by two matrix, in binary64. -/
example : ∃ V, (Pattern.dict (.cons "x" (.numeric .vector [2] (.int 0) (.int 1) true none) (.cons "p" (.array [2] (.simplex 2 [1] true none) none)
      (.cons "m" (.psd 2 (.int 0) true none) .nil))) true none).foldFreeA binary64 (vec ([0, 1, 1, -1, 0, 1, 0].map .fin)) = .ok V ∧
    ∀ vv, (∃ m, (Pattern.dict (.cons "x" (.numeric .vector [2] (.int 0) (.int 1) true none) (.cons "p" (.array [2] (.simplex 2 [1] true none) none)
      (.cons "m" (.psd 2 (.int 0) true none) .nil))) true none).validateA binary64 V vv = .ok (true, m)) ∧
      ((∃ y : List ℝ, (Pattern.dict (.cons "x" (.numeric .vector [2] (.int 0) (.int 1) true none) (.cons "p" (.array [2] (.simplex 2 [1] true none) none)
      (.cons "m" (.psd 2 (.int 0) true none) .nil))) true none).flattenFreeA binary64 V vv = .ok (vec (y.map .fin)) ∧
        Recovered (freeError 1) (Pattern.dict (.cons "x" (.numeric .vector [2] (.int 0) (.int 1) true none) (.cons "p" (.array [2] (.simplex 2 [1] true none) none)
      (.cons "m" (.psd 2 (.int 0) true none) .nil))) true none) [0, 1, 1, -1, 0, 1, 0] y) ∨
      ∃ e n a, (Pattern.dict (.cons "x" (.numeric .vector [2] (.int 0) (.int 1) true none) (.cons "p" (.array [2] (.simplex 2 [1] true none) none)
      (.cons "m" (.psd 2 (.int 0) true none) .nil))) true none).flattenFreeA binary64 V vv = .error e ∧ binary64.chol n a = .error e) := by
  have hz : ModerateBound binary64 (.fin 0) := by
    intro c hc; injection hc with hc; subst hc
    exact ⟨binary64_sane.zero_machine, by simp⟩
  have ho : ModerateBound binary64 (.fin 1) := by
    intro c hc; injection hc with hc; subst hc
    refine ⟨by simpa using binary64_int_machine (m := 1) (by norm_num), ?_⟩
    rw [abs_one]; exact one_le_zpow₀ (by norm_num) (by norm_num)
  have he : Real.exp 1 ≤ 3 := by linarith [Real.exp_one_lt_d9]
  have he' : Real.exp (-1) ≤ 1 := Real.exp_le_one_iff.mpr (by norm_num)
  have hp := Real.exp_pos 1
  refine C113_trip binary64_sane binary64_accurate binary64_logAccurate binary64_dotAccurate binary64_cholAccurate (WF.built _ ?_) ?_ ?_ ?_ (by norm_num)
    (by norm_num) ?_ rfl
  · simp [Pattern.WF, WFEs, Entries.keys, Entries.toList, isDict, lock, PyNum.toFlt, NotNaN, lt]
  · simp [NoEmpty, NoEmptyEs]
  · simp only [Moderate, ModerateEs, PyNum.toFlt]
    refine ⟨⟨by simpa using hz, by simpa using ho, ?_⟩, by norm_num, ⟨by norm_num, by simp [IsFin], by simpa using hz⟩, trivial⟩
    intro a b ha hb
    injection ha with ha; injection hb with hb
    subst ha hb
    have : (2:ℝ) ^ (-200 : ℤ) ≤ 2 ^ (0 : ℤ) := Arith.small_zpow (by norm_num)
    simpa using this
  · simp only [Recoverable, RecoverableEs, PyNum.toFlt, realOf, inverseSize, matrixRounding]
    refine ⟨?_, trivial, ⟨by norm_num, ?_⟩, trivial⟩
    · norm_num
      linarith
    · have h1 : ((1 + 1 * Real.exp 1) ^ 2) ^ 2 ≤ ((1 + 1 * 3) ^ 2) ^ 2 := by gcongr
      have h2 : (Real.exp 1 + 1) ^ 2 ≤ (3 + 1) ^ 2 := by gcongr
      have h3 : (2:ℝ) ^ (-499 : ℤ) ≤ 2 ^ (-53 : ℤ) := Arith.small_zpow (by norm_num)
      have h4 : (2:ℝ) ^ (-53 : ℤ) * ((8 * (2:ℕ) + 20) * ((2:ℕ) * (Real.exp 1 + 1) ^ 2) + |((0:ℤ):ℝ)|) + (2:ℕ) * 2 ^ (-499 : ℤ) ≤
          2 ^ (-53 : ℤ) * ((8 * (2:ℕ) + 20) * ((2:ℕ) * (3 + 1) ^ 2) + |((0:ℤ):ℝ)|) + (2:ℕ) * 2 ^ (-53 : ℤ) := by gcongr
      have h5 := mul_le_mul h1 h4 (by positivity) (by positivity)
      refine (mul_le_mul_of_nonneg_left h5 (by positivity)).trans ?_
      norm_num
  · intro u hu
    have : ∃ m : ℤ, |m| ≤ 1 ∧ u = m := by
      simp only [List.mem_cons, List.not_mem_nil, or_false] at hu
      rcases hu with rfl | rfl | rfl | rfl | rfl | rfl | rfl
      exacts [⟨0, by norm_num, by norm_num⟩, ⟨1, by norm_num, by norm_num⟩, ⟨1, by norm_num, by norm_num⟩, ⟨-1, by norm_num, by norm_num⟩,
        ⟨0, by norm_num, by norm_num⟩, ⟨1, by norm_num, by norm_num⟩, ⟨0, by norm_num, by norm_num⟩]
    obtain ⟨m, h1, rfl⟩ := this
    exact ⟨binary64_int_machine (h1.trans (by norm_num)), by exact_mod_cast h1⟩

end Paragami
