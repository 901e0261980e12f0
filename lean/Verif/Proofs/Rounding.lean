import Verif.Spec.Rounding
import Verif.Proofs.FreeTrip

/-! # Rounded folds: what holds on every sane machine -/

set_option linter.unusedSimpArgs false

namespace Paragami
open NDArray

namespace Flt

theorem le_notNaN {a b : Flt} (h : a.le b = true) : a.NotNaN ∧ b.NotNaN := by
  cases a <;> cases b <;> simp_all [le, lt, eq, NotNaN]

theorem le_refl' {a : Flt} (h : a.NotNaN) : a.le a = true := by
  cases a <;> simp_all [le, lt, eq, NotNaN]

theorem le_trans' {a b c : Flt} (h : a.le b = true) (h' : b.le c = true) : a.le c = true := by
  cases a <;> cases b <;> cases c <;> simp_all [le, lt, eq, NotNaN]
  next a b c =>
    rcases h with h | rfl
    · rcases h' with h' | rfl
      · exact Or.inl (h.trans h')
      · exact Or.inl h
    · exact h'

theorem not_lt_of_le {a b : Flt} (h : a.le b = true) : b.lt a = false := by
  cases a <;> cases b <;> simp_all [le, lt, eq, NotNaN]
  rcases h with h | rfl
  · exact h.le
  · exact le_rfl

theorem nan_add (a : Flt) : nan + a = nan := by cases a <;> rfl
theorem add_nan (a : Flt) : a + nan = nan := by cases a <;> rfl
theorem nan_mul (a : Flt) : nan * a = nan := by cases a <;> rfl
theorem mul_nan (a : Flt) : a * nan = nan := by cases a <;> rfl
theorem nan_div (a : Flt) : nan / a = nan := by cases a <;> rfl
theorem div_nan (a : Flt) : a / nan = nan := by cases a <;> rfl
theorem nan_sub (a : Flt) : nan - a = nan := by cases a <;> rfl
theorem sub_nan (a : Flt) : a - nan = nan := by cases a <;> rfl

theorem le_fin_iff {a b : ℝ} : (fin a).le (fin b) = true ↔ a ≤ b := by simp

/-- The numbers at least `0` that are not NaN. -/
theorem nonneg_cases {x : Flt} (h : (fin 0).le x = true) : x = pinf ∨ ∃ r, 0 ≤ r ∧ x = fin r := by
  cases x with
  | fin r => exact Or.inr ⟨r, by simpa using h, rfl⟩
  | pinf => exact Or.inl rfl
  | ninf => simp [le, lt, eq] at h
  | nan => simp [le, lt, eq] at h

theorem fin_add_nonneg {x : Flt} (h : (fin 0).le x = true) (r : ℝ) : (fin r).le (x + fin r) = true := by
  rcases nonneg_cases h with rfl | ⟨q, hq, rfl⟩
  · rfl
  · simpa using hq

theorem fin_sub_nonneg {x : Flt} (h : (fin 0).le x = true) (r : ℝ) : (fin r - x).le (fin r) = true := by
  rcases nonneg_cases h with rfl | ⟨q, hq, rfl⟩
  · rfl
  · simpa using hq

end Flt

open Flt

namespace Arith
variable {A : Arith}

@[simp] theorem round_fin (r : ℝ) : A.round (.fin r) = A.rnd r := rfl
@[simp] theorem round_pinf : A.round .pinf = .pinf := rfl
@[simp] theorem round_ninf : A.round .ninf = .ninf := rfl
@[simp] theorem round_nan : A.round .nan = .nan := rfl

theorem Sane.round_mono (h : A.Sane) {a b : Flt} (hab : a.le b = true) : (A.round a).le (A.round b) = true := by
  have key : ∀ r, (A.rnd r).NotNaN := fun r => (le_notNaN (h.mono r r le_rfl)).1
  cases a with
  | fin r =>
    cases b with
    | fin q => exact h.mono r q (by simpa using hab)
    | pinf => have := key r; simp only [round_fin, round_pinf]; cases hr : A.rnd r <;> simp_all [le, lt, eq, NotNaN]
    | ninf => simp [le, lt, eq] at hab
    | nan => simp [le, lt, eq] at hab
  | pinf => cases b <;> simp_all [le, lt, eq]
  | ninf =>
    cases b with
    | fin q => have := key q; simp only [round_fin, round_ninf]; cases hr : A.rnd q <;> simp_all [le, lt, eq, NotNaN]
    | pinf => rfl
    | ninf => rfl
    | nan => simp [le, lt, eq] at hab
  | nan => cases b <;> simp_all [le, lt, eq]

theorem Sane.rnd_notNaN (h : A.Sane) (r : ℝ) : (A.rnd r).NotNaN := (le_notNaN (h.mono r r le_rfl)).1

theorem Sane.round_notNaN (h : A.Sane) {x : Flt} (hx : x.NotNaN) : (A.round x).NotNaN := by
  cases x with
  | fin r => exact h.rnd_notNaN r
  | pinf => trivial
  | ninf => trivial
  | nan => exact hx.elim

/-- Rounding keeps a number above a machine number. -/
theorem Sane.le_round (h : A.Sane) {a b : Flt} (ha : A.Machine a) (hab : a.le b = true) : a.le (A.round b) = true := by
  have := h.round_mono hab; rwa [show A.round a = a from ha] at this

theorem Sane.round_le (h : A.Sane) {a b : Flt} (hb : A.Machine b) (hab : a.le b = true) : (A.round a).le b = true := by
  have := h.round_mono hab; rwa [show A.round b = b from hb] at this

theorem Sane.zero_machine (h : A.Sane) : A.Machine (.fin 0) := h.zero
theorem Sane.one_machine (h : A.Sane) : A.Machine (.fin 1) := h.one

theorem Sane.exp_ge (h : A.Sane) {x : Flt} (hx : x.NotNaN) : (Flt.fin 0).le (A.exp x) = true := by
  cases x with
  | fin r => exact h.exp_nonneg r
  | pinf => rw [h.exp_pinf]; rfl
  | ninf => rw [h.exp_ninf]; simp
  | nan => exact hx.elim

/-- The sum of a nonnegative number and a machine number, rounded. -/
theorem Sane.le_add (h : A.Sane) {x : Flt} (hx : (Flt.fin 0).le x = true) {r : ℝ} (hr : A.Machine (.fin r)) :
    (Flt.fin r).le (A.add x (.fin r)) = true := h.le_round hr (fin_add_nonneg hx r)

theorem Sane.sub_le (h : A.Sane) {x : Flt} (hx : (Flt.fin 0).le x = true) {r : ℝ} (hr : A.Machine (.fin r)) :
    (A.sub (.fin r) x).le (.fin r) = true := h.round_le hr (fin_sub_nonneg hx r)

theorem Sane.neg_one_mul (h : A.Sane) {y : Flt} (hy : y.NotNaN) : (A.mul (.fin (-1)) y).NotNaN := by
  apply h.round_notNaN
  cases y with
  | fin r => trivial
  | pinf => change (scaleInf (-1)).NotNaN; norm_num [scaleInf]
  | ninf => change (scaleInf (- -1)).NotNaN; simp [scaleInf]
  | nan => exact hy.elim

/-- A quotient of nonnegative numbers is nonnegative or NaN. -/
theorem Sane.ratio (h : A.Sane) {w e : Flt} (hw : (Flt.fin 0).le w = true) (he : (Flt.fin 0).le e = true) :
    A.div (A.mul w e) (A.add 1 e) = .nan ∨ (Flt.fin 0).le (A.div (A.mul w e) (A.add 1 e)) = true := by
  have h1 : (Flt.fin 1).le (A.add 1 e) = true := by
    refine h.le_round h.one_machine ?_
    rcases nonneg_cases he with rfl | ⟨q, hq, rfl⟩
    · rfl
    · simpa using hq
  have h2 : A.mul w e = .nan ∨ (Flt.fin 0).le (A.mul w e) = true := by
    have : w * e = .nan ∨ (Flt.fin 0).le (w * e) = true := by
      rcases nonneg_cases hw with rfl | ⟨q, hq, rfl⟩ <;> rcases nonneg_cases he with rfl | ⟨r, hr, rfl⟩
      · right; rfl
      · change scaleInf r = _ ∨ (Flt.fin 0).le (scaleInf r) = true
        rcases hr.lt_or_eq with h0 | rfl
        · right; simp [scaleInf, h0, le, lt]
        · left; simp [scaleInf]
      · change scaleInf q = _ ∨ (Flt.fin 0).le (scaleInf q) = true
        rcases hq.lt_or_eq with h0 | rfl
        · right; simp [scaleInf, h0, le, lt]
        · left; simp [scaleInf]
      · right; simp only [mul_fin, le_fin_iff]; positivity
    rcases this with h' | h'
    · left; simp [mul, h']
    · right; exact h.le_round h.zero_machine h'
  generalize A.mul w e = m at *
  generalize A.add 1 e = d at *
  rcases h2 with rfl | h2
  · left; simp [div, nan_div]
  · have hd : d = .pinf ∨ ∃ r, 1 ≤ r ∧ d = .fin r := by
      rcases nonneg_cases (le_trans' (by simp) h1) with rfl | ⟨r, hr, rfl⟩
      · exact Or.inl rfl
      · exact Or.inr ⟨r, by simpa using h1, rfl⟩
    have : m / d = .nan ∨ (Flt.fin 0).le (m / d) = true := by
      rcases hd with rfl | ⟨r, hr, rfl⟩ <;> rcases nonneg_cases h2 with rfl | ⟨q, hq, rfl⟩
      · left; rfl
      · right; change (Flt.fin 0).le (.fin 0) = true; simp
      · right; change (Flt.fin 0).le (if r < 0 then ninf else pinf) = true
        rw [if_neg (by linarith)]; rfl
      · right; rw [div_fin _ _ (by linarith), le_fin_iff]; positivity
    rcases this with h' | h'
    · left; simp [div, h']
    · right; exact h.le_round h.zero_machine h'

/-- One-sided and unbounded transforms stay within the bounds. -/
theorem Sane.constrain_one_sided (h : A.Sane) {lb ub y : Flt} (hl : A.Machine lb) (hu : A.Machine ub) (hlu : lb.lt ub = true)
    (h1 : lb = .ninf ∨ ub = .pinf) (hy : y.NotNaN) :
    (constrain1A A lb ub y).NotNaN ∧ lb.le (constrain1A A lb ub y) = true ∧ (constrain1A A lb ub y).le ub = true := by
  have nn : ∀ x : Flt, x.NotNaN → Flt.ninf.le x = true ∧ x.le .pinf = true := by
    intro x hx; cases x <;> simp_all [le, lt, eq, NotNaN]
  cases ub with
  | nan => cases lb <;> simp [lt] at hlu
  | ninf => cases lb <;> simp [lt] at hlu
  | pinf =>
    cases lb with
    | nan => simp [lt] at hlu
    | pinf => simp [lt] at hlu
    | ninf => simp only [constrain1A, Flt.eq, if_true]; exact ⟨hy, nn _ hy⟩
    | fin l =>
      simp only [constrain1A, Flt.eq, if_true, Bool.false_eq_true, if_false]
      have := h.le_add (h.exp_ge hy) hl
      exact ⟨(le_notNaN this).2, this, (nn _ (le_notNaN this).2).2⟩
  | fin u =>
    cases lb with
    | nan => simp [lt] at hlu
    | pinf => simp [lt] at hlu
    | fin l => simp at h1
    | ninf =>
      simp only [constrain1A, Flt.eq, if_true, Bool.false_eq_true, if_false]
      have := h.sub_le (h.exp_ge (h.neg_one_mul hy)) hu
      exact ⟨(le_notNaN this).1, (nn _ (le_notNaN this).1).1, this⟩

/-- Two-sided transforms stay above the lower bound (or are NaN). -/
theorem Sane.constrain_two_sided (h : A.Sane) {l u : ℝ} {y : Flt} (hl : A.Machine (.fin l)) (hlu : l < u) (hy : y.NotNaN) :
    constrain1A A (.fin l) (.fin u) y = .nan ∨ (Flt.fin l).le (constrain1A A (.fin l) (.fin u) y) = true := by
  simp only [constrain1A, Flt.eq, Bool.false_eq_true, if_false]
  have hw : (Flt.fin 0).le (A.sub (.fin u) (.fin l)) = true :=
    h.le_round h.zero_machine (by simpa using hlu.le)
  rcases h.ratio hw (h.exp_ge hy) with h' | h'
  · left; rw [h']; simp [add, nan_add]
  · right; exact h.le_add h' hl

/-- A two-sided transform of computed width one stays below the computed `1 + lb`. -/
theorem Sane.constrain_unit (h : A.Sane) {l u : ℝ} {y : Flt} (hw : A.sub (.fin u) (.fin l) = .fin 1) (hy : y.NotNaN) :
    constrain1A A (.fin l) (.fin u) y = .nan ∨
      (constrain1A A (.fin l) (.fin u) y).le (A.add 1 (.fin l)) = true := by
  simp only [constrain1A, Flt.eq, Bool.false_eq_true, if_false, hw]
  have he := h.exp_ge hy
  have hm := h.exp_machine y
  generalize A.exp y = e at *
  rcases nonneg_cases he with rfl | ⟨q, hq, rfl⟩
  · left
    have h1 : A.mul (.fin 1) .pinf = .pinf := by
      change A.round (scaleInf 1) = _; simp [scaleInf]
    have h2 : A.add 1 .pinf = .pinf := rfl
    rw [h1, h2]; rfl
  · right
    have h1 : A.mul (.fin 1) (.fin q) = .fin q := by
      change A.round (.fin (1 * q)) = _; rw [one_mul]; exact hm
    rw [h1]
    have h2 : (Flt.fin q).le (A.add 1 (.fin q)) = true := h.le_round hm (by simp)
    have h3 : (Flt.fin 1).le (A.add 1 (.fin q)) = true := h.le_round h.one_machine (by simpa using hq)
    have h4 : (A.div (.fin q) (A.add 1 (.fin q))).le (.fin 1) = true := by
      refine h.round_le h.one_machine ?_
      rcases nonneg_cases (le_trans' (by simp) h3) with h' | ⟨r, hr, h'⟩
      · rw [h']; change (Flt.fin 0).le _ = true; simp
      · rw [h'] at h2 h3 ⊢
        have h5 : (1:ℝ) ≤ r := by simpa using h3
        have h6 : q ≤ r := by simpa using h2
        rw [div_fin _ _ (by linarith), le_fin_iff]
        exact div_le_one_of_le₀ h6 (by linarith)
    refine h.round_mono ?_
    have h7 := h.ratio (w := .fin 1) (by simp) he
    rw [h1] at h7
    generalize A.div (.fin q) (A.add 1 (.fin q)) = t at *
    cases t with
    | nan => simp [le, lt, eq] at h4
    | pinf => simp [le, lt, eq] at h4
    | ninf => simp [le, lt, eq] at h7
    | fin t => simpa using h4

end Arith
end Paragami
