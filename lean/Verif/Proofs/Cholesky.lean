import Verif.Proofs.PSDFree

/-! # A symmetric matrix has a Cholesky factor exactly when it is positive definite -/

set_option linter.unusedSimpArgs false

namespace Paragami
open Finset

/-- The quadratic form on the leading `n × n` block. -/
def quad (n : Nat) (A : Nat → Nat → ℝ) (x : Nat → ℝ) : ℝ :=
  ∑ i ∈ range n, ∑ j ∈ range n, x i * A i j * x j

/-- Positive definiteness of the leading `n × n` block. -/
def PD (n : Nat) (A : Nat → Nat → ℝ) : Prop :=
  (∀ i j, i < n → j < n → A i j = A j i) ∧ ∀ x : Nat → ℝ, (∃ i, i < n ∧ x i ≠ 0) → 0 < quad n A x

theorem quad_congr {n : Nat} {A B : Nat → Nat → ℝ} {x y : Nat → ℝ} (h : ∀ i < n, ∀ j < n, A i j = B i j)
    (hx : ∀ i < n, x i = y i) : quad n A x = quad n B y := by
  unfold quad
  refine sum_congr rfl fun i hi => sum_congr rfl fun j hj => ?_
  rw [h i (mem_range.mp hi) j (mem_range.mp hj), hx i (mem_range.mp hi), hx j (mem_range.mp hj)]

/-- Forward substitution. -/
theorem fwd_subst {L : Nat → Nat → ℝ} (n : Nat) (hz : ∀ i j, i < n → j < n → i < j → L i j = 0)
    (hp : ∀ i, i < n → 0 < L i i) (b : Nat → ℝ) :
    ∃ y : Nat → ℝ, ∀ j < n, ∑ k ∈ range n, L j k * y k = b j := by
  induction n with
  | zero => exact ⟨0, by simp⟩
  | succ n ih =>
    obtain ⟨y, hy⟩ := ih (fun i j hi hj => hz i j (by omega) (by omega)) (fun i hi => hp i (by omega))
    set t := (b n - ∑ k ∈ range n, L n k * y k) / L n n
    refine ⟨fun k => if k = n then t else y k, fun j hj => ?_⟩
    rw [sum_range_succ]
    have e : ∑ k ∈ range n, L j k * (if k = n then t else y k) = ∑ k ∈ range n, L j k * y k := by
      refine sum_congr rfl fun k hk => ?_
      rw [if_neg (by have := mem_range.mp hk; omega)]
    rw [e]; simp only [if_true]
    rcases Nat.lt_or_ge j n with h | h
    · rw [hy j h, hz j n hj (by omega) h]; ring
    · obtain rfl : j = n := by omega
      have := hp j hj
      simp only [t]; field_simp; ring

/-- Backward substitution. -/
theorem bwd_subst {L : Nat → Nat → ℝ} (n : Nat) (hz : ∀ i j, i < n → j < n → i < j → L i j = 0)
    (hp : ∀ i, i < n → 0 < L i i) (c : Nat → ℝ) :
    ∃ y : Nat → ℝ, ∀ k < n, ∑ j ∈ range n, L j k * y j = c k := by
  induction n generalizing c with
  | zero => exact ⟨0, by simp⟩
  | succ n ih =>
    set t := c n / L n n
    obtain ⟨y, hy⟩ := ih (fun i j hi hj => hz i j (by omega) (by omega)) (fun i hi => hp i (by omega))
      (fun k => c k - L n k * t)
    refine ⟨fun k => if k = n then t else y k, fun k hk => ?_⟩
    rw [sum_range_succ]
    have e : ∑ j ∈ range n, L j k * (if j = n then t else y j) = ∑ j ∈ range n, L j k * y j := by
      refine sum_congr rfl fun j hj => ?_
      rw [if_neg (by have := mem_range.mp hj; omega)]
    rw [e]; simp only [if_true]
    rcases Nat.lt_or_ge k n with h | h
    · rw [hy k h]; ring
    · obtain rfl : k = n := by omega
      have h0 : ∑ j ∈ range k, L j k * y j = 0 := by
        apply sum_eq_zero
        intro j hj
        rw [hz j k (by have := mem_range.mp hj; omega) hk (mem_range.mp hj)]; ring
      have := hp k hk
      rw [h0]; simp only [t]; field_simp; ring

/-- `xᵀ (L Lᵀ) x = |Lᵀ x|²`. -/
theorem quad_gram (n : Nat) (L : Nat → Nat → ℝ) (x : Nat → ℝ) :
    quad n (fun i j => ∑ k ∈ range n, L i k * L j k) x =
      ∑ k ∈ range n, (∑ i ∈ range n, L i k * x i) ^ 2 := by
  have h1 : ∀ k, (∑ i ∈ range n, L i k * x i) ^ 2 =
      ∑ i ∈ range n, ∑ j ∈ range n, x i * (L i k * L j k) * x j := by
    intro k
    rw [sq, sum_mul_sum]
    refine sum_congr rfl fun i _ => sum_congr rfl fun j _ => by ring
  simp only [h1, quad, mul_sum, sum_mul]
  rw [sum_comm (s := range n) (t := range n) (f := fun k i => ∑ j ∈ range n, x i * (L i k * L j k) * x j)]
  refine sum_congr rfl fun i _ => ?_
  rw [sum_comm]

theorem IsChol.full {n : Nat} {A L : Nat → Nat → ℝ} (h : IsChol n A L)
    (hs : ∀ i j, i < n → j < n → A i j = A j i) :
    ∀ i < n, ∀ j < n, ∑ k ∈ range n, L i k * L j k = A i j := by
  intro i hi j hj
  rcases Nat.le_total j i with hji | hij
  · exact h.2.2 i j hi hji
  · rw [hs i j hi hj, ← h.2.2 j i hj hij]
    exact sum_congr rfl fun k _ => mul_comm _ _

/-- A matrix with a Cholesky factor is positive definite. -/
theorem IsChol.pd {n : Nat} {A L : Nat → Nat → ℝ} (h : IsChol n A L)
    (hs : ∀ i j, i < n → j < n → A i j = A j i) : PD n A := by
  refine ⟨hs, fun x ⟨i, hi, hxi⟩ => ?_⟩
  rw [quad_congr (B := fun i j => ∑ k ∈ range n, L i k * L j k) (y := x)
    (fun i hi j hj => (h.full hs i hi j hj).symm) (fun _ _ => rfl), quad_gram]
  by_contra hle
  have hz : ∀ k < n, ∑ i ∈ range n, L i k * x i = 0 := by
    intro k hk
    have h0 : ∑ k ∈ range n, (∑ i ∈ range n, L i k * x i) ^ 2 = 0 :=
      le_antisymm (not_lt.mp hle) (sum_nonneg fun _ _ => sq_nonneg _)
    rw [sum_eq_zero_iff_of_nonneg (fun _ _ => sq_nonneg _)] at h0
    exact pow_eq_zero_iff (two_ne_zero) |>.mp (h0 k (mem_range.mpr hk))
  have hall : ∀ d, ∀ k, k < n → n - 1 - k ≤ d → x k = 0 := by
    intro d
    induction d with
    | zero =>
      intro k hk hd
      have := hz k hk
      rw [sum_eq_single k] at this
      · exact (mul_eq_zero.mp this).resolve_left (h.2.1 k hk).ne'
      · intro j hj hjk
        have hj := mem_range.mp hj
        rw [h.1 j k hj hk (by omega)]; ring
      · intro hk'; exact absurd (mem_range.mpr hk) hk'
    | succ d ih =>
      intro k hk hd
      have := hz k hk
      rw [sum_eq_single k] at this
      · exact (mul_eq_zero.mp this).resolve_left (h.2.1 k hk).ne'
      · intro j hj hjk
        have hj := mem_range.mp hj
        rcases Nat.lt_or_ge j k with hlt | hge
        · rw [h.1 j k hj hk hlt]; ring
        · rw [ih j hj (by omega)]; ring
      · intro hk'; exact absurd (mem_range.mpr hk) hk'
  exact hxi (hall (n - 1 - i) i hi le_rfl)

/-- A positive definite matrix has a Cholesky factor. -/
theorem PD.isChol {n : Nat} {A : Nat → Nat → ℝ} (h : PD n A) : ∃ L, IsChol n A L := by
  induction n with
  | zero => exact ⟨0, by simp [IsChol]⟩
  | succ n ih =>
    have hn : PD n A := by
      refine ⟨fun i j hi hj => h.1 i j (by omega) (by omega), fun x ⟨i, hi, hxi⟩ => ?_⟩
      have := h.2 (fun k => if k < n then x k else 0) ⟨i, by omega, by simp [hi, hxi]⟩
      have e : quad (n + 1) A (fun k => if k < n then x k else 0) = quad n A x := by
        unfold quad
        rw [sum_range_succ]
        simp only [lt_irrefl, if_false, zero_mul, sum_const_zero, add_zero]
        refine sum_congr rfl fun i hi => ?_
        rw [sum_range_succ]
        simp only [lt_irrefl, if_false, mul_zero, add_zero]
        refine sum_congr rfl fun j hj => ?_
        rw [if_pos (mem_range.mp hi), if_pos (mem_range.mp hj)]
      rwa [e] at this
    obtain ⟨L, hL⟩ := ih hn
    obtain ⟨l, hl⟩ := fwd_subst n hL.1 hL.2.1 (fun j => A n j)
    obtain ⟨y, hy⟩ := bwd_subst n hL.1 hL.2.1 l
    have hpos : 0 < A n n - ∑ k ∈ range n, l k ^ 2 := by
      have h1 := h.2 (fun k => if k < n then y k else -1) ⟨n, by omega, by simp⟩
      have e : quad (n + 1) A (fun k => if k < n then y k else -1) = A n n - ∑ k ∈ range n, l k ^ 2 := by
        have q1 : quad n A y = ∑ k ∈ range n, l k ^ 2 := by
          rw [quad_congr (B := fun i j => ∑ k ∈ range n, L i k * L j k) (y := y)
            (fun i hi j hj => (hL.full hn.1 i hi j hj).symm) (fun _ _ => rfl), quad_gram]
          exact sum_congr rfl fun k hk => by rw [hy k (mem_range.mp hk)]
        have q2 : ∑ i ∈ range n, y i * A n i = ∑ k ∈ range n, l k ^ 2 := by
          have : ∀ i ∈ range n, y i * A n i = ∑ k ∈ range n, y i * (L i k * l k) := by
            intro i hi; rw [← hl i (mem_range.mp hi), mul_sum]
          rw [sum_congr rfl this, sum_comm]
          refine sum_congr rfl fun k hk => ?_
          have : l k ^ 2 = (∑ j ∈ range n, L j k * y j) * l k := by rw [hy k (mem_range.mp hk), sq]
          rw [this, sum_mul]
          exact sum_congr rfl fun i _ => by ring
        unfold quad
        rw [sum_range_succ]
        have p1 : ∀ i ∈ range n, ∑ j ∈ range (n + 1), (if i < n then y i else -1) * A i j *
            (if j < n then y j else -1) = ∑ j ∈ range n, y i * A i j * y j - y i * A n i := by
          intro i hi
          rw [sum_range_succ, if_neg (lt_irrefl n), if_pos (mem_range.mp hi),
            h.1 i n (by have := mem_range.mp hi; omega) (by omega)]
          rw [sum_congr rfl (fun j hj => by rw [if_pos (mem_range.mp hj)])]
          ring
        have p2 : ∑ j ∈ range (n + 1), (if n < n then y n else -1) * A n j * (if j < n then y j else -1) =
            A n n - ∑ i ∈ range n, y i * A n i := by
          rw [sum_range_succ, if_neg (lt_irrefl n)]
          rw [sum_congr rfl (g := fun j => -(y j * A n j)) (fun j hj => by
            rw [if_pos (mem_range.mp hj)]; ring), sum_neg_distrib]
          ring
        rw [sum_congr rfl p1, p2, sum_sub_distrib, q2]
        unfold quad at q1
        rw [q1]; ring
      rwa [e] at h1
    set d := Real.sqrt (A n n - ∑ k ∈ range n, l k ^ 2)
    have hd : 0 < d := Real.sqrt_pos.mpr hpos
    have hdd : d * d = A n n - ∑ k ∈ range n, l k ^ 2 := Real.mul_self_sqrt hpos.le
    refine ⟨fun i j => if i = n then (if j = n then d else l j) else if j = n then 0 else L i j, ?_, ?_, ?_⟩
    · intro i j hi hj hij
      simp only
      rw [if_neg (by omega)]
      split
      · rfl
      · exact hL.1 i j (by omega) (by omega) hij
    · intro i hi
      simp only
      split
      · exact hd
      · exact hL.2.1 i (by omega)
    · intro i j hi hji
      simp only
      rw [sum_range_succ]
      have hk : ∀ k ∈ range n, ¬ k = n := fun k hk => by have := mem_range.mp hk; omega
      by_cases hin : i = n
      · subst hin
        by_cases hjn : j = i
        · subst hjn
          simp only [if_true]
          rw [sum_congr rfl (g := fun k => l k ^ 2) (fun k hk' => by rw [if_neg (hk k hk')]; ring), hdd]
          ring
        · simp only [if_true, if_neg hjn, mul_zero, add_zero]
          rw [sum_congr rfl (g := fun k => L j k * l k) (fun k hk' => by
            rw [if_neg (hk k hk'), if_neg (hk k hk')]; ring)]
          exact hl j (by omega)
      · have hjn : j ≠ n := by omega
        simp only [if_neg hin, if_neg hjn, if_true, mul_zero, add_zero]
        rw [sum_congr rfl (g := fun k => L i k * L j k) (fun k hk' => by
            rw [if_neg (hk k hk'), if_neg (hk k hk')])]
        exact hL.2.2 i j (by omega) hji

/-- `PD` is Mathlib's `Matrix.PosDef`. -/
theorem pd_iff_posDef (n : Nat) (A : Nat → Nat → ℝ) :
    PD n A ↔ (Matrix.of fun i j : Fin n => A i j).PosDef := by
  rw [Matrix.posDef_iff_dotProduct_mulVec]
  have hq : ∀ x : Fin n → ℝ, ∀ y : Nat → ℝ, (∀ i : Fin n, y i = x i) →
      quad n A y = star x ⬝ᵥ ((Matrix.of fun i j : Fin n => A i j).mulVec x) := by
    intro x y hxy
    simp only [quad, dotProduct, Matrix.mulVec, star_trivial, Matrix.of_apply, mul_sum]
    rw [Finset.sum_range]
    refine sum_congr rfl fun i _ => ?_
    rw [Finset.sum_range]
    refine sum_congr rfl fun j _ => ?_
    rw [hxy i, hxy j]; ring
  constructor
  · rintro ⟨h1, h2⟩
    refine ⟨?_, fun x hx => ?_⟩
    · ext i j
      simp only [Matrix.conjTranspose_apply, Matrix.of_apply, star_trivial]
      exact h1 j i j.2 i.2
    · obtain ⟨i, hi⟩ := Function.ne_iff.mp hx
      rw [← hq x (fun k => if hk : k < n then x ⟨k, hk⟩ else 0) (by intro i; simp)]
      exact h2 _ ⟨i, i.2, by simpa using hi⟩
  · rintro ⟨h1, h2⟩
    refine ⟨fun i j hi hj => ?_, fun x ⟨i, hi, hxi⟩ => ?_⟩
    · have := congrFun (congrFun h1 ⟨j, hj⟩) ⟨i, hi⟩
      simpa using this
    · rw [hq (fun k => x k) x (fun _ => rfl)]
      apply h2
      intro h0
      exact hxi (congrFun h0 ⟨i, hi⟩)

end Paragami
