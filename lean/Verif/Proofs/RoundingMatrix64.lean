import Verif.Proofs.RoundingLogDiag
import Verif.Proofs.NonfreeTrip

/-! # Binary64 multiplies matrices and factors them accurately -/

set_option linter.unusedSimpArgs false

namespace Paragami
open NDArray Flt Arith Pattern

theorem tiny_split : (2:ℝ) ^ (-1074 : ℤ) = 2 * 2 ^ (-1075 : ℤ) := by
  rw [show (-1074 : ℤ) = 1 + -1075 by norm_num, zpow_split, zpow_one]

/-- The loop of the sum of products, from the second product on. -/
theorem foldl_dot_acc : ∀ (l : List (ℝ × ℝ)) (k : ℕ) (s T U : ℝ), 1 ≤ k → k + l.length ≤ 2 ^ 20 → rndReal s = s → |T| ≤ U →
    U + (l.map fun p => |p.1| * |p.2|).sum ≤ 2 ^ (1000 : ℤ) → |s - T| ≤ k * (2 * uRound) * U + k * (2 * 2 ^ (-1075 : ℤ)) →
    ∃ v, (l.map fun p => ((.fin p.1, .fin p.2) : Flt × Flt)).foldl (fun a p => round64 (a + round64 (p.1 * p.2))) (.fin s) = .fin v ∧ rndReal v = v ∧
      |v - (T + (l.map fun p => p.1 * p.2).sum)| ≤ (k + l.length : ℕ) * (2 * uRound) * (U + (l.map fun p => |p.1| * |p.2|).sum) +
        (k + l.length : ℕ) * (2 * 2 ^ (-1075 : ℤ))
  | [], k, s, T, U, _, _, hs, _, _, h => ⟨s, rfl, hs, by simpa using h⟩
  | (x, y) :: l, k, s, T, U, hk1, hk2, hs, hT, hU, h => by
    have hu := uRound_pos
    have hu' : uRound ≤ 1 / 2 ^ 50 := uRound_le
    have ht : (0:ℝ) < 2 ^ (-1075 : ℤ) := two_zpow_pos _
    have ht1 : (2:ℝ) ^ (-1075 : ℤ) ≤ 1 := by have := small_zpow (e := -1075) (f := 0) (by norm_num); simpa using this
    have hw1 : (1:ℝ) ≤ 2 ^ (1000 : ℤ) := by have := small_zpow (e := 0) (f := 1000) (by norm_num); simpa using this
    have hw2 : (2:ℝ) ^ (1010 : ℤ) = 2 ^ (1000 : ℤ) * 1024 := by rw [show (1010 : ℤ) = 1000 + 10 by norm_num, zpow_split]; norm_num
    have hsum0 : 0 ≤ (l.map fun p => |p.1| * |p.2|).sum := List.sum_nonneg (by
      intro r hr
      obtain ⟨p, _, rfl⟩ := List.mem_map.mp hr
      positivity)
    have hU0 : 0 ≤ U := (abs_nonneg _).trans hT
    have hkb : (k:ℝ) ≤ 2 ^ 20 := by
      have : k ≤ 2 ^ 20 := by omega
      exact_mod_cast this
    have hk1' : (1:ℝ) ≤ k := by exact_mod_cast hk1
    have hku : (k:ℝ) * (2 * uRound) ≤ 1 / 100 := by
      calc (k:ℝ) * (2 * uRound) ≤ 2 ^ 20 * (2 * (1 / 2 ^ 50)) := mul_le_mul hkb (by linarith) (by positivity) (by norm_num)
        _ ≤ 1 / 100 := by norm_num
    simp only [List.map_cons, List.sum_cons, List.foldl_cons, List.length_cons] at hU hk2 ⊢
    set z := |x| * |y| with hz
    have hz0 : 0 ≤ z := by positivity
    have hzxy : |x * y| = z := abs_mul x y
    -- the product
    have p1 : round64 (Flt.fin x * .fin y) = .fin (rndReal (x * y)) := by
      rw [mul_fin, ← round64_eq]
      apply binary64_accurate.round_le
      rw [hzxy, hw2]
      clear hw2
      generalize (2:ℝ) ^ (1000 : ℤ) = w at *
      linarith
    have p2 := rndReal_rel (x * y)
    rw [uRound_val, hzxy] at p2
    set P := rndReal (x * y) with hP
    have p3 : |P| ≤ z + (uRound * z + 2 ^ (-1075 : ℤ)) := by
      have := abs_add_le (P - x * y) (x * y); rw [sub_add_cancel, hzxy] at this; linarith
    -- the sum
    have hsT : |s| ≤ U + (k * (2 * uRound) * U + k * (2 * 2 ^ (-1075 : ℤ))) := by
      have := abs_add_le (s - T) T; rw [sub_add_cancel] at this; linarith
    have hsP : |s + P| ≤ U + (k * (2 * uRound) * U + k * (2 * 2 ^ (-1075 : ℤ))) + (z + (uRound * z + 2 ^ (-1075 : ℤ))) :=
      (abs_add_le _ _).trans (add_le_add hsT p3)
    have b1 : k * (2 * uRound) * U ≤ 1 / 100 * U := mul_le_mul_of_nonneg_right hku hU0
    have b2 : uRound * z ≤ 1 / 100 * z := mul_le_mul_of_nonneg_right (hu'.trans (by norm_num)) hz0
    have hsb : |s + P| ≤ 2 ^ (1010 : ℤ) := by
      have b3 : (k:ℝ) * (2 * 2 ^ (-1075 : ℤ)) ≤ 2 := by
        have e1 : (2:ℝ) ^ (-1075 : ℤ) ≤ 2 ^ (-20 : ℤ) := small_zpow (by norm_num)
        calc (k:ℝ) * (2 * 2 ^ (-1075 : ℤ)) ≤ 2 ^ 20 * (2 * 2 ^ (-20 : ℤ)) := mul_le_mul hkb (by linarith) (by positivity) (by norm_num)
          _ = 2 := by norm_num
      rw [hw2]
      clear hw2
      generalize (2:ℝ) ^ (1000 : ℤ) = w at *
      linarith
    have s1 : round64 (Flt.fin s + .fin P) = .fin (rndReal (s + P)) := by
      rw [add_fin, ← round64_eq]; exact binary64_accurate.round_le hsb
    have s2 := rndReal_add_rel hs (show rndReal P = P from rndReal_idem _)
    rw [uRound_val] at s2
    rw [p1, s1]
    obtain ⟨v, h1, h2, h3⟩ := foldl_dot_acc l (k + 1) (rndReal (s + P)) (T + x * y) (U + z) (by omega) (by omega) (rndReal_idem _)
      ((abs_add_le _ _).trans (by rw [hzxy]; linarith)) (by linarith) (by
      have e1 : |rndReal (s + P) - (T + x * y)| ≤ |rndReal (s + P) - (s + P)| + |s - T| + |P - x * y| := by
        have a1 := abs_add_le (rndReal (s + P) - (s + P)) (s - T)
        have a2 := abs_add_le (rndReal (s + P) - (s + P) + (s - T)) (P - x * y)
        rw [show rndReal (s + P) - (s + P) + (s - T) + (P - x * y) = rndReal (s + P) - (T + x * y) by ring] at a2
        linarith
      have e2 : uRound * |s + P| ≤ uRound * (102 / 100 * U + 102 / 100 * z + (k * (2 * 2 ^ (-1075 : ℤ)) + 2 ^ (-1075 : ℤ))) :=
        mul_le_mul_of_nonneg_left (by linarith) hu.le
      have e3 : uRound * (k * (2 * 2 ^ (-1075 : ℤ)) + 2 ^ (-1075 : ℤ)) ≤ 2 ^ (-1075 : ℤ) := by
        have : uRound * (k * 2 + 1) ≤ 1 := by
          calc uRound * (k * 2 + 1) ≤ 1 / 2 ^ 50 * (2 ^ 20 * 2 + 1) := mul_le_mul hu' (by linarith) (by positivity) (by norm_num)
            _ ≤ 1 := by norm_num
        calc uRound * (k * (2 * 2 ^ (-1075 : ℤ)) + 2 ^ (-1075 : ℤ)) = uRound * (k * 2 + 1) * 2 ^ (-1075 : ℤ) := by ring
          _ ≤ 1 * 2 ^ (-1075 : ℤ) := mul_le_mul_of_nonneg_right this ht.le
          _ = _ := one_mul _
      have e4 : uRound * z ≤ k * (uRound * z) := le_mul_of_one_le_left (by positivity) hk1'
      have e5 := mul_nonneg hu.le hU0
      have e6 := mul_nonneg hu.le hz0
      push_cast
      generalize (2:ℝ) ^ (-1075 : ℤ) = t at *
      clear hw2 hw1 hU hsb p1 s1
      nlinarith)
    refine ⟨v, h1, h2, ?_⟩
    rw [show k + (l.length + 1) = k + 1 + l.length by omega, ← add_assoc, ← add_assoc]
    exact h3

theorem binary64_dotAccurate : binary64.DotAccurate where
  dot l hl hm hS := by
    change ∃ v, (l.map fun p => ((.fin p.1, .fin p.2) : Flt × Flt)).foldl (fun a p => round64 (a + round64 (p.1 * p.2))) (.fin 0) = .fin v ∧ _
    rw [uRound_val2, tiny_split]
    have hM : ∀ v, rndReal v = v → |v| ≤ 2 ^ (1010 : ℤ) → binary64.Machine (.fin v) := fun v h1 h2 => by
      rw [Machine, binary64_accurate.round_le h2, h1]
    have hu := uRound_pos
    have hu' : uRound ≤ 1 / 2 ^ 50 := uRound_le
    have ht : (0:ℝ) < 2 ^ (-1075 : ℤ) := two_zpow_pos _
    have hw1 : (1:ℝ) ≤ 2 ^ (1000 : ℤ) := by have := small_zpow (e := 0) (f := 1000) (by norm_num); simpa using this
    have hw2 : (2:ℝ) ^ (1010 : ℤ) = 2 ^ (1000 : ℤ) * 1024 := by rw [show (1010 : ℤ) = 1000 + 10 by norm_num, zpow_split]; norm_num
    obtain _ | ⟨⟨x, y⟩, l⟩ := l
    · exact ⟨0, rfl, binary64_sane.zero_machine, by simp⟩
    · simp only [List.map_cons, List.sum_cons, List.foldl_cons, List.length_cons] at hS hl ⊢
      have hsum0 : 0 ≤ (l.map fun p => |p.1| * |p.2|).sum := List.sum_nonneg (by
        intro r hr
        obtain ⟨p, _, rfl⟩ := List.mem_map.mp hr
        positivity)
      have hzxy : |x * y| = |x| * |y| := abs_mul x y
      have hz0 : 0 ≤ |x| * |y| := by positivity
      have p2 := rndReal_rel (x * y)
      rw [uRound_val, hzxy] at p2
      have p0 : |x * y| ≤ 2 ^ (1010 : ℤ) := by
        rw [hzxy, hw2]
        clear hw2
        generalize (2:ℝ) ^ (1000 : ℤ) = w at *
        linarith
      have p1 : round64 (Flt.fin x * .fin y) = .fin (rndReal (x * y)) := by
        rw [mul_fin, ← round64_eq]
        exact binary64_accurate.round_le p0
      have s1 : round64 (Flt.fin 0 + .fin (rndReal (x * y))) = .fin (rndReal (x * y)) := by
        rw [add_fin, zero_add, ← p1, mul_fin, ← round64_eq]
        exact binary64_sane.idem _
      rw [p1, s1]
      obtain ⟨v, h1, h2, h3⟩ := foldl_dot_acc l 1 (rndReal (x * y)) (x * y) (|x| * |y|) le_rfl (by omega) (rndReal_idem _) hzxy.le hS (by
        have := mul_nonneg hu.le hz0
        push_cast; nlinarith)
      rw [add_comm 1 l.length] at h3
      refine ⟨v, h1, hM v h2 ?_, h3⟩
      have hlen : ((l.length + 1 : ℕ) : ℝ) ≤ 2 ^ 20 := by exact_mod_cast hl
      have hku : ((l.length + 1 : ℕ) : ℝ) * (2 * uRound) ≤ 1 / 100 := by
        calc ((l.length + 1 : ℕ) : ℝ) * (2 * uRound) ≤ 2 ^ 20 * (2 * (1 / 2 ^ 50)) := mul_le_mul hlen (by linarith) (by positivity) (by norm_num)
          _ ≤ 1 / 100 := by norm_num
      have b3 : ((l.length + 1 : ℕ) : ℝ) * (2 * 2 ^ (-1075 : ℤ)) ≤ 2 := by
        have e1 : (2:ℝ) ^ (-1075 : ℤ) ≤ 2 ^ (-20 : ℤ) := small_zpow (by norm_num)
        calc ((l.length + 1 : ℕ) : ℝ) * (2 * 2 ^ (-1075 : ℤ)) ≤ 2 ^ 20 * (2 * 2 ^ (-20 : ℤ)) := mul_le_mul hlen (by linarith) (by positivity) (by norm_num)
          _ = 2 := by norm_num
      have b4 : ((l.length + 1 : ℕ) : ℝ) * (2 * uRound) * (|x| * |y| + (l.map fun p => |p.1| * |p.2|).sum) ≤
          1 / 100 * (|x| * |y| + (l.map fun p => |p.1| * |p.2|).sum) := mul_le_mul_of_nonneg_right hku (by linarith)
      have b5 : |x * y + (l.map fun p => p.1 * p.2).sum| ≤ |x| * |y| + (l.map fun p => |p.1| * |p.2|).sum := by
        refine (abs_add_le _ _).trans (add_le_add hzxy.le ?_)
        clear * -
        induction l with
        | nil => simp
        | cons p l ih =>
          simp only [List.map_cons, List.sum_cons]
          exact (abs_add_le _ _).trans (add_le_add (abs_mul _ _).le ih)
      have b6 : |v| ≤ |v - (x * y + (l.map fun p => p.1 * p.2).sum)| + |x * y + (l.map fun p => p.1 * p.2).sum| := by
        have := abs_add_le (v - (x * y + (l.map fun p => p.1 * p.2).sum)) (x * y + (l.map fun p => p.1 * p.2).sum)
        rwa [sub_add_cancel] at this
      rw [hw2]
      clear hw2 p0
      generalize (2:ℝ) ^ (1000 : ℤ) = w at *
      linarith

theorem cholesky_ok {n : ℕ} {a C : NDArray Flt} (h : cholesky n a = .ok C) :
    ∃ L : ℕ → ℕ → ℝ, IsChol n (fun i j => (entry n a.data i j).toReal) L ∧ C = ofFn2 n n fun i j => .fin (L i j) := by
  unfold cholesky at h
  split at h
  · split at h
    · next hL => injection h with h; exact ⟨_, hL.choose_spec, h.symm⟩
    · cases h
  · cases h

theorem ofFn2_map {n m : ℕ} (f : ℕ → ℕ → Flt) (g : Flt → Flt) : (ofFn2 n m f).map g = ofFn2 n m fun i j => g (f i j) := by
  simp [ofFn2, NDArray.map, List.map_flatMap, Function.comp_def]

/-- One product of rounded numbers. -/
theorem mul_round_near {a b : ℝ} (ha : |a| ≤ 2 ^ (450 : ℤ)) (hb : |b| ≤ 2 ^ (450 : ℤ)) :
    |rndReal a * rndReal b - a * b| ≤ 2 ^ (-51 : ℤ) * (|rndReal a| * |rndReal b|) + 2 ^ (-500 : ℤ) := by
  have hu := uRound_pos
  have hu' : uRound ≤ 1 / 100000 := uRound_le.trans (by norm_num)
  have h51 : (2:ℝ) ^ (-51 : ℤ) = 4 * uRound := by unfold uRound; norm_num
  have p1 := rndReal_rel a
  have p2 := rndReal_rel b
  rw [uRound_val] at p1 p2
  rw [h51]
  have t0 : (0:ℝ) < 2 ^ (-1075 : ℤ) := two_zpow_pos _
  have t1 : (2:ℝ) ^ (-500 : ℤ) = 2 ^ (450 : ℤ) * 2 ^ (-1075 : ℤ) * 2 ^ (125 : ℤ) := by rw [← zpow_split, ← zpow_split]; norm_num
  have t2 : (1000:ℝ) ≤ 2 ^ (125 : ℤ) := by
    calc (1000:ℝ) ≤ 2 ^ (10 : ℤ) := by norm_num
      _ ≤ 2 ^ (125 : ℤ) := small_zpow (by norm_num)
  have t3 : (2:ℝ) ^ (-1075 : ℤ) ≤ 2 ^ (450 : ℤ) := small_zpow (by norm_num)
  rw [t1]
  clear t1 h51
  set x := rndReal a
  set y := rndReal b
  generalize (2:ℝ) ^ (-1075 : ℤ) = t at *
  generalize (2:ℝ) ^ (450 : ℤ) = w at *
  generalize (2:ℝ) ^ (125 : ℤ) = c at *
  have a1 : |a| ≤ |x| + |x - a| := by have := abs_add_le x (a - x); rwa [add_sub_cancel, abs_sub_comm a x] at this
  have a2 : |b| ≤ |y| + |y - b| := by have := abs_add_le y (b - y); rwa [add_sub_cancel, abs_sub_comm b y] at this
  have hx0 := abs_nonneg x
  have hy0 := abs_nonneg y
  have ha0 := abs_nonneg a
  have hb0 := abs_nonneg b
  have q1 : uRound * |a| ≤ 1 / 100000 * |a| := mul_le_mul_of_nonneg_right hu' ha0
  have q2 : uRound * |b| ≤ 1 / 100000 * |b| := mul_le_mul_of_nonneg_right hu' hb0
  have a3 : |a| ≤ 101 / 100 * |x| + 2 * t := by linarith
  have b3 : |b| ≤ 101 / 100 * |y| + 2 * t := by linarith
  have x3 : |y| ≤ 3 * w := by
    have := abs_add_le (y - b) b; rw [sub_add_cancel] at this; linarith
  have x4 : |x| ≤ 3 * w := by
    have := abs_add_le (x - a) a; rw [sub_add_cancel] at this; linarith
  have e1 : |x * y - a * b| ≤ |x - a| * |y| + |a| * |y - b| := by
    have : x * y - a * b = (x - a) * y + a * (y - b) := by ring
    rw [this, ← abs_mul, ← abs_mul]; exact abs_add_le _ _
  have d1 : |x - a| ≤ uRound * (101 / 100 * |x|) + 2 * t := by
    have : uRound * |a| ≤ uRound * (101 / 100 * |x| + 2 * t) := mul_le_mul_of_nonneg_left a3 hu.le
    nlinarith
  have d2 : |y - b| ≤ uRound * (101 / 100 * |y|) + 2 * t := by
    have : uRound * |b| ≤ uRound * (101 / 100 * |y| + 2 * t) := mul_le_mul_of_nonneg_left b3 hu.le
    nlinarith
  have f1 : |x - a| * |y| ≤ (uRound * (101 / 100 * |x|) + 2 * t) * |y| := mul_le_mul_of_nonneg_right d1 hy0
  have f2 : |a| * |y - b| ≤ (101 / 100 * |x| + 2 * t) * (uRound * (101 / 100 * |y|) + 2 * t) :=
    mul_le_mul a3 d2 (abs_nonneg _) (by positivity)
  have g0 : 0 ≤ uRound * (|x| * |y|) := by positivity
  have g1 : t * |y| ≤ t * (3 * w) := mul_le_mul_of_nonneg_left x3 t0.le
  have g2 : t * |x| ≤ t * (3 * w) := mul_le_mul_of_nonneg_left x4 t0.le
  have g3 : t * t ≤ t * w := mul_le_mul_of_nonneg_left t3 t0.le
  have g4 : uRound * (t * |y|) ≤ 1 / 100000 * (t * |y|) := mul_le_mul_of_nonneg_right hu' (by positivity)
  have g5 : w * t * 1000 ≤ w * t * c := mul_le_mul_of_nonneg_left t2 (by nlinarith)
  nlinarith

theorem binary64_cholAccurate : binary64.CholAccurate where
  chol n hn a M C hM hC := by
    have hC' : cholesky n a >>= (fun l => Except.ok (l.map round64)) = .ok C := by
      change (if _ then _ else _) = _ at hC
      split at hC
      · cases hC
      · exact hC
    obtain ⟨l, h1, h2⟩ := bind_ok hC'
    obtain ⟨L, hL, rfl⟩ := cholesky_ok h1
    injection h2 with h2
    rw [ofFn2_map] at h2
    subst h2
    have hP : ∀ i < n, ∀ j ≤ i, ∑ k ∈ Finset.range n, L i k * L j k = M i j := by
      intro i hi j hj
      have := hL.2.2 i j hi hj
      simp only [(hM i hi j hj).1] at this
      exact this
    have hs : ∀ i < n, ∀ k < n, |L i k| ≤ 2 ^ (450 : ℤ) := by
      intro i hi k hk
      have e1 : L i k * L i k ≤ ∑ k ∈ Finset.range n, L i k * L i k :=
        Finset.single_le_sum (f := fun k => L i k * L i k) (fun k _ => mul_self_nonneg _) (Finset.mem_range.mpr hk)
      have e2 := (hM i hi i le_rfl).2.2
      rw [← hP i hi i le_rfl] at e2
      refine abs_le_of_sq_le_sq ?_ (two_zpow_pos _).le
      rw [sq, sq, ← zpow_split]
      exact e1.trans ((le_abs_self _).trans e2)
    have hr : ∀ i < n, ∀ k < n, round64 (.fin (L i k)) = .fin (rndReal (L i k)) := by
      intro i hi k hk
      rw [← round64_eq]
      exact binary64_accurate.round_le (up_zpow (hs i hi k hk) (by norm_num))
    refine ⟨fun i j => rndReal (L i j), ?_, ?_, ?_, ?_⟩
    · intro i hi j hj
      refine ⟨by rw [entry_ofFn2 _ _ _ hi hj, hr i hi j hj], ?_⟩
      rw [← hr i hi j hj, ← round64_eq]; exact binary64_sane.idem _
    · intro i hi j hj hij
      simp only [hL.1 i j hi hj hij, rndReal_zero]
    · intro i hi
      exact rndReal_nonneg (hL.2.1 i hi).le
    · intro i hi j hj
      rw [← hP i hi j hj, ← Finset.sum_sub_distrib]
      refine (Finset.abs_sum_le_sum_abs _ _).trans ?_
      have e1 : ∑ k ∈ Finset.range n, |rndReal (L i k) * rndReal (L j k) - L i k * L j k| ≤
          ∑ k ∈ Finset.range n, (2 ^ (-51 : ℤ) * (|rndReal (L i k)| * |rndReal (L j k)|) + 2 ^ (-500 : ℤ)) :=
        sum_bound fun k hk => mul_round_near (hs i hi k hk) (hs j (by omega) k hk)
      refine e1.trans ?_
      rw [Finset.sum_add_distrib, ← Finset.mul_sum, Finset.sum_const, Finset.card_range, nsmul_eq_mul]
      refine add_le_add ?_ le_rfl
      have hn1 : (1:ℝ) ≤ n := by exact_mod_cast (by omega : 1 ≤ n)
      have hS0 : 0 ≤ ∑ k ∈ Finset.range n, |rndReal (L i k)| * |rndReal (L j k)| := Finset.sum_nonneg fun k _ => by positivity
      refine mul_le_mul_of_nonneg_right ?_ hS0
      exact le_mul_of_one_le_left (two_zpow_pos _).le hn1

end Paragami
