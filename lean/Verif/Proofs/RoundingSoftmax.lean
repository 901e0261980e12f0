import Verif.Proofs.RoundingTrip
import Verif.Proofs.RoundingSimplex
import Verif.Proofs.SimplexFree

/-! # Softmax and logarithms of simplexes in rounded arithmetic, with bounds relative to every entry -/

set_option linter.unusedSimpArgs false

namespace Paragami
open NDArray Flt

namespace Arith
variable {A : Arith}

theorem log_501 {S : ℝ} (h1 : 1 ≤ S) (h2 : S ≤ 501) : 0 ≤ Real.log S ∧ Real.log S ≤ 7 := by
  refine ⟨Real.log_nonneg h1, ?_⟩
  rw [Real.log_le_iff_le_exp (by linarith)]
  have h1 : (2.7182818283 : ℝ) ^ 7 ≤ Real.exp 7 := by
    calc (2.7182818283 : ℝ) ^ 7 ≤ Real.exp 1 ^ 7 := pow_le_pow_left₀ (by norm_num) Real.exp_one_gt_d9.le 7
      _ = Real.exp 7 := by rw [← Real.exp_nat_mul]; norm_num
  have h2 : (501:ℝ) ≤ (2.7182818283 : ℝ) ^ 7 := by norm_num
  linarith

/-- `logsumexp` of at most 500 numbers of size at most `B`. -/
theorem logsumexp_near (hs : A.Sane) (h : A.Accurate) {a B : ℝ} {r : List ℝ} (hB : ∀ x ∈ a :: r, |x| ≤ B) (hB1 : 1 ≤ B) (hB2 : B ≤ 300)
    (hK : r.length < 500) :
    ∃ N, logsumexp1A A (.fin a) (r.map .fin) = .fin N ∧
      |N - Real.log (((a :: r).map Real.exp).sum)| ≤ (3 * B + 2 * (r.length + 1) + 31) * uRound := by
  have hu := uRound_pos
  have huv : uRound = 1 / 2 ^ 53 := rfl
  set m := r.foldl max a with hmdef
  have hmax : Flt.maxOf (.fin a) (r.map .fin) = .fin m := Flt.maxOf_fin a r
  obtain ⟨g1, g2, g3⟩ := foldl_max_ge r a
  rw [← hmdef] at g1 g2 g3
  have hcons : (Flt.fin a :: r.map .fin) = (a :: r).map .fin := by rw [List.map_cons]
  set xs : List ℝ := a :: r with hxs
  have hlenK : (xs.length : ℝ) = r.length + 1 := by rw [hxs, List.length_cons]; push_cast; ring
  have hlen : xs.length ≤ 500 := by simp [hxs]; omega
  have hlen' : (xs.length : ℝ) ≤ 500 := by exact_mod_cast hlen
  have hlen0 : 0 ≤ (xs.length : ℝ) := Nat.cast_nonneg _
  rw [← hlenK]
  set K : ℝ := (xs.length : ℝ) with hKdef
  have hmem : m ∈ xs := by
    rcases g3 with g3 | g3
    · simp [hxs, g3]
    · simp [hxs, g3]
  have hxm : ∀ x ∈ xs, x ≤ m := by
    intro x hx
    rcases List.mem_cons.mp hx with rfl | hx
    · exact g1
    · exact g2 x hx
  have hmB := abs_le.mp (hB m hmem)
  have hd : ∀ x, ∃ e : ℝ, x ∈ xs → A.exp (A.sub (.fin x) (.fin m)) = .fin e ∧ 0 ≤ e ∧ e ≤ 1 ∧ A.Machine (.fin e) ∧
      |e - Real.exp (x - m)| ≤ (2 * B + 5) * uRound * Real.exp (x - m) + 0 := by
    intro x
    by_cases hx : x ∈ xs
    · have hxb := abs_le.mp (hB x hx)
      have hxm2 : |x - m| ≤ 2 * B := by rw [abs_le]; constructor <;> linarith
      obtain ⟨y, hy1, hy2⟩ := rnd64_rel h (x := x - m) (B := 2 * B) hxm2 (by linarith) (by norm_num; linarith)
      have hy0 : y ≤ 0 := by
        have := hs.round_le hs.zero_machine (a := .fin (x - m)) (by simpa using hxm x hx)
        rw [hy1] at this; simpa using this
      obtain ⟨e, he1, he2⟩ := h.exp_near (t := x - m) (t' := y) (c := 2 * B + 1) (by linarith) (by linarith) (by linarith)
      refine ⟨e, fun _ => ?_⟩
      rw [round_sub, hy1]
      have h1 := hs.exp_nonneg y
      have h2 := hs.exp_le_one y hy0
      have h3 := hs.exp_machine (.fin y)
      rw [he1] at h1 h2 h3
      exact ⟨he1, by simpa using h1, by simpa using h2, h3, by
        rw [add_zero, show 2 * B + 5 = 2 * B + 1 + 4 by ring]; exact he2⟩
    · exact ⟨0, fun h => absurd h hx⟩
  choose e he using hd
  set S := (xs.map fun x => Real.exp (x - m)).sum with hS
  have hem : e m = 1 := by
    have h1 := (he m hmem).1
    rw [round_sub, sub_self, round_fin, hs.zero, hs.exp_zero] at h1
    injection h1 with h1; exact h1.symm
  have hS1 : 1 ≤ S := by
    have : Real.exp (m - m) ≤ S := List.single_le_sum (by
      intro y hy; obtain ⟨x, _, rfl⟩ := List.mem_map.mp hy; positivity) _ (List.mem_map.mpr ⟨m, hmem, rfl⟩)
    rwa [sub_self, Real.exp_zero] at this
  have hS2 : S ≤ 500 := by
    have h1 : S ≤ (xs.map fun _ => (1:ℝ)).sum := List.sum_le_sum fun x hx => Real.exp_le_one_iff.mpr (by have := hxm x hx; linarith)
    rw [List.map_const', List.sum_replicate, nsmul_eq_mul, mul_one] at h1
    linarith
  have hlist : (Flt.fin a :: r.map .fin).map (fun x => A.exp (A.sub x (.fin m))) = (xs.map e).map .fin := by
    rw [hcons, List.map_map, List.map_map]
    exact List.map_congr_left fun x hx => (he x hx).1
  have hEsum := sum_perturbed (f := e) (g := fun x => Real.exp (x - m)) (a := (2 * B + 5) * uRound) (b := 0) xs
    (fun x hx => (he x hx).2.2.2.2)
  rw [← hS, mul_zero, add_zero] at hEsum
  set E := (xs.map e).sum with hE
  obtain ⟨S', hS'1, hS'2⟩ := h.sum (xs.map e) (by
    intro y hy; obtain ⟨x, hx, rfl⟩ := List.mem_map.mp hy
    obtain ⟨_, h1, h2, h3, _⟩ := he x hx
    exact ⟨h1, by linarith, h3⟩) (by simp; omega)
  rw [List.length_map, ← hE, uRound_val2] at hS'2
  have hBu : (2 * B + 5) * uRound ≤ 1 / 1000 := by
    have h1 : (2 * B + 5) * uRound ≤ 605 * uRound := mul_le_mul_of_nonneg_right (by linarith) hu.le
    refine h1.trans ?_
    rw [huv]; norm_num
  have hE2 : E ≤ (1 + 1 / 1000) * S := by
    have := (abs_le.mp hEsum).2
    nlinarith
  have hE0 : 0 ≤ E := List.sum_nonneg (by
    intro y hy; obtain ⟨x, hx, rfl⟩ := List.mem_map.mp hy; exact (he x hx).2.1)
  have hS'3 : |S' - S| ≤ (2 * B + 2 * K + 6) * uRound * S := by
    have e1 : S' - S = (S' - E) + (E - S) := by ring
    rw [e1]
    refine (abs_add_le _ _).trans ?_
    have h1 : K * (2 * uRound) * E ≤ K * (2 * uRound) * ((1 + 1 / 1000) * S) :=
      mul_le_mul_of_nonneg_left hE2 (by positivity)
    have h2 : 0 ≤ uRound * S := by positivity
    have h3 : K * (uRound * S) ≤ 500 * (uRound * S) := mul_le_mul_of_nonneg_right hlen' h2
    nlinarith
  have hS'4 : 1 ≤ S' := by
    have h1 := hs.sum_ge ((xs.map e).map .fin) (by
      intro y hy
      obtain ⟨z, hz, rfl⟩ := List.mem_map.mp hy
      obtain ⟨x, hx, rfl⟩ := List.mem_map.mp hz
      obtain ⟨_, h1, _, h3, _⟩ := he x hx
      exact ⟨by simpa using h1, h3⟩) (.fin 1) (List.mem_map.mpr ⟨1, List.mem_map.mpr ⟨m, hmem, hem⟩, rfl⟩)
    rw [hS'1] at h1; simpa using h1
  have hcu : (2 * B + 2 * K + 6) * uRound ≤ 1 / 1000 := by
    have h1 : (2 * B + 2 * K + 6) * uRound ≤ 1606 * uRound := mul_le_mul_of_nonneg_right (by linarith) hu.le
    refine h1.trans ?_
    rw [huv]; norm_num
  have hS'5 : S' ≤ 501 := by
    have := (abs_le.mp hS'3).2
    nlinarith
  obtain ⟨L, hL1, hL2⟩ := h.log S' hS'4 (by
    have := overflow64_big
    norm_num at this; linarith)
  rw [uRound_val2] at hL2
  obtain ⟨hlogS'0, hlogS'⟩ := log_501 hS'4 hS'5
  have htiny : (2:ℝ) ^ (-1074 : ℤ) ≤ uRound := (tiny_le (by norm_num)).trans (by rw [huv]; norm_num)
  have hL3 : |L - Real.log S| ≤ (2 * B + 2 * K + 22) * uRound := by
    have h1 := log_perturbed (by linarith : 0 < S) hS'3 (by linarith) (by linarith)
    have e1 : L - Real.log S = (L - Real.log S') + (Real.log S' - Real.log S) := by ring
    rw [e1]
    refine (abs_add_le _ _).trans ?_
    generalize (2:ℝ) ^ (-1074 : ℤ) = tt at *
    nlinarith
  have hL4 : |L| ≤ 8 := by
    have h1 := abs_le.mp hL2
    generalize (2:ℝ) ^ (-1074 : ℤ) = tt at *
    have h2 : 2 * uRound * Real.log S' ≤ 1 / 4 := by
      have : 2 * uRound ≤ 1 / 28 := by rw [huv]; norm_num
      nlinarith
    have h3 : uRound ≤ 1 / 4 := by rw [huv]; norm_num
    rw [abs_le]; constructor <;> linarith
  obtain ⟨N, hN1, hN2⟩ := rnd64_rel h (x := L + m) (B := B + 8) (by
    have := abs_le.mp hL4
    rw [abs_le]; constructor <;> linarith) (by linarith) (by norm_num; linarith)
  have hlogsum : Real.log ((xs.map Real.exp).sum) = Real.log S + m := by
    have e1 : xs.map Real.exp = xs.map fun x => Real.exp (x - m) * Real.exp m :=
      List.map_congr_left fun x _ => by rw [← Real.exp_add]; ring_nf
    rw [e1, List.sum_map_mul_right, ← hS, Real.log_mul (by linarith) (Real.exp_pos _).ne', Real.log_exp]
  refine ⟨N, ?_, ?_⟩
  · simp only [logsumexp1A, hmax, hlist, hS'1, hL1, add, add_fin, hN1]
  · rw [hlogsum]
    have e1 : N - (Real.log S + m) = (N - (L + m)) + (L - Real.log S) := by ring
    rw [e1]
    refine (abs_add_le _ _).trans ?_
    linarith

theorem log_sum_exp_bounds {a B : ℝ} {r : List ℝ} (hB : ∀ x ∈ a :: r, |x| ≤ B) (hK : r.length < 500) :
    -B ≤ Real.log (((a :: r).map Real.exp).sum) ∧ Real.log (((a :: r).map Real.exp).sum) ≤ B + 7 := by
  have hp := sum_exp_pos a r
  constructor
  · rw [Real.le_log_iff_exp_le hp]
    have h1 : Real.exp (-B) ≤ Real.exp a := Real.exp_le_exp.mpr (abs_le.mp (hB a (by simp))).1
    refine h1.trans (List.single_le_sum (by intro y hy; obtain ⟨x, _, rfl⟩ := List.mem_map.mp hy; positivity) _
      (List.mem_map.mpr ⟨a, by simp, rfl⟩))
  · rw [Real.log_le_iff_le_exp hp, Real.exp_add]
    have h1 : ((a :: r).map Real.exp).sum ≤ ((a :: r).map fun _ => Real.exp B).sum :=
      List.sum_le_sum fun x hx => Real.exp_le_exp.mpr (abs_le.mp (hB x hx)).2
    rw [List.map_const', List.sum_replicate, nsmul_eq_mul, List.length_cons] at h1
    refine h1.trans ?_
    rw [mul_comm]
    refine mul_le_mul_of_nonneg_left ?_ (Real.exp_pos _).le
    have h2 : ((r.length + 1 : ℕ) : ℝ) ≤ 501 := by exact_mod_cast (by omega : r.length + 1 ≤ 501)
    have := (log_501 (S := 501) (by norm_num) le_rfl).2
    rw [Real.log_le_iff_le_exp (by norm_num)] at this
    exact h2.trans this

/-- The entries of a computed simplex. -/
theorem simplex_entries (hs : A.Sane) (h : A.Accurate) {B : ℝ} {r : List ℝ} (hB : ∀ x ∈ r, |x| ≤ B) (hB1 : 1 ≤ B) (hB2 : B ≤ 300)
    (hK : r.length < 500) :
    ∃ w : ℝ → ℝ, constrainSimplexRowA A (r.map .fin) = ((0 :: r).map w).map .fin ∧
      ∀ x ∈ 0 :: r, A.Machine (.fin (w x)) ∧ |w x - Real.exp x / (((0 :: r).map Real.exp).sum)| ≤
        (5 * B + 2 * (r.length + 1) + 45) * uRound * (Real.exp x / (((0 :: r).map Real.exp).sum)) := by
  have hu := uRound_pos
  have hxB : ∀ x ∈ 0 :: r, |x| ≤ B := by
    intro x hx
    rcases List.mem_cons.mp hx with rfl | hx
    · simp; linarith
    · exact hB x hx
  have hp := sum_exp_pos 0 r
  obtain ⟨N, hN1, hN2⟩ := logsumexp_near hs h hxB hB1 hB2 hK
  have hZ := log_sum_exp_bounds hxB hK
  set Z := ((0 :: r).map Real.exp).sum with hZdef
  set K : ℝ := (r.length : ℝ) + 1 with hKdef
  have hK0 : 0 ≤ K := by positivity
  have hK' : K ≤ 500 := by rw [hKdef]; exact_mod_cast (by omega : r.length + 1 ≤ 500)
  have hNB : |N| ≤ B + 8 := by
    have h1 := abs_le.mp hN2
    have h3 : (3 * B + 2 * K + 31) * uRound ≤ 1 := (small_coeff (by linarith)).trans (by norm_num)
    rw [abs_le]; constructor <;> linarith
  have hd : ∀ x, ∃ e : ℝ, x ∈ 0 :: r → A.exp (A.sub (.fin x) (.fin N)) = .fin e ∧
      |e - Real.exp x / Z| ≤ (5 * B + 2 * K + 45) * uRound * (Real.exp x / Z) := by
    intro x
    by_cases hx : x ∈ 0 :: r
    · have hxb := abs_le.mp (hxB x hx)
      have hNb := abs_le.mp hNB
      obtain ⟨y, hy1, hy2⟩ := rnd64_rel h (x := x - N) (B := 2 * B + 8)
        (by rw [abs_le]; constructor <;> linarith) (by linarith) (by norm_num; linarith)
      have hy3 : |y - (x - Real.log Z)| ≤ (5 * B + 2 * K + 41) * uRound := by
        have e1 : y - (x - Real.log Z) = (y - (x - N)) + -(N - Real.log Z) := by ring
        rw [e1]
        refine (abs_add_le _ _).trans ?_
        rw [abs_neg]
        linarith
      obtain ⟨e, he1, he2⟩ := h.exp_near hy3 (by linarith) (by rw [abs_le]; constructor <;> linarith [hZ.1, hZ.2])
      refine ⟨e, fun _ => ⟨by rw [round_sub, hy1, he1], ?_⟩⟩
      rw [Real.exp_sub, Real.exp_log hp] at he2
      rw [show 5 * B + 2 * K + 45 = 5 * B + 2 * K + 41 + 4 by ring]; exact he2
    · exact ⟨0, fun h => absurd h hx⟩
  choose w hw using hd
  have h0 : (0 : Flt) = .fin 0 := by change Flt.fin ((0:ℕ):ℝ) = _; simp
  refine ⟨w, ?_, fun x hx => ⟨?_, (hw x hx).2⟩⟩
  · simp only [constrainSimplexRowA, h0, hN1]
    rw [show (Flt.fin 0 :: r.map .fin) = (0 :: r).map .fin by rw [List.map_cons], List.map_map, List.map_map]
    exact List.map_congr_left fun x hx => (hw x hx).1
  · have := hs.exp_machine (A.sub (.fin x) (.fin N))
    rwa [(hw x hx).1] at this

/-! ### Round trips of one simplex -/

theorem sq_small {c : ℝ} (hc0 : 0 ≤ c) (hc : c ≤ 10000) : 4 * (c * uRound) * (c * uRound) ≤ uRound := by
  have hu := uRound_pos
  have h1 : c * uRound ≤ 10000 * uRound := mul_le_mul_of_nonneg_right hc hu.le
  have h0 : 0 ≤ c * uRound := by positivity
  have h2 : 4 * (c * uRound) * (c * uRound) ≤ 4 * (10000 * uRound) * (10000 * uRound) := by nlinarith
  refine h2.trans ?_
  unfold uRound; norm_num

theorem quotient_near {a a' b b' c : ℝ} (ha : 0 < a) (hb : 0 < b) (hc0 : 0 ≤ c) (hc : c ≤ 10000) (h1 : |a' - a| ≤ c * uRound * a)
    (h2 : |b' - b| ≤ c * uRound * b) : |a' / b' - a / b| ≤ (2 * c + 1) * uRound * (a / b) := by
  have hu := uRound_pos
  have hs := sq_small hc0 hc
  have hcu := small_coeff hc
  have hcu0 : 0 ≤ c * uRound := by positivity
  have h2' := abs_le.mp h2
  have h1' := abs_le.mp h1
  have hb' : 0 < b' := by nlinarith
  have hinv : b ≤ (1 + 2 * (c * uRound)) * b' := by
    have h3 : (1 - c * uRound) * b ≤ b' := by linarith
    have h4 : 1 ≤ (1 + 2 * (c * uRound)) * (1 - c * uRound) := by nlinarith
    calc b = 1 * b := (one_mul b).symm
      _ ≤ ((1 + 2 * (c * uRound)) * (1 - c * uRound)) * b := mul_le_mul_of_nonneg_right h4 hb.le
      _ = (1 + 2 * (c * uRound)) * ((1 - c * uRound) * b) := by ring
      _ ≤ _ := mul_le_mul_of_nonneg_left h3 (by positivity)
  have e : a' / b' - a / b = ((a' - a) * b - a * (b' - b)) / (b' * b) := by field_simp; ring
  rw [e, abs_div, abs_of_pos (mul_pos hb' hb), div_le_iff₀ (mul_pos hb' hb)]
  have e2 : (2 * c + 1) * uRound * (a / b) * (b' * b) = (2 * c + 1) * uRound * a * b' := by field_simp
  rw [e2]
  have h5 : |(a' - a) * b - a * (b' - b)| ≤ |(a' - a) * b| + |a * (b' - b)| := abs_sub _ _
  rw [abs_mul, abs_mul, abs_of_pos hb, abs_of_pos ha] at h5
  have h6 : |a' - a| * b ≤ c * uRound * a * b := mul_le_mul_of_nonneg_right h1 hb.le
  have h7 : a * |b' - b| ≤ a * (c * uRound * b) := mul_le_mul_of_nonneg_left h2 ha.le
  have h8 : |(a' - a) * b - a * (b' - b)| ≤ 2 * (c * uRound) * a * b := by linarith
  have h9 : 2 * (c * uRound) * a * b ≤ 2 * (c * uRound) * a * ((1 + 2 * (c * uRound)) * b') :=
    mul_le_mul_of_nonneg_left hinv (by positivity)
  have h10 : 4 * (c * uRound) * (c * uRound) * (a * b') ≤ uRound * (a * b') := mul_le_mul_of_nonneg_right hs (by positivity)
  nlinarith

theorem near_trans {w s t c d : ℝ} (ht : 0 < t) (hc0 : 0 ≤ c) (hc : c ≤ 10000) (hd0 : 0 ≤ d) (hd : d ≤ 10000)
    (h1 : |w - s| ≤ c * uRound * s) (h2 : |s - t| ≤ d * uRound * t) : |w - t| ≤ (c + d + 1) * uRound * t := by
  have hu := uRound_pos
  have h2' := abs_le.mp h2
  have h3 : |w - t| ≤ |w - s| + |s - t| := by
    have := abs_add_le (w - s) (s - t); rwa [sub_add_sub_cancel] at this
  have h4 : c * uRound * s ≤ c * uRound * ((1 + d * uRound) * t) := mul_le_mul_of_nonneg_left (by linarith) (by positivity)
  have h5 : c * uRound * (d * uRound) ≤ uRound := by
    have a1 : c * uRound ≤ 10000 * uRound := mul_le_mul_of_nonneg_right hc hu.le
    have a2 : d * uRound ≤ 10000 * uRound := mul_le_mul_of_nonneg_right hd hu.le
    refine (mul_le_mul a1 a2 (by positivity) (by positivity)).trans ?_
    unfold uRound; norm_num
  have h6 : c * uRound * (d * uRound) * t ≤ uRound * t := mul_le_mul_of_nonneg_right h5 ht.le
  nlinarith

theorem exp_shift {t ε c : ℝ} (hc0 : 0 ≤ c) (hc : c ≤ 10000) (h : |ε - t| ≤ c * uRound) : |Real.exp ε - Real.exp t| ≤ (c + 1) * uRound * Real.exp t := by
  have hu := uRound_pos
  have hE := Real.exp_pos t
  have hcu := small_coeff hc
  have h1 := exp_sub_one_le (d := ε - t) (by linarith)
  have h2 : (ε - t) ^ 2 ≤ uRound := by
    rw [← sq_abs]
    have h3 : |ε - t| ^ 2 ≤ (c * uRound) ^ 2 := pow_le_pow_left₀ (abs_nonneg _) h 2
    have := sq_small hc0 hc
    nlinarith
  have e : Real.exp ε - Real.exp t = Real.exp t * (Real.exp (ε - t) - 1) := by rw [mul_sub, ← Real.exp_add]; ring_nf
  rw [e, abs_mul, abs_of_pos hE, mul_comm]
  exact mul_le_mul_of_nonneg_right (by linarith) hE.le

theorem size_of_log {v : ℝ} (hv : 0 < v) (h : |Real.log v| ≤ 690) : 2 ^ (-1005 : ℤ) ≤ v ∧ v ≤ 2 ^ (1005 : ℤ) := by
  have := exp_size h
  rw [Real.exp_log hv] at this
  exact ⟨dn_zpow this.1 (by norm_num), up_zpow this.2 (by norm_num)⟩

theorem log_entry (hL : A.LogAccurate) {v : ℝ} (hv : 0 < v) (h : |Real.log v| ≤ 690) :
    ∃ y, A.log (.fin v) = .fin y ∧ A.Machine (.fin y) ∧ |y - Real.log v| ≤ (2 * |Real.log v| + 3) * uRound := by
  obtain ⟨h1, h2⟩ := size_of_log hv h
  exact hL.near h1 h2 (by rw [sub_self, abs_zero]; exact mul_nonneg uRound_pos.le hv.le)

/-- The computed free numbers of one simplex. -/
theorem unconstrain_row (hs : A.Sane) (h : A.Accurate) (hL : A.LogAccurate) {x0 : ℝ} {xs : List ℝ} (hx : ∀ v ∈ x0 :: xs, 0 < v ∧ |Real.log v| ≤ 210) :
    ∃ y : ℝ → ℝ, unconstrainSimplexRowA A ((x0 :: xs).map .fin) = (xs.map y).map .fin ∧
      ∀ v ∈ xs, A.Machine (.fin (y v)) ∧ |y v - (Real.log v - Real.log x0)| ≤ (3 * |Real.log v| + 3 * |Real.log x0| + 7) * uRound := by
  obtain ⟨g0, g1⟩ := hx x0 (by simp)
  obtain ⟨l0, a1, a2, a3⟩ := log_entry hL g0 (g1.trans (by norm_num))
  have hd : ∀ v, ∃ y : ℝ, v ∈ xs → A.sub (A.log (.fin v)) (A.log (.fin x0)) = .fin y ∧
      |y - (Real.log v - Real.log x0)| ≤ (3 * |Real.log v| + 3 * |Real.log x0| + 7) * uRound := by
    intro v
    by_cases hv : v ∈ xs
    · obtain ⟨f0, f1⟩ := hx v (by simp [hv])
      obtain ⟨l, b1, b2, b3⟩ := log_entry hL f0 (f1.trans (by norm_num))
      obtain ⟨y, hy1, hy2⟩ := log_ratio h f1 g1 b2 a2 b3 a3
      exact ⟨y, fun _ => ⟨by rw [b1, a1, hy1], hy2⟩⟩
    · exact ⟨0, fun h => absurd h hv⟩
  choose y hy using hd
  refine ⟨y, ?_, fun v hv => ⟨?_, (hy v hv).2⟩⟩
  · simp only [List.map_cons, unconstrainSimplexRowA, List.map_map]
    exact List.map_congr_left fun v hv => (hy v hv).1
  · have h1 := (hy v hv).1
    have : A.Machine (A.sub (A.log (.fin v)) (A.log (.fin x0))) := by
      rw [sub]
      cases hz : A.log (.fin v) - A.log (.fin x0) with
      | fin z => exact hs.idem z
      | _ => rfl
    rwa [h1] at this

theorem forall₂_maps {α : Type} {R : ℝ → ℝ → Prop} {f g : α → ℝ} {l : List α} (h : ∀ x ∈ l, R (f x) (g x)) : List.Forall₂ R (l.map f) (l.map g) := by
  rw [List.forall₂_map_left_iff, List.forall₂_map_right_iff, List.forall₂_same]
  exact h

/-- One simplex there and back. -/
theorem simplex_value_row (hs : A.Sane) (h : A.Accurate) (hL : A.LogAccurate) {x0 M : ℝ} {xs : List ℝ}
    (hx : ∀ v ∈ x0 :: xs, 0 < v ∧ |Real.log v| ≤ M) (hM1 : 1 ≤ M) (hM : M ≤ 140) (hK : xs.length < 500) :
    ∃ y w : List ℝ, unconstrainSimplexRowA A ((x0 :: xs).map .fin) = y.map .fin ∧ constrainSimplexRowA A (y.map .fin) = w.map .fin ∧
      List.Forall₂ (fun v w => |w - v / (x0 :: xs).sum| ≤ (22 * M + 2 * (xs.length + 1) + 70) * uRound * (v / (x0 :: xs).sum)) (x0 :: xs) w := by
  have hu := uRound_pos
  have h0 : 0 < x0 := (hx x0 (by simp)).1
  have hl0 : |Real.log x0| ≤ M := (hx x0 (by simp)).2
  obtain ⟨y, hy1, hy2⟩ := unconstrain_row hs h hL (x0 := x0) (xs := xs) fun v hv => ⟨(hx v hv).1, (hx v hv).2.trans (by linarith)⟩
  have hc : (6 * M + 7) * uRound ≤ 1 / 2 := small_coeff (by linarith)
  have hy3 : ∀ v ∈ xs, |y v - (Real.log v - Real.log x0)| ≤ (6 * M + 7) * uRound := by
    intro v hv
    refine (hy2 v hv).2.trans (mul_le_mul_of_nonneg_right ?_ hu.le)
    have := (hx v (by simp [hv])).2
    linarith
  have hyB : ∀ z ∈ xs.map y, |z| ≤ 2 * M + 1 := by
    intro z hz
    obtain ⟨v, hv, rfl⟩ := List.mem_map.mp hz
    have h1 := abs_le.mp (hy3 v hv)
    have h2 := abs_le.mp (hx v (by simp [hv])).2
    have h3 := abs_le.mp hl0
    rw [abs_le]; constructor <;> linarith
  obtain ⟨w, hw1, hw2⟩ := simplex_entries hs h hyB (by linarith) (by linarith) (by simpa using hK)
  refine ⟨xs.map y, (0 :: xs.map y).map w, hy1, hw1, ?_⟩
  set Z := ((0 :: xs.map y).map Real.exp).sum with hZ
  have hZ0 : 0 < Z := sum_exp_pos 0 _
  rw [List.length_map] at hw2
  set K : ℝ := (xs.length : ℝ) + 1 with hKdef
  have hK0 : 0 ≤ K := by positivity
  have hK' : K ≤ 500 := by rw [hKdef]; exact_mod_cast (by omega : xs.length + 1 ≤ 500)
  have hT0 : 0 < (x0 :: xs).sum := by
    rw [List.sum_cons]
    have : 0 ≤ xs.sum := List.sum_nonneg fun v hv => (hx v (by simp [hv])).1.le
    linarith
  set T := (x0 :: xs).sum with hT
  have he : ∀ v ∈ xs, |Real.exp (y v) - v / x0| ≤ (6 * M + 8) * uRound * (v / x0) := by
    intro v hv
    have h1 := exp_shift (by linarith) (by linarith) (hy3 v hv)
    rw [Real.exp_sub, Real.exp_log h0, Real.exp_log (hx v (by simp [hv])).1] at h1
    rw [show 6 * M + 8 = 6 * M + 7 + 1 by ring]; exact h1
  have hZT : |Z - T / x0| ≤ (6 * M + 8) * uRound * (T / x0) := by
    have h1 := sum_perturbed (f := fun v => Real.exp (y v)) (g := fun v => v / x0) (a := (6 * M + 8) * uRound) (b := 0) xs
      (fun v hv => by rw [add_zero]; exact he v hv)
    rw [mul_zero, add_zero] at h1
    have e1 : Z = 1 + (xs.map fun v => Real.exp (y v)).sum := by
      rw [hZ, List.map_cons, List.sum_cons, Real.exp_zero, List.map_map]; rfl
    have e2 : T / x0 = 1 + (xs.map fun v => v / x0).sum := by
      rw [hT, List.sum_cons, add_div, div_self h0.ne']
      congr 1
      simp only [div_eq_mul_inv]
      rw [List.sum_map_mul_right, List.map_id']
    rw [e1, e2, add_sub_add_left_eq_sub]
    refine h1.trans (mul_le_mul_of_nonneg_left (by linarith) ?_)
    have : 0 ≤ 6 * M + 8 := by linarith
    positivity
  have hTx : 0 < T / x0 := div_pos hT0 h0
  have key : ∀ z v, 0 < v → z ∈ 0 :: xs.map y → |Real.exp z - v / x0| ≤ (6 * M + 8) * uRound * (v / x0) →
      |w z - v / T| ≤ (22 * M + 2 * K + 70) * uRound * (v / T) := by
    intro z v hv hz h1
    have h2 := quotient_near (div_pos hv h0) hTx (by linarith) (by linarith) h1 hZT
    rw [div_div_div_cancel_right₀ h0.ne'] at h2
    have h3 := near_trans (div_pos hv hT0) (by linarith) (by linarith) (by linarith) (by linarith) (hw2 z hz).2 h2
    refine h3.trans (mul_le_mul_of_nonneg_right (mul_le_mul_of_nonneg_right (by linarith) hu.le) (div_pos hv hT0).le)
  rw [List.map_cons]
  refine .cons (key 0 x0 h0 (by simp) ?_) ?_
  · rw [Real.exp_zero, div_self h0.ne', sub_self, abs_zero]
    have : 0 ≤ 6 * M + 8 := by linarith
    positivity
  · rw [List.map_map, List.forall₂_map_right_iff, List.forall₂_same]
    intro v hv
    exact key (y v) v (hx v (by simp [hv])).1 (by simp; right; exact ⟨v, hv, rfl⟩) (he v hv)

/-- One row of free numbers there and back. -/
theorem simplex_free_row (hs : A.Sane) (h : A.Accurate) (hL : A.LogAccurate) {B : ℝ} {r : List ℝ} (hB : ∀ x ∈ r, |x| ≤ B) (hB1 : 1 ≤ B)
    (hB2 : B ≤ 100) (hK : r.length < 500) :
    ∃ w y : List ℝ, constrainSimplexRowA A (r.map .fin) = w.map .fin ∧ unconstrainSimplexRowA A (w.map .fin) = y.map .fin ∧
      List.Forall₂ (fun u u' => |u' - u| ≤ (22 * B + 4 * (r.length + 1) + 150) * uRound) r y := by
  have hu := uRound_pos
  obtain ⟨w, hw1, hw2⟩ := simplex_entries hs h hB hB1 (by linarith) hK
  have hxB : ∀ x ∈ 0 :: r, |x| ≤ B := by
    intro x hx
    rcases List.mem_cons.mp hx with rfl | hx
    · simp; linarith
    · exact hB x hx
  have hZ := log_sum_exp_bounds hxB hK
  have hp := sum_exp_pos 0 r
  set Z := ((0 :: r).map Real.exp).sum with hZdef
  set K : ℝ := (r.length : ℝ) + 1 with hKdef
  have hK0 : 0 ≤ K := by positivity
  have hK' : K ≤ 500 := by rw [hKdef]; exact_mod_cast (by omega : r.length + 1 ≤ 500)
  have hlog : ∀ x ∈ 0 :: r, 0 < w x ∧ |Real.log (w x) - (x - Real.log Z)| ≤ (5 * B + 2 * K + 46) * uRound ∧ |Real.log (w x)| ≤ 2 * B + 8 := by
    intro x hx
    have hE : 0 < Real.exp x / Z := div_pos (Real.exp_pos _) hp
    have h1 := (hw2 x hx).2
    have hcu : (5 * B + 2 * K + 45) * uRound ≤ 1 / 2 := small_coeff (by linarith)
    have h2 := log_perturbed hE h1 (by linarith) (by linarith)
    have h3 : 0 < w x := by
      have := (abs_le.mp h1).1
      nlinarith
    rw [Real.log_div (Real.exp_pos _).ne' hp.ne', Real.log_exp] at h2
    have h4 : |Real.log (w x) - (x - Real.log Z)| ≤ (5 * B + 2 * K + 46) * uRound := by
      rw [show 5 * B + 2 * K + 46 = 5 * B + 2 * K + 45 + 1 by ring]; exact h2
    refine ⟨h3, h4, ?_⟩
    have h5 := abs_le.mp h4
    have h6 := abs_le.mp (hxB x hx)
    have h7 : (5 * B + 2 * K + 46) * uRound ≤ 1 / 2 := small_coeff (by linarith)
    rw [abs_le]; constructor <;> linarith [hZ.1, hZ.2]
  obtain ⟨y, hy1, hy2⟩ := unconstrain_row hs h hL (x0 := w 0) (xs := r.map w) (by
    intro v hv
    rw [← List.map_cons] at hv
    obtain ⟨x, hx, rfl⟩ := List.mem_map.mp hv
    obtain ⟨a1, _, a3⟩ := hlog x hx
    exact ⟨a1, a3.trans (by linarith)⟩)
  refine ⟨(0 :: r).map w, (r.map w).map y, hw1, by rw [List.map_cons]; exact hy1, ?_⟩
  rw [List.map_map, List.forall₂_map_right_iff, List.forall₂_same]
  intro x hx
  have h1 := (hy2 (w x) (List.mem_map.mpr ⟨x, hx, rfl⟩)).2
  obtain ⟨_, b2, b3⟩ := hlog x (by simp [hx])
  obtain ⟨_, c2, c3⟩ := hlog 0 (by simp)
  have e : (y ∘ w) x - x = (y (w x) - (Real.log (w x) - Real.log (w 0))) + ((Real.log (w x) - (x - Real.log Z)) - (Real.log (w 0) - (0 - Real.log Z))) := by
    simp only [Function.comp]; ring
  rw [e]
  refine (abs_add_le _ _).trans ?_
  have h2 : (3 * |Real.log (w x)| + 3 * |Real.log (w 0)| + 7) * uRound ≤ (12 * B + 55) * uRound := mul_le_mul_of_nonneg_right (by linarith) hu.le
  have h3 := abs_sub (Real.log (w x) - (x - Real.log Z)) (Real.log (w 0) - (0 - Real.log Z))
  linarith

end Arith
end Paragami
