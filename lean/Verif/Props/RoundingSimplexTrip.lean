import Verif.Proofs.RoundingSoftmax
import Verif.Props.RoundingNear
import Verif.Props.Simplex

/-!
# C100: simplexes in floating point, entry by entry

The bounds are relative to every single probability, however small; those of C77 are for the sums.
-/

set_option linter.unusedSimpArgs false

namespace Paragami
open NDArray Pattern Flt

variable {A : Arith}

/-- Rows of real numbers can be joined. -/
theorem join_rows {n : Nat} {f : Nat → List Flt} {P : Nat → List ℝ → Prop} (h : ∀ i < n, ∃ d : List ℝ, f i = d.map .fin ∧ P i d) :
    ∃ g : Nat → List ℝ, (List.range n).flatMap f = ((List.range n).flatMap g).map .fin ∧ ∀ i < n, f i = (g i).map .fin ∧ P i (g i) := by
  have h' : ∀ i, ∃ d : List ℝ, i < n → f i = d.map .fin ∧ P i d := by
    intro i
    by_cases hi : i < n
    · obtain ⟨d, hd⟩ := h i hi; exact ⟨d, fun _ => hd⟩
    · exact ⟨[], fun h => absurd h hi⟩
  choose g hg using h'
  refine ⟨g, ?_, hg⟩
  rw [List.map_flatMap]
  simp only [List.flatMap_def]
  congr 1
  exact List.map_congr_left fun i hi => (hg i (List.mem_range.mp hi)).1

theorem flatMap_congr' {α β : Type} {f g : α → List β} {l : List α} (h : ∀ i ∈ l, f i = g i) : l.flatMap f = l.flatMap g := by
  rw [List.flatMap_def, List.flatMap_def, List.map_congr_left h]

theorem forall₂_flatMap {α : Type} {R : ℝ → ℝ → Prop} {f g : α → List ℝ} : ∀ {l : List α}, (∀ i ∈ l, List.Forall₂ R (f i) (g i)) →
    List.Forall₂ R (l.flatMap f) (l.flatMap g)
  | [], _ => .nil
  | i :: l, h => by
    rw [List.flatMap_cons, List.flatMap_cons]
    exact List.rel_append (h i (by simp)) (forall₂_flatMap fun j hj => h j (by simp [hj]))

theorem simplex_flatten_round {p : Pattern} {k : ℤ} {s : List Nat} {dv : Bool} {fd : Option Bool} (hp : mkSimplex k s dv fd = .ok p)
    {d : List Flt} {vv : Option Bool} (h : Simplex.validateA A k.toNat s dv ⟨s ++ [k.toNat], d⟩ vv = .ok (true, "")) :
    p.flattenFreeA A (.arr ⟨s ++ [k.toNat], d⟩) vv =
      .ok (vec ((List.range s.prod).flatMap fun i => unconstrainSimplexRowA A (chunk k.toNat d i))) := by
  obtain rfl := mkSimplex_eq hp
  simp only [flattenFreeA, Val.asArr, bind, Except.bind, Simplex.flattenFreeA, h, Bool.not_true, Bool.false_eq_true, if_false, pure,
    Except.pure, rows_eq, List.flatMap_map]

theorem chunk_map (k : Nat) (l : List ℝ) (i : Nat) : chunk k (l.map Flt.fin) i = (chunk k l i).map .fin := (map_chunk _ _ _ _).symm

/-! ### Against exact arithmetic -/

/-- **C100, logsumexp.**  The computed `logsumexp` of at most 500 numbers of size at most `B` is within
`2 ** -53 * (3 * B + 2 * k + 31)` of the exact one, where `k` is how many there are. -/
theorem C100_logsumexp (hA : A.Sane) (hB : A.Accurate) {a B : ℝ} {r : List ℝ} (hx : ∀ x ∈ a :: r, |x| ≤ B) (hB1 : 1 ≤ B) (hB2 : B ≤ 300)
    (hK : r.length < 500) :
    ∃ N, logsumexp1A A (.fin a) (r.map .fin) = .fin N ∧
      |N - Real.log (((a :: r).map Real.exp).sum)| ≤ 2 ^ (-53 : ℤ) * (3 * B + 2 * (r.length + 1) + 31) := by
  rw [Arith.uRound_val, mul_comm]
  exact Arith.logsumexp_near hA hB hx hB1 hB2 hK

/-- The numbers 2 and -3 in binary64. -/
example : ∃ N, logsumexp1A binary64 (.fin 2) ([-3].map .fin) = .fin N ∧
    |N - Real.log (([2, -3].map Real.exp).sum)| ≤ 2 ^ (-53 : ℤ) * (3 * 3 + 2 * (([-3] : List ℝ).length + 1) + 31) :=
  C100_logsumexp binary64_sane binary64_accurate (a := 2) (r := [-3]) (by
    intro x hx
    simp only [List.mem_cons, List.not_mem_nil, or_false] at hx
    rcases hx with rfl | rfl <;> norm_num) (by norm_num) (by norm_num) (by simp)

/-- **C100, folding.**  If the free values are at most `B` in size and the simplexes have `k <= 500` entries, every computed probability
differs from the exact one by at most `2 ** -53 * (5 * B + 2 * k + 45)` times the exact one. -/
theorem C100_fold (hA : A.Sane) (hB : A.Accurate) {p : Pattern} {k : ℤ} {s : List Nat} {dv : Bool} {fd : Option Bool}
    (hp : mkSimplex k s dv fd = .ok p) (hk : k ≤ 500) {B : ℝ} (hB1 : 1 ≤ B) (hB2 : B ≤ 300) {l : List ℝ}
    (hl : l.length = s.prod * (k.toNat - 1)) (hx : ∀ x ∈ l, |x| ≤ B) :
    ∃ v w : List ℝ, p.fold (vec (l.map .fin)) (some true) = .ok (.arr ⟨s ++ [k.toNat], v.map .fin⟩) ∧
      p.foldFreeA A (vec (l.map .fin)) = .ok (.arr ⟨s ++ [k.toNat], w.map .fin⟩) ∧
      List.Forall₂ (fun v w => |w - v| ≤ 2 ^ (-53 : ℤ) * (5 * B + 2 * k.toNat + 45) * v) v w := by
  have hw : 2 ≤ k.toNat := by
    have := (Built.simplex hp).wf
    obtain rfl := mkSimplex_eq hp
    simp only [Pattern.WF] at this; omega
  obtain ⟨g, hg, hg'⟩ := join_rows (n := s.prod) (f := fun i => constrainSimplexRowA A (chunk (k.toNat - 1) (l.map Flt.fin) i))
    (P := fun i d => List.Forall₂ (fun v w => |w - v| ≤ 2 ^ (-53 : ℤ) * (5 * B + 2 * k.toNat + 45) * v) (softmax (0 :: chunk (k.toNat - 1) l i)) d) (by
      intro i hi
      have hlen : (chunk (k.toNat - 1) l i).length = k.toNat - 1 := length_chunk hl hi
      obtain ⟨w, h1, h2⟩ := Arith.simplex_entries hA hB (r := chunk (k.toNat - 1) l i) (fun x h => hx x (mem_chunk h)) hB1 hB2 (by omega)
      refine ⟨_, by rw [chunk_map]; exact h1, ?_⟩
      rw [softmax]
      refine Arith.forall₂_maps fun x hx => ?_
      have := (h2 x hx).2
      rw [hlen] at this
      rw [Arith.uRound_val, mul_comm Arith.uRound]
      have e : ((k.toNat - 1 : ℕ) : ℝ) + 1 = k.toNat := by exact_mod_cast (by omega : k.toNat - 1 + 1 = k.toNat)
      rwa [e] at this)
  refine ⟨(List.range s.prod).flatMap fun i => softmax (0 :: chunk (k.toNat - 1) l i), (List.range s.prod).flatMap g, ?_, ?_, ?_⟩
  · rw [← C79_exact, simplex_fold_round hp (by simpa using hl), Arith.exact_simplexRow, List.map_flatMap]
    congr 3
    refine flatMap_congr' fun i hi => ?_
    rw [chunk_map, constrainSimplexRow_fin]
  · rw [simplex_fold_round hp (by simpa using hl), hg]
  · exact forall₂_flatMap fun i hi => (hg' i (List.mem_range.mp hi)).2

/-- Free values 1 and -2 for a simplex of three. -/
example : ∃ v w : List ℝ, (Pattern.simplex 3 [1] true none).fold (vec ([1, -2].map .fin)) (some true) = .ok (.arr ⟨[1] ++ [3], v.map .fin⟩) ∧
    (Pattern.simplex 3 [1] true none).foldFreeA binary64 (vec ([1, -2].map .fin)) = .ok (.arr ⟨[1] ++ [3], w.map .fin⟩) ∧
    List.Forall₂ (fun v w : ℝ => |w - v| ≤ 2 ^ (-53 : ℤ) * (5 * 2 + 2 * ((3 : ℕ) : ℝ) + 45) * v) v w :=
  C100_fold binary64_sane binary64_accurate (k := 3) (s := [1]) (dv := true) (fd := none) rfl (by norm_num) (B := 2) (by norm_num) (by norm_num)
    rfl (by
      intro x hx
      simp only [List.mem_cons, List.not_mem_nil, or_false] at hx
      rcases hx with rfl | rfl <;> norm_num)

/-! ### Flattening and round trips -/

/-- Simplexes whose exact sums are very close to one pass the computed validation and the exact one. -/
theorem simplex_accepts (hB : A.Accurate) {k : Nat} {s : List Nat} {dv : Bool} (hk : k ≤ 500) {x : List ℝ}
    (hm : ∀ v ∈ x, A.Machine (.fin v) ∧ 0 < v) (hx : x.length = s.prod * k)
    (hsum : ∀ i < s.prod, |(Spec.block k x i).sum - 1| ≤ 1 / 10 ^ 13) (vv : Option Bool) :
    Simplex.validateA A k s dv ⟨s ++ [k], x.map .fin⟩ vv = .ok (true, "") := by
  refine validateA_ok vv ?_ ?_
  · intro z hz
    obtain ⟨v, hv, rfl⟩ := List.mem_map.mp hz
    rw [Arith.zero_flt]
    simpa [lt] using (hm v hv).2.le
  · intro i hi
    have h0 := hsum i hi
    have h1 := abs_le.mp h0
    have hlen : (Spec.block k x i).length = k := length_chunk hx hi
    have hpos : ∀ v ∈ Spec.block k x i, A.Machine (.fin v) ∧ 0 < v := fun v hv => hm v (mem_chunk hv)
    rw [chunk_map, show chunk k x i = Spec.block k x i from rfl]
    generalize Spec.block k x i = b at *
    have hk' : (b.length : ℝ) ≤ 500 := by rw [hlen]; exact_mod_cast hk
    have ht : (1:ℝ) / 10 ^ 13 ≤ 1 := by norm_num
    obtain ⟨F, hF1, hF2⟩ := hB.sum b (by
      intro v hv
      have h3 : v ≤ b.sum := List.single_le_sum (fun y hy => (hpos y hy).2.le) v hv
      exact ⟨(hpos v hv).2.le, by linarith, (hpos v hv).1⟩) (by omega)
    rw [hF1]
    apply Arith.dist_one hB _ (by norm_num)
    have h4 : (b.length : ℝ) * 2 ^ (-52 : ℤ) * b.sum ≤ 500 * 2 ^ (-52 : ℤ) * 2 :=
      mul_le_mul (mul_le_mul_of_nonneg_right hk' (by positivity)) (by linarith) (List.sum_nonneg fun y hy => (hpos y hy).2.le) (by positivity)
    have h5 : |F - 1| ≤ |F - b.sum| + |b.sum - 1| := by
      have := abs_add_le (F - b.sum) (b.sum - 1); rwa [sub_add_sub_cancel] at this
    have h6 : (500:ℝ) * 2 ^ (-52 : ℤ) * 2 + 1 / 10 ^ 13 ≤ 1 / 10 ^ 12 := by norm_num
    exact h5.trans ((add_le_add (hF2.trans h4) h0).trans h6)

theorem exact_accepts {k : Nat} {s : List Nat} {dv : Bool} {x : List ℝ} (hm : ∀ v ∈ x, 0 < v)
    (hsum : ∀ i < s.prod, |(Spec.block k x i).sum - 1| ≤ 1 / 10 ^ 13) (vv : Option Bool) :
    Simplex.validateA .exact k s dv ⟨s ++ [k], x.map .fin⟩ vv = .ok (true, "") := by
  refine validateA_ok vv ?_ ?_
  · intro z hz
    obtain ⟨v, hv, rfl⟩ := List.mem_map.mp hz
    rw [Arith.zero_flt]
    simpa [lt] using (hm v hv).le
  · intro i hi
    have h0 := hsum i hi
    rw [chunk_map, show chunk k x i = Spec.block k x i from rfl, Arith.exact_sub]
    have e : Arith.exact.sum ((Spec.block k x i).map .fin) = .fin (Spec.block k x i).sum := Flt.sum_fin _
    rw [e, Arith.one_flt, sub_fin]
    simp only [Arith.exact, Flt.abs, Flt.gt, lt, decide_eq_false_iff_not, not_lt]
    exact h0.trans (by norm_num)

theorem simplex_two_le {p : Pattern} {k : ℤ} {s : List Nat} {dv : Bool} {fd : Option Bool} (hp : mkSimplex k s dv fd = .ok p) : 2 ≤ k.toNat := by
  have := (Built.simplex hp).wf
  obtain rfl := mkSimplex_eq hp
  simp only [Pattern.WF] at this; omega

/-- **C100, flattening.**  If the logarithms of the probabilities are at most `M` in size, the computed free values differ from the exact ones by
at most `2 ** -53 * (6 * M + 7)`. -/
theorem C100_flatten (hA : A.Sane) (hB : A.Accurate) (hL : A.LogAccurate) {p : Pattern} {k : ℤ} {s : List Nat} {dv : Bool} {fd : Option Bool}
    (hp : mkSimplex k s dv fd = .ok p) (hk : k ≤ 500) {M : ℝ} (hM : M ≤ 210) {x : List ℝ} (hx : x.length = s.prod * k.toNat)
    (hm : ∀ v ∈ x, A.Machine (.fin v) ∧ 0 < v ∧ |Real.log v| ≤ M)
    (hsum : ∀ i < s.prod, |(Spec.block k.toNat x i).sum - 1| ≤ 1 / 10 ^ 13) (vv : Option Bool) :
    ∃ y w : List ℝ, p.flatten (.arr ⟨s ++ [k.toNat], x.map .fin⟩ : Val Flt) (some true) vv = .ok (vec (y.map .fin)) ∧
      p.flattenFreeA A (.arr ⟨s ++ [k.toNat], x.map .fin⟩) vv = .ok (vec (w.map .fin)) ∧
      List.Forall₂ (fun y w => |w - y| ≤ 2 ^ (-53 : ℤ) * (6 * M + 7)) y w := by
  have hw := simplex_two_le hp
  have hv := simplex_accepts (dv := dv) hB (by omega) (fun v h => ⟨(hm v h).1, (hm v h).2.1⟩) hx hsum vv
  have hve := exact_accepts (dv := dv) (fun v h => (hm v h).2.1) hsum vv
  have hrow : ∀ i < s.prod, ∃ y : List ℝ, unconstrainSimplexRow (chunk k.toNat (x.map Flt.fin) i) = y.map .fin ∧
      ∃ w : List ℝ, unconstrainSimplexRowA A (chunk k.toNat (x.map Flt.fin) i) = w.map .fin ∧
        List.Forall₂ (fun y w => |w - y| ≤ 2 ^ (-53 : ℤ) * (6 * M + 7)) y w := by
    intro i hi
    obtain ⟨x0, xs, he, _, _⟩ := block_cons hw hx hi
    have hmem : ∀ v ∈ x0 :: xs, 0 < v ∧ |Real.log v| ≤ M := fun v h => (hm v (mem_chunk (k := k.toNat) (i := i) (by
      rw [show chunk k.toNat x i = x0 :: xs from he]; exact h))).2
    rw [chunk_map, show chunk k.toNat x i = x0 :: xs from he]
    obtain ⟨y, h1, h2⟩ := Arith.unconstrain_row hA hB hL fun v h => ⟨(hmem v h).1, (hmem v h).2.trans hM⟩
    refine ⟨xs.map fun v => Real.log v - Real.log x0, ?_, xs.map y, h1, Arith.forall₂_maps fun v h => ?_⟩
    · simp only [List.map_cons, unconstrainSimplexRow, List.map_map]
      apply List.map_congr_left
      intro v h
      simp only [Function.comp, Flt.log_fin (hmem x0 (by simp)).1, Flt.log_fin (hmem v (by simp [h])).1, sub_fin]
    · have h3 := (h2 v h).2
      have h4 := (hmem x0 (by simp)).2
      have h5 := (hmem v (by simp [h])).2
      rw [Arith.uRound_val, mul_comm]
      exact h3.trans (mul_le_mul_of_nonneg_right (by linarith) Arith.uRound_pos.le)
  obtain ⟨g, hg1, hg2⟩ := join_rows hrow
  obtain ⟨g', hg1', hg2'⟩ := join_rows fun i hi => (hg2 i hi).2
  refine ⟨_, _, ?_, ?_, forall₂_flatMap fun i hi => (hg2' i (List.mem_range.mp hi)).2⟩
  · rw [← C98_exact, simplex_flatten_round hp hve, exact_unconstrainRow, hg1]
  · rw [simplex_flatten_round hp hv, hg1']

/-- **C100, round trips of values.**  If the logarithms of the probabilities are at most `M` in size, `fold` of `flatten` divides every simplex by
its sum, up to a relative error of `2 ** -53 * (22 * M + 2 * k + 70)` in every entry. -/
theorem C100_trip (hA : A.Sane) (hB : A.Accurate) (hL : A.LogAccurate) {p : Pattern} {k : ℤ} {s : List Nat} {dv : Bool} {fd : Option Bool}
    (hp : mkSimplex k s dv fd = .ok p) (hk : k ≤ 500) {M : ℝ} (hM1 : 1 ≤ M) (hM : M ≤ 140) {x : List ℝ} (hx : x.length = s.prod * k.toNat)
    (hm : ∀ v ∈ x, A.Machine (.fin v) ∧ 0 < v ∧ |Real.log v| ≤ M)
    (hsum : ∀ i < s.prod, |(Spec.block k.toNat x i).sum - 1| ≤ 1 / 10 ^ 13) (vv : Option Bool) :
    ∃ y w : List ℝ, p.flattenFreeA A (.arr ⟨s ++ [k.toNat], x.map .fin⟩) vv = .ok (vec (y.map .fin)) ∧
      p.foldFreeA A (vec (y.map .fin)) = .ok (.arr ⟨s ++ [k.toNat], w.map .fin⟩) ∧
      ∀ i < s.prod, List.Forall₂ (fun v w => |w - v / (Spec.block k.toNat x i).sum| ≤
        2 ^ (-53 : ℤ) * (22 * M + 2 * k.toNat + 70) * (v / (Spec.block k.toNat x i).sum)) (Spec.block k.toNat x i) (Spec.block k.toNat w i) := by
  have hw := simplex_two_le hp
  have hv := simplex_accepts (dv := dv) hB (by omega) (fun v h => ⟨(hm v h).1, (hm v h).2.1⟩) hx hsum vv
  have hrow : ∀ i < s.prod, ∃ y : List ℝ, unconstrainSimplexRowA A (chunk k.toNat (x.map Flt.fin) i) = y.map .fin ∧
      y.length = k.toNat - 1 ∧ ∃ w : List ℝ, constrainSimplexRowA A (y.map .fin) = w.map .fin ∧
        List.Forall₂ (fun v w => |w - v / (Spec.block k.toNat x i).sum| ≤
          2 ^ (-53 : ℤ) * (22 * M + 2 * k.toNat + 70) * (v / (Spec.block k.toNat x i).sum)) (Spec.block k.toNat x i) w := by
    intro i hi
    obtain ⟨x0, xs, he, _, _⟩ := block_cons hw hx hi
    have hmem : ∀ v ∈ x0 :: xs, 0 < v ∧ |Real.log v| ≤ M := fun v h => (hm v (mem_chunk (k := k.toNat) (i := i) (by
      rw [show chunk k.toNat x i = x0 :: xs from he]; exact h))).2
    have hlen : (chunk k.toNat x i).length = k.toNat := length_chunk hx hi
    rw [show chunk k.toNat x i = x0 :: xs from he, List.length_cons] at hlen
    rw [chunk_map, show chunk k.toNat x i = x0 :: xs from he, he]
    obtain ⟨y, w, h1, h2, h3⟩ := Arith.simplex_value_row hA hB hL hmem hM1 hM (by omega)
    refine ⟨y, h1, ?_, w, h2, ?_⟩
    · have := congrArg List.length h1
      simp only [List.map_cons, unconstrainSimplexRowA, List.length_map] at this
      omega
    · have e : ((xs.length : ℝ) + 1) = (k.toNat : ℝ) := by exact_mod_cast hlen
      rw [e] at h3
      rw [Arith.uRound_val, mul_comm Arith.uRound]
      exact h3
  obtain ⟨g, hg1, hg2⟩ := join_rows hrow
  have hgl : ((List.range s.prod).flatMap g).length = s.prod * (k.toNat - 1) := length_flatMap_range _ fun i hi => (hg2 i hi).2.1
  have hch : ∀ i < s.prod, chunk (k.toNat - 1) ((List.range s.prod).flatMap g) i = g i := fun i hi =>
    chunk_of_flatMap g (fun i hi => (hg2 i hi).2.1) hi
  obtain ⟨g', hg1', hg2'⟩ := join_rows fun i hi => (hg2 i hi).2.2
  have hwl : ∀ i < s.prod, (g' i).length = k.toNat := by
    intro i hi
    have := (hg2' i hi).2.length_eq
    rw [← this]; exact length_chunk hx hi
  refine ⟨(List.range s.prod).flatMap g, (List.range s.prod).flatMap g', ?_, ?_, ?_⟩
  · rw [simplex_flatten_round hp hv, hg1]
  · rw [simplex_fold_round hp (by simpa using hgl), ← hg1']
    congr 3
    refine flatMap_congr' fun i hi => ?_
    rw [chunk_map, hch i (List.mem_range.mp hi)]
  · intro i hi
    rw [show Spec.block k.toNat ((List.range s.prod).flatMap g') i = g' i from chunk_of_flatMap g' hwl hi]
    exact (hg2' i hi).2

/-- **C100, round trips of free vectors.**  If the free values are at most `B` in size, `flatten` of `fold` gives them back up to
`2 ** -53 * (22 * B + 4 * k + 150)`. -/
theorem C100_free (hA : A.Sane) (hB : A.Accurate) (hL : A.LogAccurate) {p : Pattern} {k : ℤ} {s : List Nat} {dv : Bool} {fd : Option Bool}
    (hp : mkSimplex k s dv fd = .ok p) (hk : k ≤ 500) {B : ℝ} (hB1 : 1 ≤ B) (hB2 : B ≤ 100) {l : List ℝ}
    (hl : l.length = s.prod * (k.toNat - 1)) (hx : ∀ x ∈ l, A.Machine (.fin x) ∧ |x| ≤ B) (vv : Option Bool) :
    ∃ w y : List ℝ, p.foldFreeA A (vec (l.map .fin)) = .ok (.arr ⟨s ++ [k.toNat], w.map .fin⟩) ∧
      p.flattenFreeA A (.arr ⟨s ++ [k.toNat], w.map .fin⟩) vv = .ok (vec (y.map .fin)) ∧
      List.Forall₂ (fun u u' => |u' - u| ≤ 2 ^ (-53 : ℤ) * (22 * B + 4 * k.toNat + 150)) l y := by
  have hw := simplex_two_le hp
  have hrow : ∀ i < s.prod, ∃ w : List ℝ, constrainSimplexRowA A (chunk (k.toNat - 1) (l.map Flt.fin) i) = w.map .fin ∧
      w.length = k.toNat ∧ ∃ y : List ℝ, unconstrainSimplexRowA A (w.map .fin) = y.map .fin ∧
        List.Forall₂ (fun u u' => |u' - u| ≤ 2 ^ (-53 : ℤ) * (22 * B + 4 * k.toNat + 150)) (chunk (k.toNat - 1) l i) y := by
    intro i hi
    have hlen : (chunk (k.toNat - 1) l i).length = k.toNat - 1 := length_chunk hl hi
    obtain ⟨w, y, h1, h2, h3⟩ := Arith.simplex_free_row hA hB hL (r := chunk (k.toNat - 1) l i) (fun x h => (hx x (mem_chunk h)).2) hB1 hB2 (by omega)
    refine ⟨w, by rw [chunk_map]; exact h1, ?_, y, h2, ?_⟩
    · have := congrArg List.length h1
      simp only [constrainSimplexRowA, List.length_map, List.length_cons, hlen] at this
      omega
    · have e : (((chunk (k.toNat - 1) l i).length : ℝ) + 1) = (k.toNat : ℝ) := by rw [hlen]; exact_mod_cast (by omega : k.toNat - 1 + 1 = k.toNat)
      rw [e] at h3
      rw [Arith.uRound_val, mul_comm Arith.uRound]
      exact h3
  obtain ⟨g, hg1, hg2⟩ := join_rows hrow
  have hfold := simplex_fold_round (A := A) hp (l := l.map .fin) (by simpa using hl)
  rw [hg1] at hfold
  have hacc : Simplex.validateA A k.toNat s dv ⟨s ++ [k.toNat], ((List.range s.prod).flatMap g).map .fin⟩ vv = .ok (true, "") := by
    obtain ⟨a, h1, h2⟩ := C77_accepted hA hB hp hk l hl (fun x h => (hx x h).1) (fun x h => (hx x h).2.trans (by linarith)) vv
    rw [hfold] at h1
    injection h1 with h1; injection h1 with h1
    rw [h1]; exact h2
  obtain ⟨g', hg1', hg2'⟩ := join_rows fun i hi => (hg2 i hi).2.2
  refine ⟨(List.range s.prod).flatMap g, (List.range s.prod).flatMap g', hfold, ?_, ?_⟩
  · rw [simplex_flatten_round hp hacc, ← hg1']
    congr 2
    refine flatMap_congr' fun i hi => ?_
    rw [chunk_map, chunk_of_flatMap g (fun i hi => (hg2 i hi).2.1) (List.mem_range.mp hi)]
  · have e : l = (List.range s.prod).flatMap (chunk (k.toNat - 1) l) := (chunk_flatMap _ _ l hl).symm
    conv => arg 2; rw [e]
    exact forall₂_flatMap fun i hi => (hg2' i (List.mem_range.mp hi)).2

/-- The probabilities 1/2, 1/4, 1/4 of the examples. -/
theorem quarters : (∀ v ∈ [(1 / 2 : ℝ), 1 / 4, 1 / 4], binary64.Machine (.fin v) ∧ 0 < v ∧ |Real.log v| ≤ 2) ∧
    ∀ i < [1].prod, |(Spec.block (Int.toNat 3) [(1 / 2 : ℝ), 1 / 4, 1 / 4] i).sum - 1| ≤ 1 / 10 ^ 13 := by
  have hm2 : binary64.Machine (.fin (1 / 2)) := by
    have := binary64_accurate.machine_of (m := 1) (e := -1) (by norm_num) (by norm_num) (by norm_num)
    norm_num at this ⊢; exact this
  have hm4 : binary64.Machine (.fin (1 / 4)) := by
    have := binary64_accurate.machine_of (m := 1) (e := -2) (by norm_num) (by norm_num) (by norm_num)
    norm_num at this ⊢; exact this
  have hl2 : |Real.log (1 / 2)| ≤ 2 := by
    rw [one_div, Real.log_inv, abs_neg, abs_of_pos (Real.log_pos (by norm_num))]
    have := Real.log_two_lt_d9; linarith
  have hl4 : |Real.log (1 / 4)| ≤ 2 := by
    rw [one_div, Real.log_inv, abs_neg, abs_of_pos (Real.log_pos (by norm_num)), show (4:ℝ) = 2 ^ 2 by norm_num, Real.log_pow]
    have := Real.log_two_lt_d9; push_cast; linarith
  constructor
  · intro v hv
    simp only [List.mem_cons, List.not_mem_nil, or_false] at hv
    rcases hv with rfl | rfl | rfl
    · exact ⟨hm2, by norm_num, hl2⟩
    · exact ⟨hm4, by norm_num, hl4⟩
    · exact ⟨hm4, by norm_num, hl4⟩
  · intro i hi
    obtain rfl : i = 0 := by simpa using hi
    rw [show Int.toNat 3 = 3 from rfl]; norm_num [Spec.block]

/-- They flatten to -log 2 twice, up to the error. -/
example : ∃ y w : List ℝ, (Pattern.simplex 3 [1] true none).flatten (.arr ⟨[1] ++ [3], [1 / 2, 1 / 4, 1 / 4].map .fin⟩ : Val Flt) (some true) none =
      .ok (vec (y.map .fin)) ∧
    (Pattern.simplex 3 [1] true none).flattenFreeA binary64 (.arr ⟨[1] ++ [3], [1 / 2, 1 / 4, 1 / 4].map .fin⟩) none = .ok (vec (w.map .fin)) ∧
    List.Forall₂ (fun y w : ℝ => |w - y| ≤ 2 ^ (-53 : ℤ) * (6 * 2 + 7)) y w :=
  C100_flatten binary64_sane binary64_accurate binary64_logAccurate (k := 3) (s := [1]) (dv := true) (fd := none) rfl (by norm_num) (M := 2)
    (by norm_num) (x := [1 / 2, 1 / 4, 1 / 4]) rfl quarters.1 quarters.2 none

/-- The probabilities 1/2, 1/4, 1/4 and the free values 1 and -2 in binary64. -/
example : (∃ y w : List ℝ, (Pattern.simplex 3 [1] true none).flattenFreeA binary64 (.arr ⟨[1] ++ [3], [1 / 2, 1 / 4, 1 / 4].map .fin⟩) none = .ok (vec (y.map .fin)) ∧
      (Pattern.simplex 3 [1] true none).foldFreeA binary64 (vec (y.map .fin)) = .ok (.arr ⟨[1] ++ [3], w.map .fin⟩) ∧
      ∀ i < [1].prod, List.Forall₂ (fun v w : ℝ => |w - v / (Spec.block 3 [1 / 2, 1 / 4, 1 / 4] i).sum| ≤
        2 ^ (-53 : ℤ) * (22 * 2 + 2 * ((3 : ℕ) : ℝ) + 70) * (v / (Spec.block 3 [1 / 2, 1 / 4, 1 / 4] i).sum))
        (Spec.block 3 [1 / 2, 1 / 4, 1 / 4] i) (Spec.block 3 w i)) ∧
    ∃ w y : List ℝ, (Pattern.simplex 3 [1] true none).foldFreeA binary64 (vec ([1, -2].map .fin)) = .ok (.arr ⟨[1] ++ [3], w.map .fin⟩) ∧
      (Pattern.simplex 3 [1] true none).flattenFreeA binary64 (.arr ⟨[1] ++ [3], w.map .fin⟩) none = .ok (vec (y.map .fin)) ∧
      List.Forall₂ (fun u u' : ℝ => |u' - u| ≤ 2 ^ (-53 : ℤ) * (22 * 2 + 4 * ((3 : ℕ) : ℝ) + 150)) [1, -2] y := by
  constructor
  · exact C100_trip binary64_sane binary64_accurate binary64_logAccurate (k := 3) (s := [1]) (dv := true) (fd := none) rfl (by norm_num) (M := 2)
      (by norm_num) (by norm_num) (x := [1 / 2, 1 / 4, 1 / 4]) rfl quarters.1 quarters.2 none
  · exact C100_free binary64_sane binary64_accurate binary64_logAccurate (k := 3) (s := [1]) (dv := true) (fd := none) rfl (by norm_num) (B := 2)
      (by norm_num) (by norm_num) (l := [1, -2]) rfl (by
        intro x hx
        have hm1 := binary64_sane.one_machine
        have hm3 := binary64_int_machine (m := -2) (by norm_num)
        simp only [List.mem_cons, List.not_mem_nil, or_false] at hx
        rcases hx with rfl | rfl
        · exact ⟨hm1, by norm_num⟩
        · exact ⟨by simpa using hm3, by norm_num⟩) none

end Paragami
