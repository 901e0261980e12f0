import Verif.Proofs.Autograd

/-! # C59–C61: `grouped_sum`, `replace`, sparse products and solvers -/

namespace Paragami
open NDArray LinAlg Autograd

/-! ### C59 -/

/-- **C59.** Row `g` of the result is the sum of the rows of `x` whose group denotes `g`.  Without `num_groups` there is one group more
than the largest one says.  Rows are arrays of any shape. -/
theorem C59_sum {N G : Nat} (t : List Nat) (X : Matrix (Fin N) (Fin t.prod) ℝ) (γ : Fin N → ℤ) (pos : Fin N → Fin G) (hN : 0 < N)
    (hγ : ∀ i, Spec.Denotes (γ i) (pos i)) {num : Option ℤ} (hnum : num = some (G : ℤ) ∨ (num = none ∧ ∃ i, γ i + 1 = G)) :
    ∃ R : Matrix (Fin G) (Fin t.prod) ℝ, groupedSum (Spec.rowsOf t X) (vec (List.ofFn γ)) num = .ok (Spec.rowsOf t R) ∧
      (∀ g j, R g j = ∑ i ∈ Finset.univ.filter (fun i => pos i = g), X i j) ∧ ∀ g, (∀ i, pos i ≠ g) → R g = 0 := by
  refine ⟨_, groupedSum_eq t X γ pos hN hγ hnum, fun g j => (Finset.sum_filter _ _).symm, fun g hg => ?_⟩
  funext j
  exact Finset.sum_eq_zero fun i _ => if_neg (hg i)

/-- **C59, `ValueError`.** A length that differs, no groups at all, a group that is too large, a negative number of groups. -/
theorem C59_valueError {N : Nat} (t : List Nat) (X : Matrix (Fin N) (Fin t.prod) ℝ) (γ : List ℤ) (num : Option ℤ)
    (h : γ.length ≠ N ∨ γ = [] ∨ (∃ k, num = some k ∧ ∃ i ∈ γ, k ≤ i) ∨ (∃ k, num = some k ∧ k < 0) ∨ (num = none ∧ ∀ i ∈ γ, i < -1)) :
    ∃ msg, groupedSum (Spec.rowsOf t X) (vec γ) num = .error (.valueError msg) := by
  rw [groupedSum_unfold]
  simp only [bind, Except.bind, pure, Except.pure]
  by_cases hN : γ.length = N
  swap
  · rw [if_pos (fun h => hN h.symm)]
    exact ⟨_, rfl⟩
  rw [if_neg (not_not.mpr hN.symm)]
  rcases hm : γ.max? with _ | m
  · rw [maxGroup, hm]
    exact ⟨_, rfl⟩
  rw [maxGroup, hm]
  have hmem := List.max?_mem hm
  have hle := fun i (hi : i ∈ γ) => le_max? hm hi
  rcases num with _ | k
  · have : m < -1 := by
      rcases h with h | rfl | ⟨k, h, -⟩ | ⟨k, h, -⟩ | ⟨-, h⟩
      · exact absurd hN h
      · simp at hm
      · cases h
      · cases h
      · exact h m hmem
    simp only [groupCount, zeroRows, if_pos (show m + 1 < 0 by omega)]
    exact ⟨_, rfl⟩
  · by_cases hk : m ≥ k
    · simp only [groupCount, if_pos hk]
      exact ⟨_, rfl⟩
    · have : k < 0 := by
        rcases h with h | rfl | ⟨k', h, i, hi, hki⟩ | ⟨k', h, h'⟩ | ⟨h, -⟩
        · exact absurd hN h
        · simp at hm
        · cases h; exact absurd (hki.trans (hle i hi)) hk
        · cases h; exact h'
        · cases h
      simp only [groupCount, if_neg hk, zeroRows, if_pos this]
      exact ⟨_, rfl⟩

/-- **C59, `IndexError`.** In the remaining cases (`k` is the number of groups) a group below `-k` raises `IndexError`. -/
theorem C59_indexError {N : Nat} (t : List Nat) (X : Matrix (Fin N) (Fin t.prod) ℝ) (γ : List ℤ) (num : Option ℤ) (k : ℤ)
    (hN : γ.length = N) (hk : 0 ≤ k) (hnum : num = some k ∨ (num = none ∧ k - 1 ∈ γ)) (hlt : ∀ i ∈ γ, i < k) (h : ∃ i ∈ γ, i < -k) :
    groupedSum (Spec.rowsOf t X) (vec γ) num = .error .indexError := by
  obtain ⟨i, hi, hik⟩ := h
  rw [groupedSum_unfold]
  simp only [bind, Except.bind, pure, Except.pure]
  rw [if_neg (not_not.mpr hN.symm)]
  rcases hm : γ.max? with _ | m
  · rw [List.max?_eq_none_iff] at hm; subst hm; cases hi
  rw [maxGroup, hm]
  have hmem := List.max?_mem hm
  have hc : groupCount m num = .ok k := by
    rcases hnum with rfl | ⟨rfl, hk'⟩
    · rw [groupCount, if_neg (by have := hlt m hmem; omega)]
    · rw [groupCount]
      have h1 := hlt m hmem
      have h2 := le_max? hm hk'
      congr 1; omega
  simp only [hc, zeroRows, if_neg (not_lt.mpr hk)]
  have : ((k.toNat : ℕ) : ℤ) = k := by simp [hk]
  rw [addRows_error _ _ _ (by simp [rows]) ⟨i, hi, wrap_bad (.inl (by omega))⟩]

/-- **C59, when it returns.** Exactly if the length matches, there is a group, and all groups denote positions. -/
theorem C59_returns_iff {N : Nat} (t : List Nat) (X : Matrix (Fin N) (Fin t.prod) ℝ) (γ : List ℤ) (num : Option ℤ) :
    (∃ r, groupedSum (Spec.rowsOf t X) (vec γ) num = .ok r) ↔
      γ.length = N ∧ γ ≠ [] ∧ ∃ k : ℤ, (num = some k ∨ (num = none ∧ k - 1 ∈ γ)) ∧ ∀ i ∈ γ, -k ≤ i ∧ i < k := by
  constructor
  · rintro ⟨r, hr⟩
    have hv : ∀ h, False := fun h => by
      obtain ⟨msg, hmsg⟩ := C59_valueError t X γ num h
      rw [hr] at hmsg; cases hmsg
    have hN : γ.length = N := by by_contra h; exact hv (.inl h)
    have hne : γ ≠ [] := fun h => hv (.inr (.inl h))
    refine ⟨hN, hne, ?_⟩
    rcases num with _ | k
    · obtain ⟨m, hm⟩ : ∃ m, γ.max? = some m := by
        rcases hm : γ.max? with _ | m
        · exact absurd (List.max?_eq_none_iff.mp hm) hne
        · exact ⟨m, rfl⟩
      have hmem := List.max?_mem hm
      have hm1 : -1 ≤ m := by
        by_contra h
        exact hv (.inr (.inr (.inr (.inr ⟨rfl, fun i hi => by have := le_max? hm hi; omega⟩))))
      refine ⟨m + 1, .inr ⟨rfl, by simpa using hmem⟩, fun i hi => ⟨?_, by have := le_max? hm hi; omega⟩⟩
      by_contra h
      have := C59_indexError t X γ none (m + 1) hN (by omega) (.inr ⟨rfl, by simpa using hmem⟩) (fun i hi => by have := le_max? hm hi; omega)
        ⟨i, hi, by omega⟩
      rw [hr] at this; cases this
    · refine ⟨k, .inl rfl, fun i hi => ?_⟩
      have h1 : ∀ i ∈ γ, i < k := fun i hi => by
        by_contra h
        exact hv (.inr (.inr (.inl ⟨k, rfl, i, hi, by omega⟩)))
      have h2 : 0 ≤ k := by
        by_contra h
        exact hv (.inr (.inr (.inr (.inl ⟨k, rfl, by omega⟩))))
      refine ⟨?_, h1 i hi⟩
      by_contra h
      have := C59_indexError t X γ (some k) k hN h2 (.inl rfl) h1 ⟨i, hi, by omega⟩
      rw [hr] at this; cases this
  · rintro ⟨hN, hne, k, hk, hr⟩
    have hN0 : 0 < γ.length := List.length_pos_iff.mpr hne
    subst hN
    obtain ⟨G, rfl⟩ : ∃ G : Nat, k = G := ⟨k.toNat, by
      have := hr _ (List.getElem_mem hN0)
      omega⟩
    choose pos hpos using fun i : Fin γ.length => exists_denotes (hr γ[i] (List.getElem_mem i.2))
    have := groupedSum_eq t X (fun i => γ[i]) pos hN0 hpos (num := num) (by
      rcases hk with rfl | ⟨rfl, hk⟩
      · exact .inl rfl
      · obtain ⟨i, hi, he⟩ := List.getElem_of_mem hk
        exact .inr ⟨rfl, ⟨i, hi⟩, by simp only [Fin.getElem_fin, he]; omega⟩)
    exact ⟨_, by simpa using this⟩

/-- **C59, other arguments.** A matrix of groups raises `ValueError`; scalars count as vectors of length one. -/
theorem C59_groups_shape (x : NDArray ℝ) (a b : Nat) (s : List Nat) (d : List ℤ) (num : Option ℤ) :
    (∃ msg, groupedSum x ⟨a :: b :: s, d⟩ num = .error (.valueError msg)) ∧
      (∀ (c : ℝ) g num, groupedSum ⟨[], [c]⟩ g num = groupedSum (vec [c]) g num) ∧ ∀ (i : ℤ) num, groupedSum x ⟨[], [i]⟩ num = groupedSum x (vec [i]) num := by
  refine ⟨?_, fun _ _ _ => rfl, fun _ _ => rfl⟩
  have : (⟨a :: b :: s, d⟩ : NDArray ℤ).atleast1d.ndim > 1 := by simp [NDArray.ndim, NDArray.atleast1d]
  simp only [groupedSum, if_pos this]
  exact ⟨_, rfl⟩

/-- **C59, reverse mode.** The reverse rule is the adjoint of `grouped_sum`: `⟨V, grouped_sum(X)⟩ = ⟨vjp(V), X⟩` for every cotangent. -/
theorem C59_reverse {N G : Nat} (t : List Nat) (X : Matrix (Fin N) (Fin t.prod) ℝ) (γ : Fin N → ℤ) (hN : 0 < N) {num : Option ℤ}
    (hγ : ∀ i, -(G : ℤ) ≤ γ i ∧ γ i < G) (hnum : num = some (G : ℤ) ∨ (num = none ∧ ∃ i, γ i + 1 = G)) (V : Matrix (Fin G) (Fin t.prod) ℝ) (ans : NDArray ℝ) :
    ∃ R W, groupedSum (Spec.rowsOf t X) (vec (List.ofFn γ)) num = .ok (Spec.rowsOf t R) ∧
      groupedSumVjp ans (Spec.rowsOf t X) (vec (List.ofFn γ)) num (Spec.rowsOf t V) = .ok (Spec.rowsOf t W) ∧ Spec.inner V R = Spec.inner W X := by
  choose pos hpos using fun i => exists_denotes (hγ i)
  refine ⟨_, _, groupedSum_eq t X γ pos hN hpos hnum, ungroup_eq t V γ pos hpos, ?_⟩
  simp only [Spec.inner, Finset.mul_sum]
  rw [Finset.sum_congr rfl fun g _ => Finset.sum_comm, Finset.sum_comm]
  refine Finset.sum_congr rfl fun i _ => ?_
  rw [Finset.sum_comm]
  refine Finset.sum_congr rfl fun j _ => ?_
  rw [Finset.sum_eq_single (pos i)]
  · rw [if_pos rfl]
  · intro g _ hg; rw [if_neg fun h => hg h.symm, mul_zero]
  · simp

/-- **C59, forward mode.** The forward rule is the derivative along every curve. -/
theorem C59_forward {N G : Nat} (t : List Nat) (X : ℝ → Matrix (Fin N) (Fin t.prod) ℝ) (X' : Matrix (Fin N) (Fin t.prod) ℝ) {τ : ℝ} (hX : Spec.Velocity X X' τ)
    (γ : Fin N → ℤ) (hN : 0 < N) {num : Option ℤ} (hγ : ∀ i, -(G : ℤ) ≤ γ i ∧ γ i < G)
    (hnum : num = some (G : ℤ) ∨ (num = none ∧ ∃ i, γ i + 1 = G)) (ans : NDArray ℝ) :
    ∃ (R : ℝ → Matrix (Fin G) (Fin t.prod) ℝ) (R' : Matrix (Fin G) (Fin t.prod) ℝ),
      (∀ s, groupedSum (Spec.rowsOf t (X s)) (vec (List.ofFn γ)) num = .ok (Spec.rowsOf t (R s))) ∧
      groupedSumJvp (Spec.rowsOf t X') ans (Spec.rowsOf t (X τ)) (vec (List.ofFn γ)) num = .ok (Spec.rowsOf t R') ∧ Spec.Velocity R R' τ := by
  choose pos hpos using fun i => exists_denotes (hγ i)
  refine ⟨_, _, fun s => groupedSum_eq t (X s) γ pos hN hpos hnum, groupedSum_eq t X' γ pos hN hpos hnum, fun g j => ?_⟩
  refine HasDerivAt.fun_sum fun i _ => ?_
  split
  · exact hX i j
  · exact hasDerivAt_const ..

/-- Non-vacuity: rows of length two; the groups `0, -1, 0` of three. -/
example : ∃ R, groupedSum (Spec.rowsOf [2] (N := 3) ![![1, 2], ![3, 4], ![5, 6]]) (vec (List.ofFn (![0, -1, 0] : Fin 3 → ℤ))) (some 3) =
      .ok (Spec.rowsOf [2] (N := 3) R) ∧ R 0 = ![6, 8] ∧ R 1 = 0 ∧ R 2 = ![3, 4] := by
  refine ⟨_, groupedSum_eq (N := 3) (G := 3) [2] ![![1, 2], ![3, 4], ![5, 6]] ![0, -1, 0] ![0, 2, 0] (by norm_num) (fun i => ?_) (.inl rfl), ?_, ?_, ?_⟩
  · fin_cases i <;> norm_num [Spec.Denotes]
  all_goals
    funext j
    fin_cases j <;> simp [Fin.sum_univ_three] <;> norm_num

/-! ### C60 and C74 -/

/-- **C60.** The entries at the indices (negative ones count from the end) are those of `x_sub`, the last one for an index given more
than once; all others are those of `x`. -/
theorem C60_value {N D : Nat} (xs : Fin D → ℝ) (x : Fin N → ℝ) (inds : Fin D → ℤ) (pos : Fin D → Fin N) (h : ∀ k, Spec.Denotes (inds k) (pos k)) :
    ∃ r, replace (vecOf xs) (vecOf x) (List.ofFn inds) = .ok (vecOf r) ∧ Spec.LastWrites xs x pos r ∧
      (Function.Injective pos → ∀ k, r (pos k) = xs k) := by
  obtain ⟨r, h1, h2⟩ := replace_eq xs x inds pos h
  exact ⟨r, h1, h2, fun hi k => h2.1 k fun k' hk he => hk.ne' (hi he)⟩

/-- **C60, memory.** The result is a new array; no array that existed changes. -/
theorem C60_new_array (m : Optimization.Mem) (a b : Nat) (ha : a < m.cells.length) {inds : List ℤ} {r : NDArray ℝ}
    (h : replace (vec (m.read a)) (vec (m.read b)) inds = .ok r) :
    ∃ m' c, replaceIn m a b inds = .ok (m', c) ∧ m.cells.length ≤ c ∧ m'.read c = r.data ∧ ∀ d < m.cells.length, m'.read d = m.read d := by
  have hread : ∀ d < m.cells.length, (m.alloc (m.read b)).1.read d = m.read d := fun d hd => by
    simp [Optimization.Mem.alloc, Optimization.Mem.read, List.getElem?_append_left hd]
  have hnew : (m.alloc (m.read b)).1.read (m.alloc (m.read b)).2 = m.read b := by
    simp [Optimization.Mem.alloc, Optimization.Mem.read]
  refine ⟨_, m.cells.length, by
    simp only [replaceIn, hread a ha, hnew, h, bind, Except.bind, pure, Except.pure]
    rfl, le_rfl, ?_, fun d hd => ?_⟩
  · simp [Optimization.Mem.write, Optimization.Mem.read, Optimization.Mem.alloc]
  · rw [← hread d hd]
    simp only [Optimization.Mem.write, Optimization.Mem.read, List.getD_eq_getElem?_getD]
    rw [List.getElem?_set_ne (by simp only [Optimization.Mem.alloc]; omega)]

/-- **C60, errors.** An index that denotes no position raises `IndexError`; a wrong number of values (not one) raises `ValueError`. -/
theorem C60_errors {N D : Nat} (xs : Fin D → ℝ) (x : Fin N → ℝ) (inds : List ℤ) :
    (inds.length = D → (∃ i ∈ inds, i < -(N : ℤ) ∨ (N : ℤ) ≤ i) → replace (vecOf xs) (vecOf x) inds = .error .indexError) ∧
      (inds.length ≠ D → D ≠ 1 → (∀ i ∈ inds, -(N : ℤ) ≤ i ∧ i < N) → ∃ msg, replace (vecOf xs) (vecOf x) inds = .error (.valueError msg)) := by
  constructor
  · rintro rfl ⟨i, hi, hb⟩
    have : mapE (wrap N) inds = .error .indexError := by
      clear xs
      induction inds with
      | nil => cases hi
      | cons j l ih =>
        by_cases hj : j < -(N : ℤ) ∨ (N : ℤ) ≤ j
        · rw [mapE, wrap_bad hj]
        · have hl : i ∈ l := by
            rcases List.mem_cons.mp hi with rfl | h
            · exact absurd hb hj
            · exact h
          rw [mapE, (wrap_eq (N := N) (i := j) (by omega)).1, ih hl]
    simp only [replace, vecOf_shape, if_true, List.length_singleton, this]
    rfl
  · intro h1 h2 h3
    obtain ⟨ks, hk⟩ : ∃ ks, mapE (wrap N) inds = .ok ks := by
      clear h1
      induction inds with
      | nil => exact ⟨[], rfl⟩
      | cons j l ih =>
        obtain ⟨ks, hk⟩ := ih fun i hi => h3 i (List.mem_cons_of_mem _ hi)
        exact ⟨_, by rw [mapE, (wrap_eq (h3 j (List.mem_cons_self ..))).1, hk]⟩
    simp only [replace, vecOf_shape, if_neg (fun h => h1 h.symm : ¬ D = inds.length), if_neg h2, List.length_singleton, hk]
    exact ⟨_, rfl⟩

/-- A position is the last of some index or of none. -/
theorem last_or_none {N D : Nat} (pos : Fin D → Fin N) (p : Fin N) :
    (∃ k, pos k = p ∧ ∀ k', k < k' → pos k' ≠ pos k) ∨ ∀ k, pos k ≠ p := by
  by_cases hp : ∀ k, pos k ≠ p
  · exact .inr hp
  · push Not at hp
    obtain ⟨k, rfl, hk⟩ := LastWrites.unique.last_index hp
    exact .inl ⟨k, rfl, hk⟩

/-- **C60, forward mode.** The two forward rules together are the derivative along every curve `(x_sub(s), x(s))`. -/
theorem C60_forward {N D : Nat} (xs : ℝ → Fin D → ℝ) (x : ℝ → Fin N → ℝ) {xs' : Fin D → ℝ} {x' : Fin N → ℝ} {τ : ℝ} (hxs : Spec.VelocityVec xs xs' τ)
    (hx : Spec.VelocityVec x x' τ) (inds : Fin D → ℤ) (hi : ∀ k, -(N : ℤ) ≤ inds k ∧ inds k < N) (ans : NDArray ℝ) :
    ∃ (r : ℝ → Fin N → ℝ) (a b : Fin N → ℝ), (∀ s, replace (vecOf (xs s)) (vecOf (x s)) (List.ofFn inds) = .ok (vecOf (r s))) ∧
      replaceJvpSub (vecOf xs') ans (vecOf (xs τ)) (vecOf (x τ)) (List.ofFn inds) = .ok (vecOf a) ∧
      replaceJvpX (vecOf x') ans (vecOf (xs τ)) (vecOf (x τ)) (List.ofFn inds) = .ok (vecOf b) ∧ Spec.VelocityVec r (a + b) τ := by
  choose pos hpos using fun k => exists_denotes (hi k)
  choose r hr1 hr2 using fun s => replace_eq (xs s) (x s) inds pos hpos
  obtain ⟨a, ha1, ha2⟩ := replace_eq xs' (fun _ : Fin N => (0 : ℝ)) inds pos hpos
  obtain ⟨b, hb1, hb2⟩ := replace_scalar 0 x' inds pos hpos
  refine ⟨r, a, b, hr1, ?_, hb1, fun p => ?_⟩
  · have : (vecOf (x τ)).len = .ok N := by simp [NDArray.len, vecOf_shape]
    simp only [replaceJvpSub, this, bind, Except.bind]
    rw [← List.ofFn_const]
    exact ha1
  · rcases last_or_none pos p with ⟨k, rfl, hk⟩ | hp
    · have : (fun s => r s (pos k)) = fun s => xs s k := funext fun s => (hr2 s).1 k hk
      rw [this, Pi.add_apply, ha2.1 k hk, hb2.1 k hk, add_zero]
      exact hxs k
    · have : (fun s => r s p) = fun s => x s p := funext fun s => (hr2 s).2 p hp
      rw [this, Pi.add_apply, ha2.2 p hp, hb2.2 p hp, zero_add]
      exact hx p

/-- **C60, reverse mode for `x`.** The reverse rule is the adjoint of the forward rule, whatever the indices. -/
theorem C60_reverse_x {N D : Nat} (xs : Fin D → ℝ) (x : Fin N → ℝ) (inds : Fin D → ℤ) (hi : ∀ k, -(N : ℤ) ≤ inds k ∧ inds k < N) (ans : NDArray ℝ)
    (g h : Fin N → ℝ) :
    ∃ u w : Fin N → ℝ, replaceJvpX (vecOf h) ans (vecOf xs) (vecOf x) (List.ofFn inds) = .ok (vecOf u) ∧
      replaceVjpX ans (vecOf xs) (vecOf x) (List.ofFn inds) (vecOf g) = .ok (vecOf w) ∧ dotProduct g u = dotProduct w h := by
  choose pos hpos using fun k => exists_denotes (hi k)
  obtain ⟨u, hu1, hu2⟩ := replace_scalar 0 h inds pos hpos
  obtain ⟨w, hw1, hw2⟩ := replace_scalar 0 g inds pos hpos
  refine ⟨u, w, hu1, hw1, Finset.sum_congr rfl fun p _ => ?_⟩
  rcases last_or_none pos p with ⟨k, rfl, hk⟩ | hp
  · rw [hu2.1 k hk, hw2.1 k hk, mul_zero, zero_mul]
  · rw [hu2.2 p hp, hw2.2 p hp]

/-- **C60, reverse mode for `x_sub`.** The reverse rule is the adjoint of the forward rule exactly if the indices denote distinct
positions. -/
theorem C60_reverse_sub {N D : Nat} (xs : Fin D → ℝ) (x : Fin N → ℝ) (inds : Fin D → ℤ) (pos : Fin D → Fin N)
    (hpos : ∀ k, Spec.Denotes (inds k) (pos k)) (ans : NDArray ℝ) :
    (∀ (g : Fin N → ℝ) (h : Fin D → ℝ), ∃ (u : Fin N → ℝ) (w : Fin D → ℝ),
      replaceJvpSub (vecOf h) ans (vecOf xs) (vecOf x) (List.ofFn inds) = .ok (vecOf u) ∧
      replaceVjpSub ans (vecOf xs) (vecOf x) (List.ofFn inds) (vecOf g) = .ok (vecOf w) ∧ dotProduct g u = dotProduct w h) ↔
    Function.Injective pos := by
  have hlen : (vecOf x).len = .ok N := by simp [NDArray.len, vecOf_shape]
  have hj : ∀ h : Fin D → ℝ, ∃ u, replaceJvpSub (vecOf h) ans (vecOf xs) (vecOf x) (List.ofFn inds) = .ok (vecOf u) ∧
      Spec.LastWrites h (fun _ => 0) pos u := by
    intro h
    obtain ⟨a, ha1, ha2⟩ := replace_eq h (fun _ : Fin N => (0 : ℝ)) inds pos hpos
    refine ⟨a, ?_, ha2⟩
    simp only [replaceJvpSub, hlen, bind, Except.bind]
    rw [← List.ofFn_const]
    exact ha1
  have hv : ∀ g : Fin N → ℝ, replaceVjpSub ans (vecOf xs) (vecOf x) (List.ofFn inds) (vecOf g) = .ok (vecOf fun k => g (pos k)) :=
    fun g => gather_eq g inds pos hpos
  constructor
  · intro H k k' hkk
    by_contra hne
    wlog hlt : k < k' generalizing k k'
    · exact this hkk.symm (Ne.symm hne) (lt_of_le_of_ne (not_lt.mp hlt) (Ne.symm hne))
    obtain ⟨u, w, h1, h2, h3⟩ := H (Pi.single (pos k) 1) (Pi.single k 1)
    obtain ⟨u', h4, h5⟩ := hj (Pi.single k 1)
    rw [h1] at h4
    cases vecOf_inj (Except.ok.inj h4)
    rw [hv] at h2
    cases vecOf_inj (Except.ok.inj h2)
    rw [single_one_dotProduct, dotProduct_single_one] at h3
    rcases last_or_none pos (pos k) with ⟨l, hl, hlast⟩ | hno
    · have hlk : l ≠ k := by
        rintro rfl
        exact hlast k' hlt hkk.symm
      have := h5.1 l hlast
      rw [hl, Pi.single_eq_of_ne hlk] at this
      rw [this] at h3
      simp at h3
    · exact hno k rfl
  · intro hinj g h
    obtain ⟨u, hu1, hu2⟩ := hj h
    refine ⟨u, _, hu1, hv g, ?_⟩
    have hu : ∀ p, u p = ∑ k, if pos k = p then h k else 0 := by
      intro p
      rcases last_or_none pos p with ⟨k, rfl, hk⟩ | hp
      · rw [hu2.1 k hk, Finset.sum_eq_single k]
        · rw [if_pos rfl]
        · intro l _ hl; rw [if_neg fun he => hl (hinj he)]
        · simp
      · rw [hu2.2 p hp]
        exact (Finset.sum_eq_zero fun k _ => if_neg (hp k)).symm
    simp only [dotProduct, hu, Finset.mul_sum]
    rw [Finset.sum_comm]
    refine Finset.sum_congr rfl fun k _ => ?_
    rw [Finset.sum_eq_single (pos k)]
    · rw [if_pos rfl]
    · intro p _ hp; rw [if_neg fun h => hp h.symm, mul_zero]
    · simp

/-- **C74.** For a scalar `x_sub`, which is broadcast, value and forward rule are right, but the reverse rule returns one number per
index instead of their sum, which would be the adjoint. -/
theorem C74_scalar {N D : Nat} (c : ℝ) (x : Fin N → ℝ) (inds : Fin D → ℤ) (pos : Fin D → Fin N) (hpos : ∀ k, Spec.Denotes (inds k) (pos k))
    (hinj : Function.Injective pos) (ans : NDArray ℝ) (g : Fin N → ℝ) (c' : ℝ) :
    ∃ (r u : Fin N → ℝ) (w : Fin D → ℝ), replace ⟨[], [c]⟩ (vecOf x) (List.ofFn inds) = .ok (vecOf r) ∧
      Spec.LastWrites (fun _ => c) x pos r ∧
      replaceJvpSub ⟨[], [c']⟩ ans ⟨[], [c]⟩ (vecOf x) (List.ofFn inds) = .ok (vecOf u) ∧ Spec.LastWrites (fun _ => c') 0 pos u ∧
      replaceVjpSub ans ⟨[], [c]⟩ (vecOf x) (List.ofFn inds) (vecOf g) = .ok (vecOf w) ∧
      dotProduct g u = (∑ k, w k) * c' ∧ (vecOf w).shape ≠ [] := by
  obtain ⟨r, hr1, hr2⟩ := replace_scalar c x inds pos hpos
  obtain ⟨u, hu1, hu2⟩ := replace_scalar c' (fun _ : Fin N => (0 : ℝ)) inds pos hpos
  refine ⟨r, u, _, hr1, hr2, ?_, hu2, gather_eq g inds pos hpos, ?_, by simp [vecOf_shape]⟩
  · have hlen : (vecOf x).len = .ok N := by simp [NDArray.len, vecOf_shape]
    simp only [replaceJvpSub, hlen, bind, Except.bind]
    rw [← List.ofFn_const]
    exact hu1
  · obtain ⟨u', w', h1, h2, h3⟩ := (C60_reverse_sub (fun _ => c) x inds pos hpos ans).mpr hinj g fun _ => c'
    obtain ⟨u'', h4, h5⟩ := replace_eq (fun _ : Fin D => c') (fun _ : Fin N => (0 : ℝ)) inds pos hpos
    have : u = u' := by
      rw [LastWrites.unique hu2 h5]
      have hlen : (vecOf x).len = .ok N := by simp [NDArray.len, vecOf_shape]
      simp only [replaceJvpSub, hlen, bind, Except.bind] at h1
      rw [← List.ofFn_const] at h1
      exact vecOf_inj (Except.ok.inj (h4.symm.trans h1))
    rw [this, h3]
    have hw : w' = fun k => g (pos k) := by
      rw [replaceVjpSub, gather_eq g inds pos hpos] at h2
      exact (vecOf_inj (Except.ok.inj h2)).symm
    rw [hw, dotProduct, Finset.sum_mul]

/-- **C74.** A vector `x_sub` of length one is broadcast like a scalar, whatever the indices, and its forward rule too; its reverse rule
also returns one number per index. -/
theorem C74_length_one {N : Nat} (c c' : ℝ) (x : Fin N → ℝ) (inds : List ℤ) (ans : NDArray ℝ) (g : Fin N → ℝ) :
    replace (vecOf ![c]) (vecOf x) inds = replace ⟨[], [c]⟩ (vecOf x) inds ∧
      replaceJvpSub (vecOf ![c']) ans (vecOf ![c]) (vecOf x) inds = replaceJvpSub ⟨[], [c']⟩ ans ⟨[], [c]⟩ (vecOf x) inds ∧
      ∀ w, replaceVjpSub ans (vecOf ![c]) (vecOf x) inds (vecOf g) = .ok w → w.shape = [inds.length] := by
  have hb : ∀ (c : ℝ) (x : Fin N → ℝ), replace (vecOf ![c]) (vecOf x) inds = replace ⟨[], [c]⟩ (vecOf x) inds := by
    intro c x
    simp only [replace, vecOf_shape, vecOf_data]
    by_cases h : 1 = inds.length
    · rw [← h]; simp
    · simp [h]
  refine ⟨hb c x, ?_, ?_⟩
  · have hlen : (vecOf x).len = .ok N := by simp [NDArray.len, vecOf_shape]
    simp only [replaceJvpSub, hlen, bind, Except.bind]
    rw [← List.ofFn_const]
    exact hb c' fun _ => 0
  · intro w h
    simp only [replaceVjpSub, gather, vecOf_shape] at h
    generalize hr : mapE _ inds = r at h
    cases r with
    | error e => simp [bind, Except.bind] at h
    | ok r =>
      simp only [bind, Except.bind, pure, Except.pure, Except.ok.injEq] at h
      rw [← h, (mapE_ok_iff.mp hr).length_eq]
      rfl

/-- Non-vacuity: positions 0 and -1 of a vector of length three. -/
example : ∃ r, replace (vecOf ![7, 8]) (vecOf ![1, 2, 3]) (List.ofFn (![0, -1] : Fin 2 → ℤ)) = .ok (vecOf r) ∧ r = ![7, 2, 8] := by
  obtain ⟨r, h1, h2, h3⟩ := C60_value (N := 3) (D := 2) ![7, 8] ![1, 2, 3] ![0, -1] ![0, 2] (by intro k; fin_cases k <;> norm_num [Spec.Denotes])
  refine ⟨r, h1, ?_⟩
  have h3 := h3 (by decide)
  funext p
  fin_cases p
  · exact h3 0
  · exact h2.2 1 (by decide)
  · exact h3 1

/-- Non-vacuity: a repeated index, so the reverse rule for `x_sub` is not the adjoint. -/
example (ans : NDArray ℝ) : ¬ ∀ (g : Fin 3 → ℝ) (h : Fin 2 → ℝ), ∃ (u : Fin 3 → ℝ) (w : Fin 2 → ℝ),
      replaceJvpSub (vecOf h) ans (vecOf ![7, 8]) (vecOf ![1, 2, 3]) (List.ofFn (![2, -1] : Fin 2 → ℤ)) = .ok (vecOf u) ∧
      replaceVjpSub ans (vecOf ![7, 8]) (vecOf ![1, 2, 3]) (List.ofFn (![2, -1] : Fin 2 → ℤ)) (vecOf g) = .ok (vecOf w) ∧ dotProduct g u = dotProduct w h := by
  rw [C60_reverse_sub (N := 3) (D := 2) ![7, 8] ![1, 2, 3] ![2, -1] ![2, 2] (by intro k; fin_cases k <;> norm_num [Spec.Denotes]) ans]
  decide

/-! ### C61 -/

/-- **C61, products.** The two functions multiply by the matrix and by its transpose; matrices work too. -/
theorem C61_product {n m : Nat} (Z : Matrix (Fin n) (Fin m) ℝ) :
    ∃ f, getSparseProduct (ofMatrix Z) = .ok f ∧ Spec.ActsAs (f .fwd) Z ∧ Spec.ActsAs (f .tr) Z.transpose ∧
      (∀ {k : Nat} (B : Matrix (Fin m) (Fin k) ℝ), f .fwd (ofMatrix B) = .ok (ofMatrix (Z * B))) ∧
      ∀ {k : Nat} (B : Matrix (Fin n) (Fin k) ℝ), f .tr (ofMatrix B) = .ok (ofMatrix (Z.transpose * B)) := by
  have h1 : Optimization.checkSparse (ofMatrix Z) = .ok () := by simp [Optimization.checkSparse, NDArray.ndim, ofMatrix_shape]
  have hv : ∀ {a b : Nat} (M : Matrix (Fin a) (Fin b) ℝ), Spec.ActsAs (Optimization.sparseTimes (ofMatrix M)) M := by
    intro a b M v
    have : ¬ (vecOf v).atleast1d.ndim > 2 := by simp [NDArray.ndim, vecOf, vec, NDArray.atleast1d]
    simp only [Optimization.sparseTimes, if_neg this]
    exact matmul_vec M v
  have hM : ∀ {a b k : Nat} (M : Matrix (Fin a) (Fin b) ℝ) (B : Matrix (Fin b) (Fin k) ℝ),
      Optimization.sparseTimes (ofMatrix M) (ofMatrix B) = .ok (ofMatrix (M * B)) := by
    intro a b k M B
    have : ¬ (ofMatrix B).atleast1d.ndim > 2 := by simp [NDArray.ndim, ofMatrix, NDArray.atleast1d]
    simp only [Optimization.sparseTimes, if_neg this]
    exact matmul_mat M B
  refine ⟨fun | .fwd => Optimization.sparseTimes (ofMatrix Z) | .tr => Optimization.sparseTimes (ofMatrix Z.transpose), ?_, hv _, hv _, hM _, hM _⟩
  simp only [getSparseProduct, h1, transpose_mat, bind, Except.bind, pure, Except.pure]
  rfl

/-- **C61, errors.** Anything but a matrix raises `ValueError` on construction. -/
theorem C61_errors (z : NDArray ℝ) (hz : z.ndim ≠ 2) : ∃ msg, getSparseProduct z = .error (.valueError msg) := by
  simp only [getSparseProduct, Optimization.checkSparse, if_pos hz, bind, Except.bind]
  exact ⟨_, rfl⟩

/-- **C61, errors of the products.** A scalar counts as a vector of length one; a vector or matrix whose length is not the number of
columns (of rows, for the transpose) and an argument with three or more axes raise `ValueError`. -/
theorem C61_product_errors {n m : Nat} (Z : Matrix (Fin n) (Fin m) ℝ) : ∃ f, getSparseProduct (ofMatrix Z) = .ok f ∧
    (∀ q (c : ℝ), f q ⟨[], [c]⟩ = f q (vec [c])) ∧
    (∀ q (b : NDArray ℝ), 3 ≤ b.ndim → ∃ msg, f q b = .error (.valueError msg)) ∧
    (∀ k s (d : List ℝ), s.length ≤ 1 → k ≠ m → ∃ msg, f .fwd ⟨k :: s, d⟩ = .error (.valueError msg)) ∧
    ∀ k s (d : List ℝ), s.length ≤ 1 → k ≠ n → ∃ msg, f .tr ⟨k :: s, d⟩ = .error (.valueError msg) := by
  have h1 : Optimization.checkSparse (ofMatrix Z) = .ok () := by simp [Optimization.checkSparse, NDArray.ndim, ofMatrix_shape]
  have key : ∀ {a b : Nat} (M : Matrix (Fin a) (Fin b) ℝ) k s (d : List ℝ), s.length ≤ 1 → k ≠ b →
      ∃ msg, Optimization.sparseTimes (ofMatrix M) ⟨k :: s, d⟩ = .error (.valueError msg) := by
    intro a b M k s d hs hk
    match s, hs with
    | [], _ => simp [Optimization.sparseTimes, NDArray.atleast1d, NDArray.ndim, matmul, ofMatrix_shape, Ne.symm hk, shapeErr]
    | [l], _ => simp [Optimization.sparseTimes, NDArray.atleast1d, NDArray.ndim, matmul, ofMatrix_shape, Ne.symm hk, shapeErr]
  have h3 : ∀ (z b : NDArray ℝ), 3 ≤ b.ndim → ∃ msg, Optimization.sparseTimes z b = .error (.valueError msg) := by
    intro z b hb
    have : b.atleast1d = b := atleast1d_of_ne (by intro h; simp [NDArray.ndim, h] at hb)
    simp only [Optimization.sparseTimes, this, if_pos (show b.ndim > 2 by omega)]
    exact ⟨_, rfl⟩
  refine ⟨fun | .fwd => Optimization.sparseTimes (ofMatrix Z) | .tr => Optimization.sparseTimes (ofMatrix Z.transpose), ?_, ?_, ?_, key _, key _⟩
  · simp only [getSparseProduct, h1, transpose_mat, bind, Except.bind, pure, Except.pure]
    rfl
  · rintro (_ | _) c <;> rfl
  · rintro (_ | _) b hb
    · exact h3 _ b hb
    · exact h3 _ b hb

/-- **C61, solvers.** The two functions are the given ones. -/
theorem C61_solver (s st : Optimization.Op) (b : NDArray ℝ) : getDifferentiableSolver s st .fwd b = s b ∧ getDifferentiableSolver s st .tr b = st b :=
  ⟨rfl, rfl⟩

/-- **C61, forward mode.** If the two functions multiply by a matrix and its transpose, then the forward rule of each is its derivative
along every curve. -/
theorem C61_forward {n m : Nat} {A : Matrix (Fin m) (Fin n) ℝ} {f : Prim → Optimization.Op} (h : Spec.ActsAs (f .fwd) A) (ht : Spec.ActsAs (f .tr) A.transpose)
    {τ : ℝ} :
    (∀ (b : ℝ → Fin n → ℝ) (b' : Fin n → ℝ), Spec.VelocityVec b b' τ → ∃ (y : ℝ → Fin m → ℝ) (y' : Fin m → ℝ),
      (∀ s, f .fwd (vecOf (b s)) = .ok (vecOf (y s))) ∧ f (jvpPrim .fwd) (vecOf b') = .ok (vecOf y') ∧ Spec.VelocityVec y y' τ) ∧
    ∀ (b : ℝ → Fin m → ℝ) (b' : Fin m → ℝ), Spec.VelocityVec b b' τ → ∃ (y : ℝ → Fin n → ℝ) (y' : Fin n → ℝ),
      (∀ s, f .tr (vecOf (b s)) = .ok (vecOf (y s))) ∧ f (jvpPrim .tr) (vecOf b') = .ok (vecOf y') ∧ Spec.VelocityVec y y' τ :=
  ⟨fun b b' hb => ⟨_, _, fun s => h (b s), h b', velocity_mulVec _ hb⟩,
    fun b b' hb => ⟨_, _, fun s => ht (b s), ht b', velocity_mulVec _ hb⟩⟩

/-- **C61, reverse mode.** The reverse rule of each function is the adjoint of its forward rule. -/
theorem C61_reverse {n m : Nat} {A : Matrix (Fin m) (Fin n) ℝ} {f : Prim → Optimization.Op} (h : Spec.ActsAs (f .fwd) A) (ht : Spec.ActsAs (f .tr) A.transpose)
    (v : Fin n → ℝ) (w : Fin m → ℝ) :
    (∃ (y : Fin m → ℝ) (z : Fin n → ℝ), f (jvpPrim .fwd) (vecOf v) = .ok (vecOf y) ∧ f (vjpPrim .fwd) (vecOf w) = .ok (vecOf z) ∧
      dotProduct w y = dotProduct z v) ∧
    ∃ (y : Fin n → ℝ) (z : Fin m → ℝ), f (jvpPrim .tr) (vecOf w) = .ok (vecOf y) ∧ f (vjpPrim .tr) (vecOf v) = .ok (vecOf z) ∧
      dotProduct v y = dotProduct z w := by
  refine ⟨⟨_, _, h v, ht w, ?_⟩, _, _, ht w, h v, ?_⟩
  · rw [Matrix.dotProduct_mulVec, Matrix.mulVec_transpose]
  · rw [Matrix.dotProduct_mulVec, Matrix.vecMul_transpose]

/-- **C61, solvers of a matrix.** Solvers for `z` and `z.T` satisfy the assumptions of `C61_forward` and `C61_reverse`. -/
theorem C61_solver_matrix {n : Nat} {Z : Matrix (Fin n) (Fin n) ℝ} (hZ : Z.det ≠ 0) {s st : Optimization.Op}
    (h : ∀ b : Fin n → ℝ, ∃ y, s (vecOf b) = .ok (vecOf y) ∧ Z.mulVec y = b) (ht : ∀ b : Fin n → ℝ, ∃ y, st (vecOf b) = .ok (vecOf y) ∧ Z.transpose.mulVec y = b) :
    Spec.ActsAs (getDifferentiableSolver s st .fwd) Z⁻¹ ∧ Spec.ActsAs (getDifferentiableSolver s st .tr) Z⁻¹.transpose := by
  have hu : IsUnit Z.det := isUnit_iff_ne_zero.mpr hZ
  constructor
  · intro b
    obtain ⟨y, h1, h2⟩ := h b
    rw [← h2, Matrix.mulVec_mulVec, Matrix.nonsing_inv_mul Z hu, Matrix.one_mulVec, h2]
    exact h1
  · intro b
    obtain ⟨y, h1, h2⟩ := ht b
    rw [← h2, Matrix.mulVec_mulVec, ← Matrix.transpose_mul, Matrix.mul_nonsing_inv Z hu, Matrix.transpose_one, Matrix.one_mulVec, h2]
    exact h1

/-- **C61, all orders.** However often and in whichever modes one differentiates, the result multiplies by the matrix or its transpose,
depending on whether the number of reverse modes is even or odd. -/
theorem C61_all_orders {n m : Nat} {A : Matrix (Fin m) (Fin n) ℝ} {f : Prim → Optimization.Op} (h : Spec.ActsAs (f .fwd) A) (ht : Spec.ActsAs (f .tr) A.transpose)
    (l : List Mode) :
    (Even (l.countP fun | .reverse => true | .forward => false) → Spec.ActsAs (f (diffPrim l .fwd)) A ∧ Spec.ActsAs (f (diffPrim l .tr)) A.transpose) ∧
      (Odd (l.countP fun | .reverse => true | .forward => false) → Spec.ActsAs (f (diffPrim l .fwd)) A.transpose ∧ Spec.ActsAs (f (diffPrim l .tr)) A) := by
  induction l with
  | nil => exact ⟨fun _ => ⟨h, ht⟩, fun h => by simp at h⟩
  | cons a l ih =>
    cases a with
    | forward => simpa [diffPrim, jvpPrim, List.countP_cons] using ih
    | reverse =>
      simp only [diffPrim, vjpPrim, List.countP_cons, if_true]
      rw [Nat.even_add_one, Nat.odd_add_one, Nat.not_even_iff_odd, Nat.not_odd_iff_even]
      exact ⟨fun h => (ih.2 h).symm, fun h => (ih.1 h).symm⟩

/-- Non-vacuity: a matrix with two rows and three columns; reverse mode twice multiplies by the matrix again. -/
example : ∃ f, getSparseProduct (ofMatrix (n := 2) (m := 3) !![1, 0, 2; 0, 3, 0]) = .ok f ∧ f (diffPrim [.reverse, .forward, .reverse] .fwd) (vecOf ![1, 1, 1]) = .ok (vecOf ![3, 3]) ∧
    f (diffPrim [.reverse] .fwd) (vecOf ![1, 1]) = .ok (vecOf ![1, 3, 2]) := by
  obtain ⟨f, h1, h2, h3, -⟩ := C61_product (n := 2) (m := 3) !![1, 0, 2; 0, 3, 0]
  refine ⟨f, h1, (((C61_all_orders h2 h3 [.reverse, .forward, .reverse]).1 (by decide)).1 _).trans ?_,
    (((C61_all_orders h2 h3 [.reverse]).2 (by decide)).1 _).trans ?_⟩
  · congr 2
    ext i
    fin_cases i <;> norm_num [Matrix.mulVec, dotProduct, Fin.sum_univ_succ]
  · congr 2
    ext i
    fin_cases i <;> norm_num [Matrix.mulVec, dotProduct, Fin.sum_univ_two]

end Paragami
