import Verif.Props.PSDFactor

/-! # C128: which free coordinates the entries of a matrix depend on -/

set_option linter.unusedSimpArgs false

namespace Paragami
open NDArray Pattern

namespace Spec

/-- Changing the free coordinate `c` alone can change the entry `(i, j)` of the folded matrix. -/
def Influences (p : Pattern) {n : Nat} (c : Nat) (i j : Fin n) : Prop :=
  ∃ (r r' : List ℝ) (M M' : Matrix (Fin n) (Fin n) ℝ), (∀ d, d ≠ c → r[d]? = r'[d]?) ∧
    p.fold (vec (r.map .fin)) (some true) = .ok (.arr ⟨[n, n], matData M⟩) ∧
    p.fold (vec (r'.map .fin)) (some true) = .ok (.arr ⟨[n, n], matData M'⟩) ∧ M i j ≠ M' i j

/-- The mask with the given entries. -/
def mask {n : Nat} (B : Fin n → Fin n → Bool) : Val Bool := .arr ⟨[n, n], (List.ofFn fun i => List.ofFn fun j => B i j).flatten⟩

end Spec

namespace PSDIndices

theorem fold_eq {n : Nat} {lb : PyNum} {dv fd} {l : ℝ} (hl : lb.toFlt = .fin l) {r : List ℝ} {v : Val Flt} :
    (Pattern.psd n lb dv fd).fold (vec (r.map .fin)) (some true) = .ok v ↔
      r.length = tri n ∧ v = .arr ⟨[n, n], Spec.matData (Matrix.of fun (i j : Fin n) => freeMat n l r i j)⟩ := by
  rw [fold_true]
  simp only [foldFree, bind, Except.bind]
  have e : ofFn2 n n (fun i j => Flt.fin (freeMat n l r i j)) =
      ⟨[n, n], Spec.matData (Matrix.of fun (i j : Fin n) => freeMat n l r i j)⟩ := matData_of n n _
  constructor
  · intro h
    split at h
    · cases h
    · next a ha =>
      obtain ⟨-, h1, h2⟩ := PSD.foldFree_ok.mp ha
      have h1 : r.length = tri n := by simpa using h1
      rw [atleast1d_of_ne (by simp [vec]), hl, unpackPosdef_fin h1, Except.ok.injEq] at h2
      refine ⟨h1, ?_⟩
      rw [← e, h2]
      exact (Except.ok.inj h).symm
  · rintro ⟨h1, rfl⟩
    rw [PSD.foldFree_ok.mpr ⟨by simp, by simpa using h1, by rw [atleast1d_of_ne (by simp [vec]), hl, unpackPosdef_fin h1]⟩, e]
    rfl

theorem influences_iff {n : Nat} {lb : PyNum} {dv fd} {l : ℝ} (hl : lb.toFlt = .fin l) {c : Nat} {i j : Fin n} :
    Spec.Influences (.psd n lb dv fd) c i j ↔
      ∃ r r' : List ℝ, r.length = tri n ∧ r'.length = tri n ∧ (∀ d, d ≠ c → r[d]? = r'[d]?) ∧ freeMat n l r i j ≠ freeMat n l r' i j := by
  constructor
  · rintro ⟨r, r', M, M', h1, h2, h3, h4⟩
    obtain ⟨a1, a2⟩ := (fold_eq hl).mp h2
    obtain ⟨b1, b2⟩ := (fold_eq hl).mp h3
    simp only [Val.arr.injEq, NDArray.mk.injEq, true_and] at a2 b2
    rw [matData_inj a2, matData_inj b2] at h4
    exact ⟨r, r', a1, b1, h1, h4⟩
  · rintro ⟨r, r', h1, h2, h3, h4⟩
    exact ⟨r, r', _, _, h3, (fold_eq hl).mpr ⟨h1, rfl⟩, (fold_eq hl).mpr ⟨h2, rfl⟩, h4⟩

theorem symIndex_le {i k : Nat} (h : k ≤ i) : symIndex i k = i * (i + 1) / 2 + k := by
  simp [symIndex, h, Nat.add_comm]

theorem factor_congr {r r' : List ℝ} {c i k : Nat} (h : ∀ d, d ≠ c → r[d]? = r'[d]?) (hc : k ≤ i → c ≠ symIndex i k) :
    freeFactor r i k = freeFactor r' i k := by
  unfold freeFactor
  rcases lt_trichotomy k i with hk | rfl | hk
  · rw [if_pos hk, if_pos hk, List.getD, List.getD, h _ (hc hk.le).symm]
  · rw [if_neg (lt_irrefl _), if_neg (lt_irrefl _), if_pos rfl, if_pos rfl, List.getD, List.getD, h _ (hc le_rfl).symm]
  · rw [if_neg (by omega), if_neg (by omega), if_neg (by omega), if_neg (by omega)]

theorem factor_upper (r : List ℝ) {i k : Nat} (h : i < k) : freeFactor r i k = 0 := by
  unfold freeFactor
  rw [if_neg (by omega), if_neg (by omega)]

theorem factor_pos {r : List ℝ} {i k : Nat} (h : k ≤ i) (hr : 0 < r.getD (symIndex i k) 0) : 0 < freeFactor r i k := by
  unfold freeFactor
  rcases lt_or_eq_of_le h with hk | rfl
  · rw [if_pos hk]
    exact hr
  · rw [if_neg (lt_irrefl _), if_pos rfl]
    exact Real.exp_pos _

theorem factor_lt {r r' : List ℝ} {i k : Nat} (h : k ≤ i) (hr : r.getD (symIndex i k) 0 < r'.getD (symIndex i k) 0) :
    freeFactor r i k < freeFactor r' i k := by
  unfold freeFactor
  rcases lt_or_eq_of_le h with hk | rfl
  · rw [if_pos hk, if_pos hk]
    exact hr
  · rw [if_neg (lt_irrefl _), if_neg (lt_irrefl _), if_pos rfl, if_pos rfl]
    exact Real.exp_lt_exp.mpr hr

theorem dependence {n : Nat} {l : ℝ} {c : Nat} {i j : Nat} (hi : i < n) (hj : j < n) :
    (∃ r r' : List ℝ, r.length = tri n ∧ r'.length = tri n ∧ (∀ d, d ≠ c → r[d]? = r'[d]?) ∧ freeMat n l r i j ≠ freeMat n l r' i j) ↔
      ∃ k, k ≤ i ∧ k ≤ j ∧ (c = symIndex i k ∨ c = symIndex j k) := by
  constructor
  · rintro ⟨r, r', h1, h2, h3, h4⟩
    by_contra hn
    apply h4
    unfold freeMat
    congr 1
    apply Finset.sum_congr rfl
    intro k _
    rcases Nat.lt_or_ge i k with hk | hk
    · rw [factor_upper _ hk, factor_upper _ hk, zero_mul, zero_mul]
    · rcases Nat.lt_or_ge j k with hk' | hk'
      · rw [factor_upper _ hk', factor_upper _ hk', mul_zero, mul_zero]
      · rw [factor_congr h3 fun _ hc => hn ⟨k, hk, hk', Or.inl hc⟩, factor_congr h3 fun _ hc => hn ⟨k, hk, hk', Or.inr hc⟩]
  · rintro ⟨k, hki, hkj, hc⟩
    have hct : c < tri n := by
      rcases hc with rfl | rfl
      · exact symIndex_lt hi hki
      · exact symIndex_lt hj hkj
    have hone : ∀ a m, a < n → m ≤ a → (List.replicate (tri n) (1 : ℝ)).getD (symIndex a m) 0 = 1 := by
      intro a m ha hm
      simp [List.getD, List.getElem?_replicate, symIndex_lt ha hm]
    have htwo : ∀ a m, a < n → m ≤ a → ((List.replicate (tri n) (1 : ℝ)).set c 2).getD (symIndex a m) 0 =
        if c = symIndex a m then 2 else 1 := by
      intro a m ha hm
      simp [List.getD, List.getElem?_set, List.getElem?_replicate, symIndex_lt ha hm]
      rw [List.getElem_set]
      split <;> simp
    have hpos : ∀ a m, a < n → m ≤ a → 0 < freeFactor (List.replicate (tri n) (1 : ℝ)) a m := fun a m ha hm =>
      factor_pos hm (by rw [hone a m ha hm]; norm_num)
    have hle : ∀ a m, a < n → m < n → 0 ≤ freeFactor (List.replicate (tri n) (1 : ℝ)) a m ∧
        freeFactor (List.replicate (tri n) (1 : ℝ)) a m ≤ freeFactor ((List.replicate (tri n) (1 : ℝ)).set c 2) a m := by
      intro a m ha hmn
      rcases Nat.lt_or_ge a m with hm | hm
      · rw [factor_upper _ hm, factor_upper _ hm]
        exact ⟨le_rfl, le_rfl⟩
      · refine ⟨(hpos a m ha hm).le, ?_⟩
        by_cases hcs : c = symIndex a m
        · exact (factor_lt hm (by rw [hone a m ha hm, htwo a m ha hm, if_pos hcs]; norm_num)).le
        · refine le_of_eq (factor_congr (c := c) (fun d hd => ?_) fun _ => hcs)
          rw [List.getElem?_set_ne (Ne.symm hd)]
    refine ⟨List.replicate (tri n) 1, (List.replicate (tri n) (1 : ℝ)).set c 2, by simp, by simp, fun d hd => ?_, ?_⟩
    · rw [List.getElem?_set_ne (Ne.symm hd)]
    · apply ne_of_lt
      unfold freeMat
      apply add_lt_add_left
      have hkn : k < n := by omega
      apply Finset.sum_lt_sum
      · intro m hm
        have hm := Finset.mem_range.mp hm
        obtain ⟨a1, a2⟩ := hle i m hi hm
        obtain ⟨b1, b2⟩ := hle j m hj hm
        exact mul_le_mul a2 b2 b1 (a1.trans a2)
      · refine ⟨k, Finset.mem_range.mpr hkn, ?_⟩
        obtain ⟨a1, a2⟩ := hle i k hi hkn
        obtain ⟨b1, b2⟩ := hle j k hj hkn
        have p1 := hpos i k hi hki
        have p2 := hpos j k hj hkj
        rcases hc with hc | hc
        · have := factor_lt (r := List.replicate (tri n) (1 : ℝ)) (r' := (List.replicate (tri n) (1 : ℝ)).set c 2) hki
            (by rw [hone i k hi hki, htwo i k hi hki, if_pos hc]; norm_num)
          exact mul_lt_mul this b2 p2 (p1.le.trans a2)
        · have := factor_lt (r := List.replicate (tri n) (1 : ℝ)) (r' := (List.replicate (tri n) (1 : ℝ)).set c 2) hkj
            (by rw [hone j k hj hkj, htwo j k hj hkj, if_pos hc]; norm_num)
          exact mul_lt_mul' a2 this p2.le (p1.trans_le a2)

end PSDIndices

open PSDIndices

/-- **C128, single entries.** An entry of the folded matrix depends on exactly the free coordinates that stand in its row and in its column's row of
the lower triangle, up to the diagonal of the smaller one: `i (i + 1) / 2 + k` and `j (j + 1) / 2 + k` for `k <= min(i, j)`. -/
theorem C128_entry {n : Nat} {lb : PyNum} {dv fd} {l : ℝ} (hl : lb.toFlt = .fin l) (i j : Fin n) (c : Nat) :
    Spec.Influences (.psd n lb dv fd) c i j ↔
      ∃ k : Nat, k ≤ i ∧ k ≤ j ∧ (c = (i : Nat) * (i + 1) / 2 + k ∨ c = (j : Nat) * (j + 1) / 2 + k) := by
  rw [influences_iff hl, dependence i.2 j.2]
  constructor
  · rintro ⟨k, h1, h2, h3⟩
    rw [symIndex_le h1, symIndex_le h2] at h3
    exact ⟨k, h1, h2, h3⟩
  · rintro ⟨k, h1, h2, h3⟩
    refine ⟨k, h1, h2, ?_⟩
    rwa [symIndex_le h1, symIndex_le h2]

/-- **C128, masks.** For every mask with a marked entry `flat_indices(mask, free=True)` lists all free coordinates.  Each of them influences a marked
entry exactly if for every `a` there is a marked entry `(i, j)` with `min(i, j) = a`. -/
theorem C128_mask {n : Nat} {lb : PyNum} {dv fd} {l : ℝ} (hl : lb.toFlt = .fin l) {B : Fin n → Fin n → Bool} (hB : ∃ i j, B i j = true) :
    (Pattern.psd n lb dv fd).flatIndices (Spec.mask B) (some true) = .ok (List.range (n * (n + 1) / 2)) ∧
    ((∀ c ∈ List.range (n * (n + 1) / 2), ∃ i j, B i j = true ∧ Spec.Influences (.psd n lb dv fd) c i j) ↔
      ∀ a : Fin n, ∃ i j, B i j = true ∧ min i j = a) := by
  constructor
  · have hany : ((List.ofFn fun i => List.ofFn fun j => B i j).flatten).any id = true := by
      obtain ⟨i, j, h⟩ := hB
      rw [List.any_eq_true]
      refine ⟨true, ?_, rfl⟩
      rw [List.mem_flatten]
      exact ⟨List.ofFn fun j => B i j, by simp, by simp only [List.mem_ofFn]; exact ⟨j, h⟩⟩
    simp [Pattern.flatIndices, Spec.mask, Val.asArr, PSD.flatIndices, flatIdx, hany, bind, Except.bind, PSD.validateShape, freeWithDefault]
  · constructor
    · intro h a
      have hlt := symIndex_lt a.2 (le_refl (a : Nat))
      obtain ⟨i, j, hb, hinf⟩ := h (symIndex a a) (List.mem_range.mpr hlt)
      rw [influences_iff hl, dependence i.2 j.2] at hinf
      obtain ⟨k, h1, h2, h3⟩ := hinf
      refine ⟨i, j, hb, ?_⟩
      have inj : ∀ {x y u v : Nat}, v ≤ u → y ≤ x → symIndex x y = symIndex u v → x = u ∧ y = v := by
        intro x y u v hv hy hxy
        rw [symIndex_le hv, symIndex_le hy] at hxy
        have e1 := tri_succ x
        have e2 := tri_succ u
        change tri x + y = tri u + v at hxy
        have mono : ∀ {s t : Nat}, s ≤ t → tri s ≤ tri t := fun h => Nat.div_le_div_right (Nat.mul_le_mul h (Nat.succ_le_succ h))
        have : x = u := by
          rcases Nat.lt_trichotomy x u with h | h | h
          · have := mono (Nat.succ_le_of_lt h)
            simp only [Nat.succ_eq_add_one] at this
            omega
          · exact h
          · have := mono (Nat.succ_le_of_lt h)
            simp only [Nat.succ_eq_add_one] at this
            omega
        subst this
        exact ⟨rfl, by omega⟩
      rcases h3 with h3 | h3
      · obtain ⟨e1, e2⟩ := inj h1 le_rfl h3
        have : a = i := Fin.ext e1
        subst this
        exact min_eq_left (Fin.le_def.mpr (by omega))
      · obtain ⟨e1, e2⟩ := inj h2 le_rfl h3
        have : a = j := Fin.ext e1
        subst this
        exact min_eq_right (Fin.le_def.mpr (by omega))
    · intro h c hc
      have hc := List.mem_range.mp hc
      obtain ⟨⟨a, k⟩, hak, rfl⟩ : ∃ ij ∈ trilIndices n, symIndex ij.1 ij.2 = c := by
        have : c ∈ (trilIndices n).map fun ij => symIndex ij.1 ij.2 := by
          rw [map_symIndex_trilIndices]
          exact List.mem_range.mpr hc
        simpa using this
      obtain ⟨han, hka⟩ := mem_trilIndices.mp hak
      simp only at han hka
      obtain ⟨i, j, hb, hm⟩ := h ⟨a, han⟩
      refine ⟨i, j, hb, ?_⟩
      rw [influences_iff hl, dependence i.2 j.2]
      rcases le_total i j with hij | hij
      · rw [min_eq_left hij] at hm
        subst hm
        exact ⟨k, hka, hka.trans (Fin.le_def.mp hij), Or.inl rfl⟩
      · rw [min_eq_right hij] at hm
        subst hm
        exact ⟨k, hka.trans (Fin.le_def.mp hij), hka, Or.inr rfl⟩

/-- Non-vacuity: in a 2 × 2 matrix the first entry depends on the first free coordinate only, although `flat_indices` lists all three. -/
example : (Pattern.psd 2 (.int 0) true none).flatIndices (Spec.mask fun (i j : Fin 2) => i == 0 && j == 0) (some true) = .ok [0, 1, 2] ∧
    ∀ c, Spec.Influences (.psd 2 (.int 0) true none) c (0 : Fin 2) (0 : Fin 2) ↔ c = 0 := by
  have hl : (PyNum.int 0).toFlt = .fin 0 := by simp [PyNum.toFlt]
  refine ⟨(C128_mask hl ⟨0, 0, rfl⟩).1, fun c => ?_⟩
  rw [C128_entry hl]
  simp

end Paragami
