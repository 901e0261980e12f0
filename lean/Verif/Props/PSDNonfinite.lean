import Verif.Props.PSD

/-! # C127: matrix patterns whose bound on the diagonal is infinite or NaN -/

set_option linter.unusedSimpArgs false

namespace Paragami
open NDArray Pattern

namespace Spec

/-- The row-major entries of a matrix of floats. -/
def fltData {n m : Nat} (M : Matrix (Fin n) (Fin m) Flt) : List Flt := (List.ofFn fun i => List.ofFn fun j => M i j).flatten

/-- A real matrix with all diagonal entries replaced. -/
def setDiag {n : Nat} (d : Flt) (M : Matrix (Fin n) (Fin n) ℝ) : Matrix (Fin n) (Fin n) Flt :=
  fun i j => if i = j then d else .fin (M i j)

end Spec

namespace PSDNonfinite

/-- A matrix of floats as a function of natural numbers. -/
def nat {n m : Nat} (M : Matrix (Fin n) (Fin m) Flt) (i j : Nat) : Flt := if h : i < n ∧ j < m then M ⟨i, h.1⟩ ⟨j, h.2⟩ else .nan

theorem fltData_eq {n m : Nat} (M : Matrix (Fin n) (Fin m) Flt) :
    (⟨[n, m], Spec.fltData M⟩ : NDArray Flt) = ofFn2 n m (nat M) := by
  simp only [Spec.fltData, ofFn2, NDArray.mk.injEq, true_and]
  rw [flatMap_range_eq_ofFn]
  congr 2
  funext i
  rw [map_range_eq_ofFn]
  congr 1
  funext j
  simp [nat]

theorem acc_fltData {n : Nat} {lb : PyNum} {dv fd} {vv : Option Bool} {M : Matrix (Fin n) (Fin n) Flt} :
    (Pattern.psd n lb dv fd).validate (.arr (⟨[n, n], Spec.fltData M⟩ : NDArray Flt)) vv = .ok (true, "") ↔
      (vv.getD dv = true → (∀ i, (M i i).lt lb.toFlt = false) ∧ ∀ i j, (M j i).eq (M i j) = true) := by
  simp only [validate, Val.asArr, bind, Except.bind, psd_validate_true, true_and]
  have e : (⟨[n, n], Spec.fltData M⟩ : NDArray Flt).data.map (Elem.toFlt : Flt → Flt) = (ofFn2 n n (nat M)).data := by
    rw [fltData_eq]; show List.map id _ = _; simp
  constructor
  · intro h hv
    obtain ⟨h1, h2⟩ := h hv
    rw [e] at h1 h2
    refine ⟨fun i => ?_, fun i j => ?_⟩
    · have := h1 i i.2
      rwa [entry_ofFn2 n n _ i.2 i.2, nat, dif_pos ⟨i.2, i.2⟩] at this
    · have := h2 i i.2 j j.2
      rwa [entry_ofFn2 n n _ i.2 j.2, entry_ofFn2 n n _ j.2 i.2, nat, nat, dif_pos ⟨j.2, i.2⟩, dif_pos ⟨i.2, j.2⟩] at this
  · intro h hv
    obtain ⟨h1, h2⟩ := h hv
    rw [e]
    refine ⟨fun i hi => ?_, fun i hi j hj => ?_⟩
    · rw [entry_ofFn2 n n _ hi hi, nat, dif_pos ⟨hi, hi⟩]
      exact h1 _
    · rw [entry_ofFn2 n n _ hi hj, entry_ofFn2 n n _ hj hi, nat, nat, dif_pos ⟨hj, hi⟩, dif_pos ⟨hi, hj⟩]
      exact h2 _ _

theorem eq_iff {x y : Flt} : x.eq y = true ↔ x = y ∧ x ≠ .nan := by
  cases x <;> cases y <;> simp [Flt.eq]

/-- Folding with any bound whose sum with finite numbers is itself. -/
theorem fold_absorbing {n : Nat} {b : Flt} (hb : ∀ x, Flt.fin x + b = b) {r : List ℝ} (h : r.length = tri n) :
    unpackPosdef b (vec (r.map .fin)) = .ok (ofFn2 n n fun i j => if i = j then b else .fin (freeMat n 0 r i j)) := by
  have hm : matSize (vec (r.map Flt.fin)).size = n := by simp [h, matSize_tri]
  unfold unpackPosdef
  rw [unvectorizeLd_vec (n := n) (by simp [h])]
  simp only [bind, Except.bind, pure, Except.pure, hm, expDiag_unvec h, Except.ok.injEq]
  apply ofFn2_congr
  intro i hi j hj
  rw [entry_ofFn2 n n _ hi hj]
  have : (List.range n).map (fun k => entry n (ofFn2 n n fun i j => Flt.fin (freeFactor r i j)).data i k *
      entry n (ofFn2 n n fun i j => Flt.fin (freeFactor r i j)).data j k) =
      ((List.range n).map fun k => freeFactor r i k * freeFactor r j k).map .fin := by
    rw [List.map_map]
    apply List.map_congr_left
    intro k hk
    have hk := List.mem_range.mp hk
    rw [entry_ofFn2 n n _ hi hk, entry_ofFn2 n n _ hj hk]; rfl
  rw [this, Flt.sum_fin, sum_map_range]
  unfold freeMat
  split
  · exact hb _
  · simp

theorem absorbing {b : Flt} (h : b = .pinf ∨ b = .nan) (x : ℝ) : Flt.fin x + b = b := by
  rcases h with rfl | rfl <;> rfl

theorem off_diag {n : Nat} {r r' : List ℝ} (h : r.length = tri n) (h' : r'.length = tri n)
    (hs : ∀ k, k + 1 < tri n → r.getD k 0 = r'.getD k 0) {i j : Nat} (hi : i < n) (hj : j < n) (hij : i ≠ j) :
    freeMat n 0 r i j = freeMat n 0 r' i j := by
  have key : ∀ i j, i < n → ¬(i + 1 = n ∧ j = i) → freeFactor r i j = freeFactor r' i j := by
    intro i j hi hne
    have hlt : ∀ j ≤ i, ¬(i + 1 = n ∧ j = i) → symIndex i j + 1 < tri n := by
      intro j hji hne
      have := tri_succ i
      by_cases hin : i + 1 = n
      · subst hin
        have : j < i := by omega
        rw [symIndex, if_pos hji]
        change j + tri i + 1 < _
        omega
      · have h1 := symIndex_lt (n := i + 1) (Nat.lt_succ_self i) hji
        have h2 := symIndex_lt (n := n) (i := i + 1) (j := 0) (by omega) (by omega)
        simp only [symIndex, Nat.zero_le, if_true] at h2
        have h3 : tri (i + 1) ≤ 0 + (i + 1) * (i + 1 + 1) / 2 := by simp [tri]
        omega
    unfold freeFactor
    rcases lt_trichotomy j i with hji | rfl | hji
    · rw [if_pos hji, if_pos hji, hs _ (hlt j hji.le hne)]
    · rw [if_neg (lt_irrefl _), if_neg (lt_irrefl _), if_pos rfl, if_pos rfl, hs _ (hlt j le_rfl hne)]
    · rw [if_neg (by omega), if_neg (by omega), if_neg (by omega), if_neg (by omega)]
  have zero : ∀ (r : List ℝ) i j, i < j → freeFactor r i j = 0 := by
    intro r i j hij
    unfold freeFactor
    rw [if_neg (by omega), if_neg (by omega)]
  unfold freeMat
  congr 1
  apply Finset.sum_congr rfl
  intro k hk
  have hk := Finset.mem_range.mp hk
  by_cases hkn : k + 1 = n
  · rcases Nat.lt_or_ge i k with h1 | h1
    · simp [zero _ _ _ h1]
    · have : j < k := by omega
      simp [zero _ _ _ this]
  · rw [key i k hi (by omega), key j k hj (by omega)]

end PSDNonfinite

open PSDNonfinite

/-- **C127.** The constructor accepts an infinite bound and NaN, for every size. -/
theorem C127_constructor (n : Nat) (dv : Bool) (fd : Option Bool) {b : Flt} (hb : b = .pinf ∨ b = .nan) :
    mkPSD n (.flt b) dv fd = .ok (.psd n (.flt b) dv fd) ∧ Built (.psd n (.flt b) dv fd) := by
  rcases hb with rfl | rfl
  · exact ⟨by simp [mkPSD, PyNum.toFlt, Flt.lt], WF.built _ (by simp [Pattern.WF, PyNum.toFlt, Flt.lt])⟩
  · exact ⟨by simp [mkPSD, PyNum.toFlt, Flt.lt], WF.built _ (by simp [Pattern.WF, PyNum.toFlt, Flt.lt])⟩

/-- **C127, validation.** With the bound infinity a validating pattern accepts exactly the symmetric matrices without NaN whose diagonal is
infinite; with the bound NaN it accepts all symmetric matrices without NaN, whatever the diagonal. -/
theorem C127_validate {n : Nat} (dv : Bool) (fd : Option Bool) {vv : Option Bool} (hv : vv.getD dv = true) (M : Matrix (Fin n) (Fin n) Flt) :
    ((Pattern.psd n (.flt .pinf) dv fd).validate (.arr ⟨[n, n], Spec.fltData M⟩) vv = .ok (true, "") ↔
      (∀ i j, M i j = M j i ∧ M i j ≠ .nan) ∧ ∀ i, M i i = .pinf) ∧
    ((Pattern.psd n (.flt .nan) dv fd).validate (.arr ⟨[n, n], Spec.fltData M⟩) vv = .ok (true, "") ↔
      ∀ i j, M i j = M j i ∧ M i j ≠ .nan) := by
  have hs : (∀ i j, (M j i).eq (M i j) = true) ↔ ∀ i j, M i j = M j i ∧ M i j ≠ .nan := by
    simp only [eq_iff]
    exact ⟨fun h i j => h j i, fun h i j => h j i⟩
  constructor
  · refine (acc_fltData (lb := .flt .pinf) (fd := fd)).trans ?_
    rw [hs]
    constructor
    · intro h
      obtain ⟨h1, h2⟩ := h hv
      refine ⟨h2, fun i => ?_⟩
      have a := h1 i
      have b := (h2 i i).2
      revert a b
      cases M i i <;> simp [PyNum.toFlt, Flt.lt]
    · rintro ⟨h1, h2⟩ -
      refine ⟨fun i => ?_, h1⟩
      rw [h2 i]
      rfl
  · refine (acc_fltData (lb := .flt .nan) (fd := fd)).trans ?_
    rw [hs]
    constructor
    · exact fun h => (h hv).2
    · refine fun h _ => ⟨fun i => ?_, h⟩
      cases M i i <;> rfl

/-- **C127, folding.** Folding a free vector returns the matrix of the pattern with bound zero with its diagonal replaced by the bound.
A validating pattern accepts it if the bound is infinite, and rejects it if the bound is NaN (unless there are no entries). -/
theorem C127_fold {n : Nat} (dv dv' : Bool) (fd fd' : Option Bool) {r : List ℝ} (hr : r.length = n * (n + 1) / 2) (vv vv' : Option Bool) :
    ∃ M : Matrix (Fin n) (Fin n) ℝ,
      (Pattern.psd n (.int 0) dv' fd').fold (vec (r.map .fin)) (some true) vv' = .ok (.arr ⟨[n, n], Spec.matData M⟩) ∧
      (∀ b : Flt, b = .pinf ∨ b = .nan →
        (Pattern.psd n (.flt b) dv fd).fold (vec (r.map .fin)) (some true) vv = .ok (.arr ⟨[n, n], Spec.fltData (Spec.setDiag b M)⟩)) ∧
      (Pattern.psd n (.flt .pinf) dv fd).validate (.arr ⟨[n, n], Spec.fltData (Spec.setDiag .pinf M)⟩) vv = .ok (true, "") ∧
      ((Pattern.psd n (.flt .nan) dv fd).validate (.arr ⟨[n, n], Spec.fltData (Spec.setDiag .nan M)⟩) vv = .ok (true, "") ↔
        vv.getD dv = false ∨ n = 0) := by
  refine ⟨Matrix.of fun i j => freeMat n 0 r i j, ?_, ?_, ?_, ?_⟩
  · rw [fold_true]
    simp only [foldFree, bind, Except.bind]
    rw [PSD.foldFree_ok.mpr ⟨by simp, by simpa [tri] using hr, by
      rw [atleast1d_of_ne (by simp [vec]), show (PyNum.int 0).toFlt = .fin 0 by simp [PyNum.toFlt], unpackPosdef_fin hr]⟩]
    rw [matData_eq]
    simp only [pure, Except.pure]
    congr 2
    apply ofFn2_congr
    intro i hi j hj
    simp [natMat, hi, hj]
  · intro b hb
    rw [fold_true]
    simp only [foldFree, bind, Except.bind]
    rw [PSD.foldFree_ok.mpr ⟨by simp, by simpa [tri] using hr, by
      rw [atleast1d_of_ne (by simp [vec]), show (PyNum.flt b).toFlt = b from rfl, fold_absorbing (absorbing hb) hr]⟩]
    rw [fltData_eq]
    simp only [pure, Except.pure]
    congr 2
    apply ofFn2_congr
    intro i hi j hj
    simp [nat, hi, hj, Spec.setDiag]
  · refine (acc_fltData (lb := .flt .pinf) (fd := fd)).mpr fun _ => ⟨fun i => ?_, fun i j => ?_⟩
    · simp [Spec.setDiag, PyNum.toFlt, Flt.lt]
    · rw [eq_iff]
      by_cases h : i = j
      · subst h
        simp [Spec.setDiag]
      · simp only [Spec.setDiag, if_neg h, if_neg (Ne.symm h), Matrix.of_apply]
        refine ⟨?_, (fun h => nomatch h)⟩
        simp only [freeMat, Fin.ext_iff, Flt.fin.injEq]
        rw [if_neg (fun h' => h (Fin.ext h')), if_neg (fun h' => h (Fin.ext h'.symm))]
        congr 1
        exact Finset.sum_congr rfl fun k _ => mul_comm _ _
  · refine (acc_fltData (lb := .flt .nan) (fd := fd)).trans ?_
    constructor
    · intro h
      by_cases hv : vv.getD dv = true
      · right
        by_contra hn
        have := (h hv).2 ⟨0, Nat.pos_of_ne_zero hn⟩ ⟨0, Nat.pos_of_ne_zero hn⟩
        simp [Spec.setDiag, Flt.eq] at this
      · exact Or.inl (by simpa using hv)
    · rintro (h | rfl) h'
      · simp [h] at h'
      · exact ⟨fun i => i.elim0, fun i => i.elim0⟩

/-- **C127, no inverse.** Free vectors that differ in the last entry only fold to the same matrix, so no function recovers the free vector
from the folded matrix of a non-empty pattern. -/
theorem C127_not_injective {n : Nat} (dv : Bool) (fd : Option Bool) {b : Flt} (hb : b = .pinf ∨ b = .nan) (vv : Option Bool) :
    (∀ (r : List ℝ) (x y : ℝ), (r ++ [x]).length = n * (n + 1) / 2 →
      (Pattern.psd n (.flt b) dv fd).fold (vec ((r ++ [x]).map .fin)) (some true) vv =
        (Pattern.psd n (.flt b) dv fd).fold (vec ((r ++ [y]).map .fin)) (some true) vv) ∧
    (0 < n → ¬∃ g : Val Flt → NDArray Flt, ∀ (r : List ℝ) v,
      (Pattern.psd n (.flt b) dv fd).fold (vec (r.map .fin)) (some true) vv = .ok v → g v = vec (r.map .fin)) := by
  have key : ∀ (r : List ℝ) (x y : ℝ), (r ++ [x]).length = n * (n + 1) / 2 →
      (Pattern.psd n (.flt b) dv fd).fold (vec ((r ++ [x]).map .fin)) (some true) vv =
        (Pattern.psd n (.flt b) dv fd).fold (vec ((r ++ [y]).map .fin)) (some true) vv := by
    intro r x y hr
    have hr' : (r ++ [y]).length = n * (n + 1) / 2 := by simpa using hr
    have hrl : r.length + 1 = tri n := by simpa [tri] using hr
    rw [fold_true, fold_true]
    simp only [foldFree, bind, Except.bind]
    rw [PSD.foldFree_ok.mpr ⟨by simp, by simpa [tri] using hr, by
      rw [atleast1d_of_ne (by simp [vec]), show (PyNum.flt b).toFlt = b from rfl, fold_absorbing (absorbing hb) hr]⟩]
    rw [PSD.foldFree_ok.mpr ⟨by simp, by simpa [tri] using hr', by
      rw [atleast1d_of_ne (by simp [vec]), show (PyNum.flt b).toFlt = b from rfl, fold_absorbing (absorbing hb) hr']⟩]
    simp only [pure, Except.pure]
    congr 2
    apply ofFn2_congr
    intro i hi j hj
    split
    · rfl
    · next hij =>
      rw [off_diag hr hr' (fun k hk => ?_) hi hj hij]
      simp [List.getD, List.getElem?_append_left (show k < r.length by omega)]
  refine ⟨key, fun hn => ?_⟩
  rintro ⟨g, hg⟩
  have hpos : 0 < tri n := by
    have := symIndex_lt (n := n) (i := 0) (j := 0) hn le_rfl
    omega
  have hlen : (List.replicate (tri n - 1) (0 : ℝ) ++ [0]).length = n * (n + 1) / 2 := by
    simp only [List.length_append, List.length_replicate, List.length_singleton]
    show _ = tri n
    omega
  have hlen' : (List.replicate (tri n - 1) (0 : ℝ) ++ [1]).length = n * (n + 1) / 2 := by simpa using hlen
  obtain ⟨M, -, h1, -⟩ := C127_fold dv dv fd fd hlen vv vv
  have h2 := h1 b hb
  have h3 := (key _ 0 1 hlen).symm.trans h2
  have := (hg _ _ h2).symm.trans (hg _ _ h3)
  simp at this

/-- **C127, `empty`.** What `empty(valid=True)` returns is rejected by validation, except for sizes up to one with the bound infinity, and
for size zero with NaN. -/
theorem C127_empty {n : Nat} (dv : Bool) (fd : Option Bool) {vv : Option Bool} (hv : vv.getD dv = true) :
    (∃ v, (Pattern.psd n (.flt .pinf) dv fd).empty = .ok v ∧
      ((Pattern.psd n (.flt .pinf) dv fd).validate v vv = .ok (true, "") ↔ n ≤ 1)) ∧
    (∃ v, (Pattern.psd n (.flt .nan) dv fd).empty = .ok v ∧
      ((Pattern.psd n (.flt .nan) dv fd).validate v vv = .ok (true, "") ↔ n = 0)) := by
  have e : ∀ b : Flt, (Pattern.psd n (.flt b) dv fd).empty =
      .ok (.arr ⟨[n, n], Spec.fltData (Matrix.of fun (i j : Fin n) => (if i = j then 1 else 0) * (b + 1))⟩) := by
    intro b
    simp only [Pattern.empty, fltData_eq]
    congr 2
    apply ofFn2_congr
    intro i hi j hj
    simp [nat, hi, hj, PyNum.toFlt]
  have e1 : Flt.fin 0 * (.pinf + .fin 1) = .nan := by
    show Flt.mul (.fin _) (Flt.add .pinf (.fin _)) = _
    simp [Flt.mul, Flt.add, Flt.scaleInf]
  have e2 : Flt.fin 1 * (.pinf + .fin 1) = .pinf := by
    show Flt.mul (.fin _) (Flt.add .pinf (.fin _)) = _
    simp [Flt.mul, Flt.add, Flt.scaleInf]
  refine ⟨⟨_, e .pinf, ?_⟩, ⟨_, e .nan, ?_⟩⟩
  · rw [(C127_validate dv fd hv _).1]
    constructor
    · rintro ⟨h, -⟩
      by_contra hn
      have := (h ⟨0, by omega⟩ ⟨1, by omega⟩).2
      simp [e1] at this
    · intro hn
      have hs : ∀ i j : Fin n, i = j := fun i j => Fin.ext (by omega)
      refine ⟨fun i j => ?_, fun i => ?_⟩
      · rw [hs j i]
        simp [e2]
      · simp [e2]
  · rw [(C127_validate dv fd hv _).2]
    constructor
    · intro h
      by_contra hn
      have := (h ⟨0, Nat.pos_of_ne_zero hn⟩ ⟨0, Nat.pos_of_ne_zero hn⟩).2
      exact this (by simp; rfl)
    · rintro rfl
      exact fun i => i.elim0

/-- Non-vacuity: a 2 × 2 pattern with an infinite bound folds `[x, 3, y]` to `[[inf, 3 exp x], [3 exp x, inf]]` whatever `y` is. -/
example : ∃ M : Matrix (Fin 2) (Fin 2) ℝ,
    (Pattern.psd 2 (.flt .pinf) true none).fold (vec ([0, 3, 5].map .fin)) (some true) none =
      .ok (.arr ⟨[2, 2], Spec.fltData (Spec.setDiag .pinf M)⟩) ∧
    (Pattern.psd 2 (.flt .pinf) true none).fold (vec ([0, 3, 7].map .fin)) (some true) none =
      .ok (.arr ⟨[2, 2], Spec.fltData (Spec.setDiag .pinf M)⟩) := by
  obtain ⟨M, -, h, -⟩ := C127_fold (n := 2) true true none none (r := [0, 3, 5]) (by simp) none none
  exact ⟨M, h _ (Or.inl rfl), ((C127_not_injective (n := 2) true none (Or.inl rfl) none).1 [0, 3] 5 7 (by simp)).symm.trans (h _ (Or.inl rfl))⟩

end Paragami
