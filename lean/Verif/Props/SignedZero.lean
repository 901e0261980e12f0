import Verif.Proofs.SignedZero
import Verif.Proofs.PSDFree

/-!
# C130: the sign of zero

`SFlt.erase` forgets the sign of zeros.
-/

namespace Paragami

open NDArray SFlt

theorem getD_ofFn2 {α : Type} {n m : Nat} {f : Nat → Nat → α} {i j : Nat} {d : α} (hi : i < n) (hj : j < m) :
    (ofFn2 n m f).data.getD (i * m + j) d = f i j := by
  simp only [List.getD]
  rw [getElem?_of_chunk hj, data_ofFn2, chunk_of_flatMap (n := n) _ (by simp) hi]
  simp [hj]

/-- **C130.** The values that `fold` makes of a vector with negative zeros are, up to signs of zeros, the values it makes
of the vector with positive ones; it raises the same errors. -/
theorem C130_fold (M : MaxChoice) (p : Pattern) (x : NDArray SFlt) (free vv : Option Bool) :
    (p.foldSigned M x free vv).map (Val.map erase) = p.fold (x.map erase) free vv := by
  simp only [Pattern.foldSigned, Pattern.fold, bind, Except.bind]
  cases Pattern.freeWithDefault p.freeDefault free with
  | error e => rfl
  | ok b =>
    cases b
    · exact (foldNF_natural toFlt_erase p x vv).symm
    · exact foldFree_signed M p x

/-- **C130.** The vectors that `flatten` makes, and its errors, do not depend on the signs of zeros, up to such signs. -/
theorem C130_flatten (p : Pattern) (v : Val SFlt) (free vv : Option Bool) :
    (p.flattenSigned v free vv).map (NDArray.map erase) = p.flatten (v.map erase) free vv := by
  simp only [Pattern.flattenSigned, Pattern.flatten, bind, Except.bind]
  cases Pattern.freeWithDefault p.freeDefault free with
  | error e => rfl
  | ok b =>
    cases b
    · exact (flattenNF_natural toFlt_erase p v vv).symm
    · exact flattenFree_signed p v vv

/-- **C130.** `validate_folded` does not see signs of zeros at all: neither its verdict nor its message. -/
theorem C130_validate (p : Pattern) (v : Val SFlt) (vv : Option Bool) : p.validate v vv = p.validate (v.map erase) vv :=
  (validate_natural toFlt_erase p v vv).symm

/-- **C130.** Vectors that differ in signs of zeros are folded to values that differ at most in signs of zeros, whatever
`np.max` chooses. -/
theorem C130_fold_same (M M' : MaxChoice) (p : Pattern) (x y : NDArray SFlt) (free vv : Option Bool) (h : x.map erase = y.map erase) :
    (p.foldSigned M x free vv).map (Val.map erase) = (p.foldSigned M' y free vv).map (Val.map erase) := by
  rw [C130_fold, C130_fold, h]

/-- **C130.** Entry `i` of the diagonal of the `freeing_jacobian` of a numeric pattern is `-inf` instead of `inf` if the value's
entry `i` is `-0.0` at a lower bound `0.0` or `0.0` at an upper bound `-0.0`; otherwise it is as without signs. -/
theorem C130_freeing_jacobian (lb ub : SFlt) (a : NDArray SFlt) (hb : lb.erase.lt ub.erase = true) (i : Nat) (hi : i < a.data.length) :
    ((a.data[i] = negZero ∧ lb = val (.fin 0)) ∨ (ub = negZero ∧ a.data[i] = val (.fin 0)) →
      (Signed.freeingDiagonal lb ub a)[i]? = some (val .ninf) ∧
        entry a.data.length (Numeric.freeingJacobian lb.erase ub.erase (a.map erase)).data i i = .pinf) ∧
    (¬ ((a.data[i] = negZero ∧ lb = val (.fin 0)) ∨ (ub = negZero ∧ a.data[i] = val (.fin 0))) →
      (Signed.freeingDiagonal lb ub a)[i]?.map erase =
        some (entry a.data.length (Numeric.freeingJacobian lb.erase ub.erase (a.map erase)).data i i)) := by
  obtain ⟨h1, h2⟩ := erase_unconstrainJac1 lb ub a.data[i] hb
  have hl : ((a.map erase).data.map (unconstrainJac1 lb.erase ub.erase)).length = a.data.length := by simp [NDArray.map]
  have hm : entry a.data.length (Numeric.freeingJacobian lb.erase ub.erase (a.map erase)).data i i =
      unconstrainJac1 lb.erase ub.erase a.data[i].erase := by
    rw [Numeric.freeingJacobian, diagMat, hl, entry_ofFn2 _ _ _ hi hi, if_pos rfl]
    simp [NDArray.map, List.getD, hi]
  have hs : (Signed.freeingDiagonal lb ub a)[i]? = some (Signed.unconstrainJac1 lb ub a.data[i]) := by
    simp [Signed.freeingDiagonal, hi]
  rw [hm, hs]
  refine ⟨fun h => ?_, fun h => ?_⟩
  · obtain ⟨ha, hb'⟩ := h1 h
    refine ⟨?_, hb'⟩
    cases hx : Signed.unconstrainJac1 lb ub a.data[i] with
    | negZero => rw [hx] at ha; cases ha
    | val f =>
      rw [hx] at ha
      have : f = .ninf := ha
      rw [this]
  · rw [Option.map_some, h2 h]

/-- **C130.** The exception never shows for values that `fold` has made: their `freeing_jacobian` is as without signs. -/
theorem C130_freeing_jacobian_folded (lb ub : SFlt) (y : NDArray SFlt) (hb : lb.erase.lt ub.erase = true) :
    diagMat ((Signed.freeingDiagonal lb ub (y.map (Signed.constrain1 lb ub))).map erase) =
      Numeric.freeingJacobian lb.erase ub.erase ((y.map (Signed.constrain1 lb ub)).map erase) := by
  have h := fun x => (erase_unconstrainJac1 lb ub _ hb).2 (constrain1_no_sign lb ub x hb)
  simp only [Signed.freeingDiagonal, Numeric.freeingJacobian, NDArray.map, List.map_map, Function.comp_def, h]

/-- **C130.** `unfreeing_jacobian` does not depend on the signs of zeros. -/
theorem C130_unfreeing_jacobian (lb ub : SFlt) (a : NDArray SFlt) :
    diagMat ((Signed.unfreeingDiagonal lb ub a).map erase) = Numeric.unfreeingJacobian lb.erase ub.erase (a.map erase) := by
  rw [erase_unfreeingDiagonal, Numeric.unfreeingJacobian]

/-- **C130.** The log determinants do not depend on the signs of zeros, not even where `freeing_jacobian` does. -/
theorem C130_log_det (lb ub : SFlt) (a : NDArray SFlt) (hb : lb.erase.lt ub.erase = true) :
    (Signed.logAbsDetFreeing lb ub a).erase = Numeric.logAbsDetFreeing lb.erase ub.erase (a.map erase) ∧
      (Signed.logAbsDetUnfreeing lb ub a).erase = Numeric.logAbsDetUnfreeing lb.erase ub.erase (a.map erase) :=
  ⟨erase_logAbsDetFreeing lb ub a hb, erase_logAbsDetUnfreeing lb ub a⟩

/-- **C130.** For a simplex `p`, `unfreeing_jacobian` does not depend on the signs of zeros; `freeing_jacobian` does only in
the column of an entry `-0.0`, where the infinities change their signs. -/
theorem C130_simplex (p : List SFlt) :
    (Signed.constrainSimplexJacobian p).map erase = Simplex.constrainJacobian (p.map erase) ∧
      ∀ (i j : Nat) (_ : i + 1 < p.length) (_ : j < p.length),
        (p[j] ≠ negZero → (Signed.entry p.length (Signed.unconstrainSimplexJacobian p).data i j).erase =
          entry p.length (Simplex.unconstrainJacobian (p.map erase)).data i j) ∧
        (p[j] = negZero → (Signed.entry p.length (Signed.unconstrainSimplexJacobian p).data i j).erase =
          -entry p.length (Simplex.unconstrainJacobian (p.map erase)).data i j) := by
  refine ⟨erase_constrainSimplexJacobian p, fun i j hi hj => ?_⟩
  have hget : ∀ k (hk : k < p.length), p.getD k (.val .nan) = p[k] := fun k hk => by
    rw [List.getD_eq_getElem?_getD, List.getElem?_eq_getElem hk]; rfl
  have hget' : ∀ k (hk : k < p.length), (p.map erase).getD k .nan = p[k].erase := fun k hk => by
    rw [← erase_getD, hget k hk]
  have hs : Signed.entry p.length (Signed.unconstrainSimplexJacobian p).data i j =
      if j = 0 then SFlt.val (.fin (-1)) / p[0] else if j = i + 1 then 1 / p[j] else 0 := by
    rw [Signed.unconstrainSimplexJacobian, Signed.entry, getD_ofFn2 (by omega) hj, hget 0 (by omega), hget j hj]
  have hm : entry p.length (Simplex.unconstrainJacobian (p.map erase)).data i j =
      if j = 0 then Flt.fin (-1) / p[0].erase else if j = i + 1 then 1 / p[j].erase else 0 := by
    rw [Simplex.unconstrainJacobian, entry, List.length_map, getD_ofFn2 (by omega) hj, hget' 0 (by omega), hget' j hj]
  rw [hs, hm]
  refine ⟨fun hz => ?_, fun hz => ?_⟩
  · by_cases h0 : j = 0
    · subst h0
      rw [if_pos rfl, if_pos rfl, erase_div _ hz]
      rfl
    · rw [if_neg h0, if_neg h0]
      by_cases h1 : j = i + 1
      · rw [if_pos h1, if_pos h1, erase_div _ hz]
        rfl
      · rw [if_neg h1, if_neg h1, erase_zero]
  · by_cases h0 : j = 0
    · subst h0
      rw [if_pos rfl, if_pos rfl, hz, erase_div_negZero]
      rfl
    · rw [if_neg h0, if_neg h0]
      by_cases h1 : j = i + 1
      · rw [if_pos h1, if_pos h1, hz, erase_div_negZero]
        rfl
      · rw [if_neg h1, if_neg h1, erase_zero]
        show Flt.fin ((0 : ℕ) : ℝ) = Flt.fin (-((0 : ℕ) : ℝ))
        simp

/-- **C130.** The simplexes that `fold` makes contain no `-0.0`. -/
theorem C130_simplex_folded (M : MaxChoice) (row : List SFlt) : negZero ∉ Signed.constrainSimplexRow M row := constrainSimplexRow_pos M row

/-! ### Non-vacuity -/

noncomputable section

open Classical in
/-- There are choices for `np.max`; this one takes the later of equal zeros. -/
def laterMax : MaxChoice where
  max2 x y := if x.erase = .fin 0 ∧ y.erase = .fin 0 then y else val (Flt.max2 x.erase y.erase)
  erase_max2 x y := by
    split_ifs with h
    · rw [h.1, h.2]; simp [Flt.max2]
    · rfl

/-- Negative zeros are different numbers and pass through a pattern without bounds. -/
example : (Pattern.numeric .array [1] (.flt .ninf) (.flt .pinf) true none).foldSigned laterMax (vec [negZero]) (some true) =
    .ok (.arr (vec [negZero])) ∧ negZero ≠ val (.fin 0) := by
  refine ⟨?_, by simp⟩
  rw [Pattern.foldSigned]
  show (Pattern.foldFreeSigned laterMax _ _) = _
  rw [Pattern.foldFreeSigned]
  simp [Signed.numericFold, NDArray.atleast1d, NDArray.ndim, NDArray.size, NDArray.reshape, NDArray.map, vec, Signed.constrain1, SFlt.eq, erase, Flt.eq,
    PyNum.toFlt, bind, Except.bind, pure, Except.pure]

/-- A negative zero at the lower bound zero: the other infinity. -/
example : (Signed.freeingDiagonal 0 (val .pinf) (vec [negZero]))[0]? = some (val .ninf) ∧
    entry 1 (Numeric.freeingJacobian 0 .pinf (vec [.fin 0])).data 0 0 = .pinf := by
  have h0 : (0 : SFlt) = val (.fin 0) := by change val (.fin ((0 : ℕ) : ℝ)) = _; simp
  have h0' : (0 : Flt) = .fin 0 := by change Flt.fin ((0 : ℕ) : ℝ) = _; simp
  rw [h0, h0']
  exact (C130_freeing_jacobian (val (.fin 0)) (val .pinf) (vec [negZero]) rfl 0 (by simp [vec])).1 (.inl ⟨rfl, rfl⟩)

/-- A simplex whose first entry is a negative zero. -/
example : (Signed.entry 2 (Signed.unconstrainSimplexJacobian [negZero, 1]).data 0 0).erase =
    -entry 2 (Simplex.unconstrainJacobian [.fin 0, 1]).data 0 0 := by
  exact ((C130_simplex [negZero, 1]).2 0 0 (by simp) (by simp)).2 rfl

end

end Paragami
