import Verif.Props.Jacobians
import Verif.Proofs.SparseProduct

/-! # C132: sparse storage -/

namespace Paragami
open Pattern NDArray Spec Sparse

/-- **C132.** Whatever `sparse` is, `freeing_jacobian` raises the same exceptions and returns the same entries (those of C41-C44), for every
version of scipy's `block_diag`. -/
theorem C132_freeing_entries {ad : AutogradJacobian} (had : AutogradShape ad) (all sparse : Bool) (p : Pattern) (v : Val Flt) :
    (p.freeingSparse ad all sparse v).map Result.toarray = p.freeingJacobian ad v := (freeing_agrees had all p sparse v).1

/-- **C132.** The same for `unfreeing_jacobian`. -/
theorem C132_unfreeing_entries {ad : AutogradJacobian} (had : AutogradShape ad) (all sparse : Bool) (p : Pattern) (v : Val Flt) :
    (p.unfreeingSparse ad all sparse v).map Result.toarray = p.unfreeingJacobian ad v := (unfreeing_agrees had all p sparse v).1

/-- An `autograd.jacobian` that returns zeros. -/
noncomputable def exZeros : AutogradJacobian := fun f x => do
  let y ← f x
  return ofFn2 y.data.length x.data.length fun _ _ => 0

theorem exZeros_shape : AutogradShape exZeros := by
  intro f x J h
  simp only [exZeros, pure, Except.pure] at h
  obtain ⟨y, hy, h⟩ := bind_ok h
  cases h
  exact ⟨y, hy, rfl, wf_ofFn2 _ _ _⟩

open Classical in
/-- What is assumed of `autograd.jacobian` here goes together with what is assumed of it elsewhere. -/
theorem autogradShape_exists : ∃ ad, AutogradSpec ad ∧ AutogradShape ad := by
  obtain ⟨ad, had⟩ := Jac.autogradSpec_exists
  refine ⟨fun f x => do
    let J ← ad f x
    if ∃ y, f x = .ok y ∧ J.shape = [y.data.length, x.data.length] ∧ J.WF then .ok J else .error .unmodelled, ?_, ?_⟩
  · intro n lb dv fd m x J hw hl hJ
    simp only [had n lb dv fd m x J hw hl hJ, bind, Except.bind]
    obtain ⟨f, A, h1, _, rfl⟩ := hJ
    exact if_pos ⟨_, h1.self_of_nhds, by simp, by simp [NDArray.WF, matData, Function.comp_def]⟩
  · intro f x J h
    obtain ⟨J', _, h⟩ := bind_ok h
    split at h
    · next hc => cases h; exact hc
    · simp at h

/-- A positive number and two simplexes. -/
noncomputable def exSparse : Pattern :=
  .dict (.cons "x" (.numeric .array [2] (.int 0) (.flt .pinf) true none) (.cons "s" (.simplex 3 [2] true none) .nil)) true none

theorem exSparse_built : Built exSparse :=
  WF.built _ (by simp [exSparse, Pattern.WF, WFEs, lock, Entries.keys, Entries.toList, PyNum.toFlt, Flt.NotNaN, Flt.lt])

/-- A value for it. -/
noncomputable def exSparseVal : Val Flt :=
  .dict [("x", .arr ⟨[2], [.fin 1, .fin 2]⟩), ("s", .arr ⟨[2, 3], [.fin (1/4), .fin (1/4), .fin (1/2), .fin (1/4), .fin (1/4), .fin (1/2)]⟩)]

/-- **C132.** The class of the result depends on the class of the pattern and on `sparse` only: with `sparse=False`, a simplex array gives an
`np.matrix` and everything else an `ndarray`; with `sparse=True`, a numeric array gives a `dia_matrix` and everything else a `coo_matrix`. -/
theorem C132_class (ad : AutogradJacobian) (all sparse : Bool) (p : Pattern) (v : Val Flt) (r : Result)
    (h : p.freeingSparse ad all sparse v = .ok r ∨ p.unfreeingSparse ad all sparse v = .ok r) : r.cls = jacobianClass p sparse := by
  cases p <;> rcases h with h | h <;> simp only [freeingSparse, unfreeingSparse, simplexJacobian, simplexResult, containerResult] at h <;>
    (repeat' (obtain ⟨_, _, h'⟩ := bind_ok h; clear h; have h := h'; clear h')) <;> simp only [pure, Except.pure, Except.ok.injEq] at h <;> subst h <;> cases sparse <;> rfl

/-- **C132.** With `sparse=True` every stored entry is inside the matrix, no position is stored twice, and for a value of the right shape no
more entries are stored than there are pairs of a flat and a free coordinate of the same number, simplex or matrix. -/
theorem C132_freeing_stored {ad : AutogradJacobian} (had : AutogradShape ad) {all : Bool} {p : Pattern} (hp : Built p) {v : Val Flt} (hv : v.WF)
    {c : Coo Flt} (h : p.freeingSparse ad all true v = .ok (.coo c)) :
    StoredInside c ∧ StoredOnce c ∧ ∀ m, p.validate v (some false) = .ok (true, m) → c.stored.length ≤ relatedPairs p := by
  obtain ⟨h1, h2, _⟩ := (freeing_agrees had all p true v).2 _ h
  exact ⟨h1, h2, fun m hm => count_freeing had all p hp.wf v _ hv ⟨m, hm⟩ h⟩

/-- **C132.** The same for `unfreeing_jacobian`. -/
theorem C132_unfreeing_stored {ad : AutogradJacobian} (had : AutogradShape ad) {all : Bool} {p : Pattern} (hp : Built p) {v : Val Flt}
    (hv : v.WF) {c : Coo Flt} (h : p.unfreeingSparse ad all true v = .ok (.coo c)) :
    StoredInside c ∧ StoredOnce c ∧ ∀ m, p.validate v (some false) = .ok (true, m) → c.stored.length ≤ relatedPairs p := by
  obtain ⟨h1, h2, _⟩ := (unfreeing_agrees had all p true v).2 _ h
  exact ⟨h1, h2, fun m hm => count_unfreeing had all p hp.wf v _ hv ⟨m, hm⟩ h⟩

example : Built exSparse ∧ exSparseVal.WF ∧ ∃ (c : Coo Flt) (m : String), exSparse.freeingSparse exZeros true true exSparseVal = .ok (.coo c) ∧
    exSparse.validate exSparseVal (some false) = .ok (true, m) ∧ c.stored.length < c.nrows * c.ncols := by
  have hI : Interior exSparse exSparseVal := by
    simp [Interior, InteriorEs, exSparse, exSparseVal, List.lookup, PyNum.toFlt, Flt.lt]
    refine ⟨⟨rfl, rfl⟩, rfl, fun i hi => ⟨[4⁻¹, 4⁻¹, 2⁻¹], ?_, by simp, by norm_num⟩⟩
    interval_cases i <;> simp [block]
  have hw := exSparse_built.wf
  have hwf : exSparseVal.WF := by simp [exSparseVal, Val.WF, Val.WFEs, NDArray.WF]
  obtain ⟨m, hacc⟩ := acc_of_interior exSparse hw (by simp [exSparse, FiniteLb, FiniteLbEs]) exSparseVal (some false) hI
  obtain ⟨A, _, hA, _⟩ := Jac.inverse_tree exZeros hw (by simp [exSparse, NoPSD, NoPSDEs]) (by simp [exSparse, NoEmptyBlocks, NoEmptyBlocksEs]) hI
  have he := C132_freeing_entries exZeros_shape true true exSparse exSparseVal
  rw [hA] at he
  cases hr : exSparse.freeingSparse exZeros true true exSparseVal with
  | error e => rw [hr] at he; cases he
  | ok r =>
    have hc := C132_class exZeros true true _ _ r (.inl hr)
    cases r with
    | coo c =>
      refine ⟨exSparse_built, hwf, c, m, rfl, hacc, ?_⟩
      have h1 := (C132_freeing_stored exZeros_shape exSparse_built hwf hr).2.2 m hacc
      rw [hr] at he
      have h2 := congrArg NDArray.shape (Except.ok.inj he)
      have h3 : [c.nrows, c.ncols] = [6, 8] := h2
      simp at h3
      rw [h3.1, h3.2]
      simp [exSparse, relatedPairs, relatedPairsEs] at h1
      omega
    | _ => cases hc

/-- **C132.** The two functions that `get_sparse_product` returns depend on the matrix, not on how it is stored: order, repeated positions
and stored zeros do not matter.  They compute what C61 says of the matrix. -/
theorem C132_product {z : Coo ℝ} (hz : StoredInside z) : Autograd.getSparseProduct z.toarray = .ok (sparseProduct z) := product_eq hz

/-- **C132.** Two ways to store the same matrix give the same products. -/
theorem C132_product_storage {z z' : Coo ℝ} (hz : StoredInside z) (hz' : StoredInside z') (h : z.toarray = z'.toarray) :
    sparseProduct z = sparseProduct z' := by
  have := product_eq hz
  rw [h, product_eq hz'] at this
  exact (Except.ok.inj this).symm

example : ∃ z z' : Coo ℝ, StoredInside z ∧ StoredInside z' ∧ z.toarray = z'.toarray ∧ z.stored.length ≠ z'.stored.length ∧ ¬ StoredOnce z := by
  refine ⟨⟨2, 2, [(0, 1, 1), (0, 1, 2), (1, 0, 5), (1, 1, 0)]⟩, ⟨2, 2, [(1, 0, 5), (0, 1, 3)]⟩, by simp [StoredInside], by simp [StoredInside], ?_, by simp,
    by simp [StoredOnce]⟩
  simp [Coo.toarray, ofFn2, atPos, List.range_succ]
  norm_num

end Paragami
