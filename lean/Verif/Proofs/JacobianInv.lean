import Verif.Proofs.JacobianPSD
import Verif.Proofs.Canon
import Mathlib.LinearAlgebra.Matrix.Determinant.Basic

/-! # Jacobians through the public methods, inverses, block structure and determinants -/

set_option linter.unusedSimpArgs false
set_option linter.unusedSectionVars false
set_option linter.unusedVariables false

namespace Paragami
open NDArray Pattern Topology Spec

namespace Jac

theorem freeingMap_of {p : Pattern} (hw : p.WF) {l : List Flt} (hl : l.length = p.flatLen false) :
    freeingMap p (vec l) = p.flattenFree (p.unflat l) (some false) := by
  simp only [freeingMap, fold_false, flatten_true]
  rw [foldNF_eq p hw l (some false) hl (acc_unflat p hw l hl)]
  rfl

theorem flat_canon (p : Pattern) (hw : p.WF) : ∀ v : Val Flt, Interior p v → p.flat (canon p v) = p.flat v := by
  revert hw
  induction p using Pattern.ind
    (Q := fun es => WFEs es → es.keys.Nodup → ∀ vs : List (String × Val Flt), InteriorEs es vs →
      flatEs es (canonEs es vs) = flatEs es vs) with
  | hnum c s lb ub dv fd =>
    intro _ v _
    cases v with
    | dict d => simp [canon]
    | arr a => simp only [canon]; rw [flat_arr _ _ rfl, flat_arr _ _ rfl, atleast1d_data]
  | hsim k s dv fd => intro _ v _; cases v <;> simp [canon]
  | hpsd n lb dv fd => intro _ v _; cases v <;> simp [canon]
  | harr s b fd ih => intro _ v _; cases v <;> simp [canon]
  | hdict es l fd ih =>
    intro hw v hI
    cases v with
    | arr a => simp [Interior] at hI
    | dict vs =>
      simp only [Pattern.WF] at hw
      simp only [canon, flat]
      exact ih hw.2 hw.1 vs hI
  | hnil hw hk vs hI => simp [flatEs]
  | hcons k p r ihp ihr hw hk vs hI =>
    obtain ⟨hk1, hk2⟩ := nodup_keys_cons hk
    simp only [WFEs] at hw
    simp only [InteriorEs] at hI
    obtain ⟨⟨v, hl, hv⟩, hI⟩ := hI
    simp only [canonEs, hl, flatEs, List.lookup, beq_self_eq_true]
    rw [flatEs_cons_irrel hk1, ihp hw.1 v hv, ihr hw.2.2 hk2 vs hI]

/-- Values strictly inside need not be well formed arrays under extra keys, but their flattening does not look at those. -/
theorem flattenNF_interior (p : Pattern) (hw : p.WF) (hf : p.FiniteLb) (hne : p.NoEmpty) : ∀ v : Val Flt, Interior p v →
    ∀ vv, p.flattenNF v vv = .ok (vec (p.flat v)) := by
  revert hw hf hne
  induction p using Pattern.ind
    (Q := fun es => WFEs es → FiniteLbEs es → NoEmptyEs es → ∀ vs : List (String × Val Flt), InteriorEs es vs →
      ∀ vv, ∃ parts, flattenNFEs es vs vv = .ok parts ∧ (es ≠ .nil → parts ≠ []) ∧ parts.flatMap (·.data) = flatEs es vs) with
  | hnum c s lb ub dv fd =>
    intro hw hf hne v hI vv
    cases v with
    | dict d => simp [Interior] at hI
    | arr a => exact flattenNF_eq _ hw _ vv hI.1 hne (acc_of_interior _ hw hf _ vv hI)
  | hsim k s dv fd =>
    intro hw hf hne v hI vv
    cases v with
    | dict d => simp [Interior] at hI
    | arr a => exact flattenNF_eq _ hw _ vv hI.1 hne (acc_of_interior _ hw hf _ vv hI)
  | hpsd n lb dv fd =>
    intro hw hf hne v hI vv
    cases v with
    | dict d => simp [Interior] at hI
    | arr a =>
      refine flattenNF_eq _ hw _ vv ?_ hne (acc_of_interior _ hw hf _ vv hI)
      rw [interior_psd] at hI
      obtain ⟨M, L, rfl, _⟩ := hI
      simp [Val.WF, NDArray.WF, length_ofFn2, ofFn2]
  | harr s b fd ih =>
    intro hw hf hne v hI vv
    cases v with
    | dict d => simp [Interior] at hI
    | arr a => exact flattenNF_eq _ hw _ vv hI.1 hne (acc_of_interior _ hw hf _ vv hI)
  | hdict es l fd ih =>
    intro hw hf hne v hI vv
    cases v with
    | arr a => simp [Interior] at hI
    | dict vs =>
      have hacc := acc_of_interior _ hw hf _ vv hI
      simp only [Pattern.WF] at hw
      simp only [FiniteLb] at hf
      simp only [NoEmpty] at hne
      simp only [Interior] at hI
      obtain ⟨parts, h1, h2, h3⟩ := ih hw.2 hf hne.2 vs hI vv
      rw [flattenNF, requireValid_ok_iff.mpr hacc]
      simp only [bind, Except.bind, Val.asDict, h1, hstack, flat]
      have := h2 hne.1
      split
      · contradiction
      · rw [h3]
  | hnil hw hf hne vs hI vv => exact ⟨[], by simp [flattenNFEs], by simp, by simp [flatEs]⟩
  | hcons k p r ihp ihr hw hf hne vs hI vv =>
    simp only [WFEs] at hw
    simp only [FiniteLbEs] at hf
    simp only [NoEmptyEs] at hne
    simp only [InteriorEs] at hI
    obtain ⟨⟨v, hl, hv⟩, hI⟩ := hI
    obtain ⟨parts, h1, _, h3⟩ := ihr hw.2.2 hf.2 hne.2 vs hI vv
    refine ⟨vec (p.flat v) :: parts, ?_, by simp, by simp [h3, flatEs, hl]⟩
    simp only [flattenNFEs, hl, ihp hw.1 hf.1 hne.1 v hv vv, h1, bind, Except.bind]; rfl

/-! ### Statements through the public methods -/

theorem freeing_correct (ad : AutogradJacobian) {p : Pattern} (hw : p.WF) (hn : NoPSD p) (he : NoEmptyBlocks p) {v : Val Flt}
    (hI : Interior p v) : ∃ J, freeingJacobian ad p v = .ok J ∧ IsFreeingJacobian p v J := by
  obtain ⟨r, M, h1, h2, h3, h4⟩ := freeing_tree (E := Fin (p.flatLen false) → ℝ) ad p hw hn he v hI
  refine ⟨_, h3, p.flatLen false, p.flatLen true, fun j => r.getD j 0, rfl, rfl, fun vv => ?_, ?_⟩
  · rw [flatten_false, flattenNF_interior p hw (finiteLb_of_noPSD p hn) (noEmpty_of_blocks p he) v hI vv, h1, ofFn_point h2]
  · exact h4.hasJacobian h2 fun t y ht _ hg => by rw [freeingMap_of hw (by simpa using ht), hg]

/-- The freeing map of every tree has a Jacobian. -/
theorem freeing_differentiable {p : Pattern} (hw : p.WF) (hf : p.FiniteLb) (he : NoEmptyBlocks p) {v : Val Flt} (hI : Interior p v) :
    ∃ J, IsFreeingJacobian p v J := by
  obtain ⟨r, M, h1, h2, -, h4⟩ := freeing_tree_of (E := Fin (p.flatLen false) → ℝ) (fun _ _ => .error .unmodelled) (fun _ _ _ _ _ => freeing_psd) p hw hf he v hI
  refine ⟨toMat (p.flatLen true, p.flatLen false, M), p.flatLen false, p.flatLen true, fun j => r.getD j 0, rfl, rfl, fun vv => ?_, ?_⟩
  · rw [flatten_false, flattenNF_interior p hw hf (noEmpty_of_blocks p he) v hI vv, h1, ofFn_point h2]
  · exact h4.hasJacobian h2 fun t y ht _ hg => by rw [freeingMap_of hw (by simpa using ht), hg]

theorem unfreeing_correct {ad : AutogradJacobian} (had : AutogradSpec ad) {p : Pattern} (hw : p.WF) (hf : p.FiniteLb)
    (he : NoEmptyBlocks p) {v : Val Flt} (hI : Interior p v) :
    ∃ J, unfreeingJacobian ad p v = .ok J ∧ IsUnfreeingJacobian p v J := by
  obtain ⟨r, M, h1, h2, h3, h4⟩ := unfreeing_tree (E := Fin (p.flatLen true) → ℝ) had p hw hf he v hI
  refine ⟨_, h3, p.flatLen false, p.flatLen true, fun j => r.getD j 0, rfl, rfl, fun vv => ?_, ?_⟩
  · rw [flatten_true, h2 vv, ofFn_point h1]
  · exact h4.hasJacobian h1 fun t y ht _ hg => unfreeingMap_of_unfreeG hw hf (noEmpty_of_blocks p he) ht hg

/-- A tree without positive definite matrices does not call `autograd`. -/
theorem unfreeing_ad (ad ad' : AutogradJacobian) (p : Pattern) (hn : NoPSD p) :
    ∀ v : Val Flt, unfreeingJacobian ad p v = unfreeingJacobian ad' p v := by
  revert hn
  induction p using Pattern.ind
    (Q := fun es => NoPSDEs es → ∀ vs : List (String × Val Flt), unfreeingJacobianEs ad es vs = unfreeingJacobianEs ad' es vs) with
  | hnum => intro _ v; simp only [unfreeingJacobian]
  | hsim => intro _ v; simp only [unfreeingJacobian]
  | hpsd => intro h; simp [NoPSD] at h
  | harr s b fd ih =>
    intro h v
    have : (fun sub => unfreeingJacobian ad b sub) = fun sub => unfreeingJacobian ad' b sub := funext (ih h)
    simp only [unfreeingJacobian, this]
  | hdict es l fd ih => intro h v; simp only [unfreeingJacobian, ih h]
  | hnil h vs => simp only [unfreeingJacobianEs]
  | hcons k p r ihp ihr h vs => simp only [unfreeingJacobianEs, ihp h.1, ihr h.2]

/-- There is an `autograd.jacobian` that meets its specification. -/
theorem hasJacobian_unique {F : NDArray Flt → Except Err (NDArray Flt)} {n m m' : Nat} {x : Fin n → ℝ} {J J' : NDArray Flt}
    (h : HasJacobian F m x J) (h' : HasJacobian F m' x J') : J = J' := by
  obtain ⟨f, A, h1, h2, rfl⟩ := h
  obtain ⟨f', A', h1', h2', rfl⟩ := h'
  have hm : m = m' := by
    have e1 := h1.self_of_nhds
    have e2 := h1'.self_of_nhds
    rw [e1] at e2
    simp only [Except.ok.injEq, vec_inj] at e2
    simpa using congrArg List.length e2
  subst hm
  have hff : f' =ᶠ[𝓝 x] f := by
    filter_upwards [h1, h1'] with y e1 e2
    rw [e1] at e2
    simp only [Except.ok.injEq, vec_inj] at e2
    have := List.ofFn_injective e2
    funext i
    have := congrFun this i
    simpa using this.symm
  have := (h2'.congr_of_eventuallyEq hff.symm).unique h2
  have hA : A'.mulVecLin = A.mulVecLin := by
    apply LinearMap.ext
    intro w
    exact congrArg (fun g : (Fin n → ℝ) →L[ℝ] (Fin m → ℝ) => g w) this
  have : A' = A := Matrix.mulVec_injective (by
    funext w
    exact congrArg (fun g : (Fin n → ℝ) →ₗ[ℝ] (Fin m → ℝ) => g w) hA)
  rw [this]

open Classical in
theorem autogradSpec_exists : ∃ ad, AutogradSpec ad := by
  refine ⟨fun F a => if h : ∃ (J : NDArray Flt) (n m : Nat) (x : Fin n → ℝ), a = vec (List.ofFn fun j => .fin (x j)) ∧ HasJacobian F m x J
    then .ok h.choose else .error .unmodelled, ?_⟩
  intro n lb dv fd m x J _ _ hJ
  have hJ' : HasJacobian (unfreeingMap (.psd n lb dv fd)) m x J := hJ
  have h : ∃ (J' : NDArray Flt) (n' m' : Nat) (x' : Fin n' → ℝ),
      vec (List.ofFn fun j => Flt.fin (x j)) = vec (List.ofFn fun j => .fin (x' j)) ∧
        HasJacobian (unfreeingMap (.psd n lb dv fd)) m' x' J' := ⟨J, _, m, x, rfl, hJ'⟩
  have hs := h.choose_spec
  simp only [dif_pos h, Except.ok.injEq]
  generalize h.choose = J0 at hs
  obtain ⟨n0, m0, x0, e, hs⟩ := hs
  have hn : (Pattern.psd n lb dv fd).flatLen true = n0 := by simpa using congrArg List.length (vec_inj.mp e)
  subst hn
  have hx := List.ofFn_injective (vec_inj.mp e)
  have : x = x0 := by
    funext i
    simpa using congrFun hx i
  subst this
  exact hasJacobian_unique hs hJ'

/-! ### Inverses -/

theorem inverse_tree (ad : AutogradJacobian) {p : Pattern} (hw : p.WF) (hn : NoPSD p) (he : NoEmptyBlocks p) {v : Val Flt}
    (hI : Interior p v) : ∃ (A : Matrix (Fin (p.flatLen true)) (Fin (p.flatLen false)) ℝ)
      (B : Matrix (Fin (p.flatLen false)) (Fin (p.flatLen true)) ℝ),
      freeingJacobian ad p v = .ok ⟨[p.flatLen true, p.flatLen false], matData A⟩ ∧
      unfreeingJacobian ad p v = .ok ⟨[p.flatLen false, p.flatLen true], matData B⟩ ∧ A * B = 1 := by
  have hf := finiteLb_of_noPSD p hn
  have hne := noEmpty_of_blocks p he
  obtain ⟨ad', had⟩ := autogradSpec_exists
  set m := p.flatLen true with hm
  set n := p.flatLen false with hnn
  obtain ⟨r1, M1, a1, a2, a3, a4⟩ := freeing_tree (E := Fin m → ℝ) ad p hw hn he v hI
  obtain ⟨r2, M2, b1, b2, b3, b4⟩ := unfreeing_tree (E := Fin m → ℝ) had p hw hf he v hI
  rw [unfreeing_ad ad' ad p hn] at b3
  simp only [← hm, ← hnn] at a2 a3 a4 b1 b3 b4
  have hL : ∀ j, ∃ L : (Fin m → ℝ) →L[ℝ] ℝ, ∀ hj : j < m, L = ContinuousLinearMap.proj (R := ℝ) (φ := fun _ : Fin m => ℝ) ⟨j, hj⟩ := by
    intro j
    by_cases hj : j < m
    · exact ⟨ContinuousLinearMap.proj (R := ℝ) (φ := fun _ : Fin m => ℝ) ⟨j, hj⟩, fun _ => rfl⟩
    · exact ⟨0, fun h => absurd h hj⟩
  choose L hL using hL
  set e : Fin m → ℝ := fun j => r2.getD j 0 with hee
  obtain ⟨f, f1, f2, -⟩ := b4 ext e L (point_ext b1) (fun j hj => by rw [hL j (by omega)]; exact hasFDerivAt_ext (by omega))
  rw [b1] at f1 f2
  -- the value at the point itself
  have hpt : (List.range r1.length).map (f e) = r1 := by
    have h1 := f1.self_of_nhds
    rw [← ofFn_ext, ofFn_point b1] at h1
    obtain ⟨r, c1, c2, c3⟩ := free_val p hw hf v hI hne
    have hr : r = r2 := by
      have := (c2 none).symm.trans (b2 none)
      simp only [Except.ok.injEq, vec_inj] at this
      exact List.map_injective_iff.mpr (fun a b h => by simpa using h) this
    subst hr
    simp only [unfreeG, c3, bind, Except.bind, Except.ok.injEq, vec_inj] at h1
    rw [flat_canon p hw v hI, a1, finVec_eq_map] at h1
    rw [a2]
    exact (List.map_injective_iff.mpr (fun a b h => by simpa using h) h1).symm
  obtain ⟨h, k1, k2, -⟩ := a4 f e (fun i => ∑ j ∈ Finset.range m, M2 i j • L j) hpt (fun j hj => f2 j (by omega))
  rw [a2] at k1 k2
  -- the composition is the identity
  have hid : ∀ i < m, (fun u => h u i) =ᶠ[𝓝 e] fun u => ext u i := by
    intro i hi
    filter_upwards [f1, k1] with u u1 u2
    obtain ⟨w, w1, w2, w3, _, w5⟩ := free_vec p hw hf ((List.range m).map (ext u)) (by simp [hm])
    rw [← finVec_eq_map] at w1 w5
    obtain ⟨r, c1, c2, c3⟩ := free_val p hw hf w w2 hne
    have hcw : canon p w = w := by
      have h1 := (c2 none).symm.trans (w5 hne none)
      simp only [Except.ok.injEq, vec_inj] at h1
      rw [h1, w1] at c3
      simpa using c3.symm
    simp only [unfreeG, w1, bind, Except.bind, Except.ok.injEq, vec_inj] at u1
    rw [← u1, unflat_flat p hw w none w3 (acc_of_interior p hw hf w none w2), hcw, w5 hne] at u2
    simp only [Except.ok.injEq, vec_inj] at u2
    exact (finVec_inj u2 i hi).symm
  refine ⟨mat m n M1, mat n m M2, ?_, ?_, ?_⟩
  · rw [a3]; exact congrArg _ (matData_of m n M1)
  · rw [b3]; exact congrArg _ (matData_of n m M2)
  · ext i k
    have hd := ((k2 i i.2).congr_of_eventuallyEq (hid i i.2).symm).unique (hasFDerivAt_ext i.2)
    have := congrArg (fun g : (Fin m → ℝ) →L[ℝ] ℝ => g (Pi.single k 1)) hd
    simp only [sum_apply, smul_apply, smul_eq_mul, ContinuousLinearMap.proj_apply, Fin.eta] at this
    rw [Matrix.mul_apply, Matrix.one_apply]
    simp only [mat, Matrix.of_apply]
    rw [Finset.sum_range] at this
    have h2 : ∀ j : Fin n, ∑ x ∈ Finset.range m, M2 j x * (L x) (Pi.single k 1) = M2 j k := by
      intro j
      rw [Finset.sum_range, Finset.sum_eq_single k]
      · rw [hL k k.2]; simp
      · intro b _ hb; rw [hL b b.2]; simp [hb]
      · intro hk; exact absurd (Finset.mem_univ _) hk
    simp only [h2] at this
    rw [this]
    by_cases hik : i = k
    · subst hik; simp
    · simp [hik, Pi.single_apply]

/-! ### Block structure -/

theorem blk_rows_zero (bl : List (Nat × Nat × (Nat → Nat → ℝ))) (i j : Nat) (h : (bl.map (·.1)).sum ≤ i) : blk bl i j = 0 := by
  induction bl generalizing i j with
  | nil => rfl
  | cons b bl ih =>
    obtain ⟨m, n, A⟩ := b
    simp only [List.map_cons, List.sum_cons] at h
    have h1 : ¬ i < m := by omega
    simp only [blk, h1, if_false]
    split
    · rfl
    · exact ih _ _ (by omega)

theorem blockEntry_at (Js : List (NDArray Flt)) : ∀ (a b : Nat) (A B : NDArray Flt), Js[a]? = some A → Js[b]? = some B →
    ∀ i < (matDims A).1, ∀ j < (matDims B).2,
      blockEntry Js (((Js.take a).map fun A => (matDims A).1).sum + i) (((Js.take b).map fun A => (matDims A).2).sum + j) =
        if a = b then entry (matDims A).2 A.data i j else 0 := by
  induction Js with
  | nil => intro a b A B ha; simp at ha
  | cons C Js ih =>
    intro a b A B ha hb i hi j hj
    cases a with
    | zero =>
      simp only [List.getElem?_cons_zero, Option.some.injEq] at ha
      subst ha
      cases b with
      | zero =>
        simp only [List.getElem?_cons_zero, Option.some.injEq] at hb
        subst hb
        simp [blockEntry, hi, hj]
      | succ b =>
        simp only [List.take_zero, List.map_nil, List.sum_nil, Nat.zero_add, List.take_succ_cons, List.map_cons, List.sum_cons,
          blockEntry, hi, if_true]
        rw [if_neg (by omega), if_neg (by omega)]
    | succ a =>
      simp only [List.getElem?_cons_succ] at ha
      cases b with
      | zero =>
        simp only [List.getElem?_cons_zero, Option.some.injEq] at hb
        subst hb
        simp only [List.take_zero, List.map_nil, List.sum_nil, Nat.zero_add, List.take_succ_cons, List.map_cons, List.sum_cons,
          blockEntry, hj, if_true]
        rw [if_neg (by omega), if_neg (by omega)]
      | succ b =>
        simp only [List.getElem?_cons_succ] at hb
        simp only [List.take_succ_cons, List.map_cons, List.sum_cons, blockEntry]
        rw [if_neg (by omega), if_neg (by omega)]
        have := ih a b A B ha hb i hi j hj
        rw [show (matDims C).1 + ((Js.take a).map fun A => (matDims A).1).sum + i - (matDims C).1 =
            ((Js.take a).map fun A => (matDims A).1).sum + i by omega,
          show (matDims C).2 + ((Js.take b).map fun A => (matDims A).2).sum + j - (matDims C).2 =
            ((Js.take b).map fun A => (matDims A).2).sum + j by omega, this]
        simp

theorem take_sum_lt {Js : List (Nat × Nat × NDArray Flt)} {f : Nat × Nat × NDArray Flt → Nat} {a : Nat} {x}
    (h : Js[a]? = some x) {i : Nat} (hi : i < f x) : ((Js.take a).map f).sum + i < (Js.map f).sum := by
  induction Js generalizing a with
  | nil => simp at h
  | cons C Js ih =>
    cases a with
    | zero =>
      simp only [List.getElem?_cons_zero, Option.some.injEq] at h
      subst h
      simp; omega
    | succ a =>
      simp only [List.getElem?_cons_succ] at h
      have := ih h
      simp only [List.take_succ_cons, List.map_cons, List.sum_cons]; omega

theorem idx_lt {i j m n : Nat} (hi : i < m) (hj : j < n) : i * n + j < m * n := by
  calc i * n + j < i * n + n := by omega
    _ = (i + 1) * n := by ring
    _ ≤ m * n := Nat.mul_le_mul_right _ hi

/-- `block_diag` makes a block diagonal matrix. -/
theorem blockDiag_spec {Js : List (Nat × Nat × NDArray Flt)} (h : ∀ b ∈ Js, b.2.2.shape = [b.1, b.2.1] ∧ b.2.2.WF) (hne : Js ≠ []) :
    ∃ J, blockDiag (Js.map (·.2.2)) = .ok J ∧ IsBlockDiag Js J := by
  have hd1 : (Js.map (·.2.2)).map (fun a => (matDims a).1) = Js.map (·.1) := by
    rw [List.map_map]; exact List.map_congr_left fun b hb => by simp [matDims, (h b hb).1]
  have hd2 : (Js.map (·.2.2)).map (fun a => (matDims a).2) = Js.map (·.2.1) := by
    rw [List.map_map]; exact List.map_congr_left fun b hb => by simp [matDims, (h b hb).1]
  have hb : blockDiag (Js.map (·.2.2)) = .ok (ofFn2 (Js.map (·.1)).sum (Js.map (·.2.1)).sum (blockEntry (Js.map (·.2.2)))) := by
    unfold blockDiag
    split
    · next hnil => simp at hnil; exact absurd hnil hne
    · rw [hd1, hd2]
  refine ⟨_, hb, rfl, by simp [NDArray.WF, length_ofFn2, ofFn2], ?_⟩
  intro a b m n m' n' A B ha hb i hi j hj
  have hA := h _ (List.mem_of_getElem? ha)
  have hB := h _ (List.mem_of_getElem? hb)
  simp only at hA hB
  have hi' : ((Js.take a).map (·.1)).sum + i < (Js.map (·.1)).sum := take_sum_lt ha hi
  have hj' : ((Js.take b).map (·.2.1)).sum + j < (Js.map (·.2.1)).sum := take_sum_lt (f := (·.2.1)) hb hj
  have e1 := entry_ofFn2 _ _ (blockEntry (Js.map (·.2.2))) hi' hj'
  have e2 := blockEntry_at (Js.map (·.2.2)) a b A B (by simp [ha]) (by simp [hb]) i (by simpa [matDims, hA.1] using hi) j
    (by simpa [matDims, hB.1] using hj)
  simp only [← List.map_take, List.map_map] at e2
  have t1 : (Js.take a).map ((fun A => (matDims A).1) ∘ (·.2.2)) = (Js.take a).map (·.1) :=
    List.map_congr_left fun c hc => by simp [matDims, (h c (List.mem_of_mem_take hc)).1]
  have t2 : (Js.take b).map ((fun A => (matDims A).2) ∘ (·.2.2)) = (Js.take b).map (·.2.1) :=
    List.map_congr_left fun c hc => by simp [matDims, (h c (List.mem_of_mem_take hc)).1]
  rw [t1, t2] at e2
  rw [e2] at e1
  have hlt : (((Js.take a).map (·.1)).sum + i) * (Js.map (·.2.1)).sum + (((Js.take b).map (·.2.1)).sum + j) <
      (ofFn2 (Js.map (·.1)).sum (Js.map (·.2.1)).sum (blockEntry (Js.map (·.2.2)))).data.length := by
    rw [length_ofFn2]
    exact idx_lt hi' hj'
  simp only [entry, List.getD, List.getElem?_eq_getElem hlt, Option.getD_some] at e1
  simp only [cell, List.getElem?_eq_getElem hlt, e1, matDims, hA.1]
  by_cases hab : a = b
  · subst hab
    rw [ha] at hb
    simp only [Option.some.injEq, Prod.mk.injEq] at hb
    obtain ⟨rfl, rfl, rfl⟩ := hb
    have hlt2 : i * n + j < A.data.length := by
      rw [hA.2, hA.1]; simpa using idx_lt hi hj
    simp [List.getElem?_eq_getElem hlt2]
  · simp [hab]

theorem jacobianEs_eq {f : Pattern → Val Flt → Except Err (NDArray Flt)}
    {g : Entries → List (String × Val Flt) → Except Err (List (NDArray Flt))}
    (hnil : ∀ vs, g .nil vs = .ok [])
    (hcons : ∀ k p r vs v j js, vs.lookup k = some v → f p v = .ok j → g r vs = .ok js → g (.cons k p r) vs = .ok (j :: js)) :
    ∀ (es : Entries) (vs : List (String × Val Flt)) (Js : List (NDArray Flt)),
      List.Forall₂ (fun kp J => ∃ v, vs.lookup kp.1 = some v ∧ f kp.2 v = .ok J) es.toList Js → g es vs = .ok Js := by
  intro es
  induction es using Entries.rec (motive_1 := fun _ => True) with
  | nil => intro vs Js h; simp only [Entries.toList, List.forall₂_nil_left_iff] at h; rw [h, hnil]
  | cons k p r _ ih =>
    intro vs Js h
    simp only [Entries.toList, List.forall₂_cons_left_iff] at h
    obtain ⟨J, Js', ⟨v, h1, h2⟩, h3, rfl⟩ := h
    exact hcons k p r vs v J Js' h1 h2 (ih vs Js' h3)
  | _ => trivial

theorem freeingJacobianEs_eq (ad : AutogradJacobian) : ∀ (es : Entries) (vs : List (String × Val Flt)) (Js : List (NDArray Flt)),
    List.Forall₂ (fun kp J => ∃ v, vs.lookup kp.1 = some v ∧ freeingJacobian ad kp.2 v = .ok J) es.toList Js →
      freeingJacobianEs ad es vs = .ok Js :=
  jacobianEs_eq (fun vs => by simp only [freeingJacobianEs]) fun k p r vs v j js h1 h2 h3 => by
    simp only [freeingJacobianEs, h1, h2, h3, bind, Except.bind]; rfl

theorem unfreeingJacobianEs_eq (ad : AutogradJacobian) : ∀ (es : Entries) (vs : List (String × Val Flt)) (Js : List (NDArray Flt)),
    List.Forall₂ (fun kp J => ∃ v, vs.lookup kp.1 = some v ∧ unfreeingJacobian ad kp.2 v = .ok J) es.toList Js →
      unfreeingJacobianEs ad es vs = .ok Js :=
  jacobianEs_eq (fun vs => by simp only [unfreeingJacobianEs]) fun k p r vs v j js h1 h2 h3 => by
    simp only [unfreeingJacobianEs, h1, h2, h3, bind, Except.bind]; rfl

/-! ### Determinants -/

theorem unconstrain_jac_inv {lb ub : Flt} (hl : lb.NotNaN) (hu : ub.NotNaN) (hlu : lb.lt ub = true) {x : ℝ}
    (h1 : lb.lt (.fin x) = true) (h2 : (Flt.fin x).lt ub = true) :
    ∃ d d' : ℝ, unconstrainJac1 lb ub (.fin x) = .fin d ∧ constrainJac1 lb ub (unconstrain1 lb ub (.fin x)) = .fin d' ∧
      0 < d ∧ 0 < d' ∧ d * d' = 1 := by
  obtain ⟨φ, d, e1, e2, e3, e4, -⟩ := unconstrain1_deriv hl hu hlu h1 h2
  obtain ⟨ψ, g1, g2⟩ := constrain1_deriv hl hu hlu
  obtain ⟨y, hy1, hy2⟩ := constrain_unconstrain hl hu hlu h1 h2
  obtain ⟨d', k1, k2, k3, -⟩ := g2 y
  refine ⟨d, d', e2, by rw [hy1, k1], e4, k3, ?_⟩
  -- ψ is an inverse of φ near x
  have hyx : ψ y = x := by have := hy2; rw [g1] at this; simpa using this
  have hφx : φ x = y := by have := e1.self_of_nhds; rw [hy1] at this; simpa using this.symm
  have hid : (fun t => φ (ψ t)) =ᶠ[𝓝 y] id := by
    have hc : ContinuousAt ψ y := k2.continuousAt
    have : ∀ᶠ t in 𝓝 y, unconstrain1 lb ub (.fin (ψ t)) = .fin (φ (ψ t)) := by
      have hx : ∀ᶠ s in 𝓝 (ψ y), unconstrain1 lb ub (.fin s) = .fin (φ s) := by rw [hyx]; exact e1
      exact hc.eventually hx
    filter_upwards [this] with t ht
    obtain ⟨z, hz1, _, _, hz4⟩ := unconstrain_constrain hl hu hlu t
    rw [g1] at hz1
    rw [hz1, hz4] at ht
    simpa using ht.symm
  have hcomp : HasDerivAt (fun t => φ (ψ t)) (d * d') y := by
    have : HasDerivAt φ d (ψ y) := by rw [hyx]; exact e3
    exact this.comp y k2
  exact (hcomp.congr_of_eventuallyEq hid.symm).unique (hasDerivAt_id y)

/-- Entries of a diagonal matrix. -/
def diagE (d : List ℝ) (i j : Nat) : ℝ := if i = j then d.getD i 0 else 0

theorem blk_diag (d1 d2 : List ℝ) (bl : List (Nat × Nat × (Nat → Nat → ℝ))) (h : ∀ i j, i < d2.length → j < d2.length →
    blk bl i j = diagE d2 i j) : ∀ i j, i < (d1 ++ d2).length → j < (d1 ++ d2).length →
    blk ((d1.length, d1.length, diagE d1) :: bl) i j = diagE (d1 ++ d2) i j := by
  intro i j hi hj
  simp only [List.length_append] at hi hj
  simp only [blk, diagE]
  by_cases h1 : i < d1.length
  · by_cases h2 : j < d1.length
    · simp [h1, h2, List.getD, List.getElem?_append_left h1]
    · have : i ≠ j := by omega
      simp [h1, h2, this]
  · by_cases h2 : j < d1.length
    · have : i ≠ j := by omega
      simp [h1, h2, this]
    · simp only [h1, h2, if_false]
      rw [h _ _ (by omega) (by omega), diagE]
      by_cases h3 : i = j
      · subst h3
        simp [List.getD, List.getElem?_append_right (not_lt.mp h1)]
      · rw [if_neg (by omega), if_neg h3]

theorem toMat_congr {m n : Nat} {A B : Nat → Nat → ℝ} (h : ∀ i < m, ∀ j < n, A i j = B i j) : toMat (m, n, A) = toMat (m, n, B) :=
  ofFn2_congr fun i hi j hj => congrArg Flt.fin (h i hi j hj)

theorem numeric_diag {c s lb ub dv fd} (hw : (Pattern.numeric c s lb ub dv fd).WF) {a : NDArray Flt}
    (hI : Interior (.numeric c s lb ub dv fd) (.arr a)) : ∃ d d' : List ℝ, d.length = s.prod ∧ d'.length = s.prod ∧
      (∀ x ∈ d, 0 < x) ∧ d' = d.map (fun x => x⁻¹) ∧
      a.data.map (unconstrainJac1 lb.toFlt ub.toFlt) = d.map .fin ∧
      (a.data.map (unconstrain1 lb.toFlt ub.toFlt)).map (constrainJac1 lb.toFlt ub.toFlt) = d'.map .fin := by
  simp only [Pattern.WF] at hw
  obtain ⟨hs, _, _, h1, h2, h3⟩ := hw
  simp only [Interior] at hI
  obtain ⟨hwf, hsh, hb⟩ := hI
  have hlen : a.data.length = s.prod := by rw [← hsh, ← atleast1d_data, atleast1d_wf hwf]
  rw [← hlen]
  clear hwf hsh hlen
  generalize a.data = l at hb
  induction l with
  | nil => exact ⟨[], [], by simp⟩
  | cons x l ih =>
    obtain ⟨d, d', e1, e2, e3, e4, e5, e6⟩ := ih fun y hy => hb y (by simp [hy])
    obtain ⟨t, ht⟩ := fin_of_between (hb x (by simp)).1 (hb x (by simp)).2
    subst ht
    obtain ⟨u, u', k1, k2, k3, k4, k5⟩ := unconstrain_jac_inv (x := t) h1 h2 h3 (hb _ (by simp)).1 (hb _ (by simp)).2
    refine ⟨u :: d, u' :: d', by simp [e1], by simp [e2], ?_, ?_, by simp [k1, e5], ?_⟩
    · intro y hy
      rcases List.mem_cons.mp hy with rfl | hy
      · exact k3
      · exact e3 y hy
    · rw [e4, List.map_cons, eq_inv_of_mul_eq_one_right k5]
    · simp only [List.map_cons, k2, e6]

theorem log_sum {d : List ℝ} (h : ∀ x ∈ d, 0 < x) :
    Flt.sum ((d.map Flt.fin).map fun x => x.abs.log) = .fin (d.map Real.log).sum := by
  rw [← Flt.sum_fin]
  congr 1
  simp only [List.map_map]
  apply List.map_congr_left
  intro x hx
  have := h x hx
  simp [abs_of_pos this, Flt.log_fin this]

theorem toFlt_zero_add (x : ℝ) : (0 : Flt) + .fin x = .fin x := by
  show Flt.fin ((0 : ℕ) : ℝ) + .fin x = _
  simp

theorem log_det_tree (ad : AutogradJacobian) (p : Pattern) (hw : p.WF) (hn : NumericDicts p) :
    ∀ v : Val Flt, Interior p v → ∃ d : List ℝ, (∀ x ∈ d, 0 < x) ∧ d.length = p.flatLen true ∧ d.length = p.flatLen false ∧
      logAbsDetFreeing p v = .ok (.fin (d.map Real.log).sum) ∧
      logAbsDetUnfreeing p v = .ok (.fin ((d.map (fun x => x⁻¹)).map Real.log).sum) ∧
      (NoEmptyBlocks p → freeingJacobian ad p v = .ok (toMat (d.length, d.length, diagE d)) ∧
        unfreeingJacobian ad p v = .ok (toMat (d.length, d.length, diagE (d.map (fun x => x⁻¹))))) := by
  revert hw hn
  induction p using Pattern.ind
    (Q := fun es => WFEs es → NumericDictsEs es → ∀ vs : List (String × Val Flt), InteriorEs es vs →
      ∃ d : List ℝ, (∀ x ∈ d, 0 < x) ∧ d.length = flatLenEs es true ∧ d.length = flatLenEs es false ∧
      (∀ acc : ℝ, logAbsDetFreeingEs es vs (.fin acc) = .ok (.fin (acc + (d.map Real.log).sum))) ∧
      (∀ acc : ℝ, logAbsDetUnfreeingEs es vs (.fin acc) = .ok (.fin (acc + ((d.map (fun x => x⁻¹)).map Real.log).sum))) ∧
      (NoEmptyBlocksEs es → ∃ bl bl' : List (Nat × Nat × (Nat → Nat → ℝ)), freeingJacobianEs ad es vs = .ok (bl.map toMat) ∧
        unfreeingJacobianEs ad es vs = .ok (bl'.map toMat) ∧ (es ≠ .nil → bl ≠ [] ∧ bl' ≠ []) ∧
        (bl.map (·.1)).sum = d.length ∧ (bl.map (·.2.1)).sum = d.length ∧
        (bl'.map (·.1)).sum = d.length ∧ (bl'.map (·.2.1)).sum = d.length ∧
        (∀ i j, i < d.length → j < d.length → blk bl i j = diagE d i j) ∧
        (∀ i j, i < d.length → j < d.length → blk bl' i j = diagE (d.map (fun x => x⁻¹)) i j))) with
  | hnum c s lb ub dv fd =>
    intro hw _ v hI
    cases v with
    | dict d => simp [Interior] at hI
    | arr a =>
      obtain ⟨d, d', e1, e2, e3, rfl, e5, e6⟩ := numeric_diag hw hI
      have e3' : ∀ x ∈ d.map (fun x => x⁻¹), 0 < x := by
        simp only [List.mem_map]
        rintro _ ⟨y, hy, rfl⟩
        exact inv_pos.mpr (e3 y hy)
      refine ⟨d, e3, by simpa [flatLen] using e1, by simpa [flatLen] using e1, ?_, ?_, fun _ => ⟨?_, ?_⟩⟩
      · simp only [logAbsDetFreeing, Val.asArr, bind, Except.bind, pure, Except.pure, Numeric.logAbsDetFreeing, e5, log_sum e3]
      · simp only [logAbsDetUnfreeing, Val.asArr, bind, Except.bind, pure, Except.pure, Numeric.logAbsDetUnfreeing, e6, log_sum e3']
      · simp only [freeingJacobian, Val.asArr, bind, Except.bind, pure, Except.pure, Numeric.freeingJacobian, e5, diagMat_fin]
        rfl
      · simp only [unfreeingJacobian, Val.asArr, bind, Except.bind, pure, Except.pure, Numeric.unfreeingJacobian, e6, diagMat_fin,
          List.length_map]
        rfl
  | hsim => intro _ h; simp [NumericDicts] at h
  | hpsd => intro _ h; simp [NumericDicts] at h
  | harr s b fd ih => intro _ h; simp [NumericDicts] at h
  | hdict es l fd ih =>
    intro hw hn v hI
    cases v with
    | arr a => simp [Interior] at hI
    | dict vs =>
      simp only [Pattern.WF] at hw
      simp only [NumericDicts] at hn
      simp only [Interior] at hI
      obtain ⟨d, h1, h2, h3, h4, h5, h6⟩ := ih hw.2 hn vs hI
      refine ⟨d, h1, by rw [h2, flatLen], by rw [h3, flatLen], ?_, ?_, fun he => ?_⟩
      · have := h4 0
        simp only [logAbsDetFreeing, Val.asDict, bind, Except.bind]
        rw [zero_add] at this
        rw [← this]
        congr 1
        show Flt.fin ((0 : ℕ) : ℝ) = _
        simp
      · have := h5 0
        simp only [logAbsDetUnfreeing, Val.asDict, bind, Except.bind]
        rw [zero_add] at this
        rw [← this]
        congr 1
        show Flt.fin ((0 : ℕ) : ℝ) = _
        simp
      · simp only [NoEmptyBlocks] at he
        obtain ⟨bl, bl', g1, g2, g3, g4, g5, g6, g7, g8, g9⟩ := h6 he.2
        obtain ⟨n1, n2⟩ := g3 he.1
        constructor
        · simp only [freeingJacobian, Val.asDict, bind, Except.bind, g1]
          rw [blockDiag_toMat n1, g4, g5]
          exact congrArg _ (toMat_congr fun i hi j hj => g8 i j hi hj)
        · simp only [unfreeingJacobian, Val.asDict, bind, Except.bind, g2]
          rw [blockDiag_toMat n2, g6, g7]
          exact congrArg _ (toMat_congr fun i hi j hj => g9 i j hi hj)
  | hnil hw hn vs hI =>
    refine ⟨[], by simp, by simp [flatLenEs], by simp [flatLenEs], by simp [logAbsDetFreeingEs], by simp [logAbsDetUnfreeingEs],
      fun _ => ⟨[], [], by simp [freeingJacobianEs], by simp [unfreeingJacobianEs], by simp⟩⟩
  | hcons k p r ihp ihr hw hn vs hI =>
    simp only [WFEs] at hw
    simp only [NumericDictsEs] at hn
    simp only [InteriorEs] at hI
    obtain ⟨⟨v, hl, hv⟩, hI⟩ := hI
    obtain ⟨d1, a1, a2, a3, a4, a5, a6⟩ := ihp hw.1 hn.1 v hv
    obtain ⟨d2, b1, b2, b3, b4, b5, b6⟩ := ihr hw.2.2 hn.2 vs hI
    refine ⟨d1 ++ d2, ?_, by simp [a2, b2, flatLenEs], by simp [a3, b3, flatLenEs], fun acc => ?_, fun acc => ?_, fun he => ?_⟩
    · intro x hx
      rcases List.mem_append.mp hx with h | h
      · exact a1 x h
      · exact b1 x h
    · simp only [logAbsDetFreeingEs, hl, a4, bind, Except.bind, Flt.add_fin, b4, List.map_append, List.sum_append, add_assoc]
    · simp only [logAbsDetUnfreeingEs, hl, a5, bind, Except.bind, Flt.add_fin, b5, List.map_append, List.sum_append, add_assoc]
    · simp only [NoEmptyBlocksEs] at he
      obtain ⟨c1, c2⟩ := a6 he.1
      obtain ⟨bl, bl', g1, g2, g3, g4, g5, g6, g7, g8, g9⟩ := b6 he.2
      refine ⟨(d1.length, d1.length, diagE d1) :: bl, (d1.length, d1.length, diagE (d1.map (fun x => x⁻¹))) :: bl', ?_, ?_, by simp,
        by simp [g4], by simp [g5], by simp [g6], by simp [g7], blk_diag d1 d2 bl g8, ?_⟩
      · simp only [freeingJacobianEs, hl, c1, g1, bind, Except.bind]; rfl
      · simp only [unfreeingJacobianEs, hl, c2, g2, bind, Except.bind]; rfl
      · have := blk_diag (d1.map (fun x => x⁻¹)) (d2.map (fun x => x⁻¹)) bl' (by simpa using g9)
        simpa using this

theorem log_sum_inv {d : List ℝ} (h : ∀ x ∈ d, 0 < x) : ((d.map (fun x => x⁻¹)).map Real.log).sum = -(d.map Real.log).sum := by
  induction d with
  | nil => simp
  | cons x d ih =>
    simp only [List.map_cons, List.sum_cons, ih fun y hy => h y (by simp [hy]), Real.log_inv]
    ring

theorem det_diag (d : List ℝ) : (mat d.length d.length (diagE d)).det = d.prod := by
  have e : mat d.length d.length (diagE d) = Matrix.diagonal fun i : Fin d.length => d[i] := by
    ext i j
    simp only [mat, Matrix.of_apply, diagE, Matrix.diagonal_apply]
    by_cases hij : i = j
    · subst hij; simp
    · have : (i : Nat) ≠ j := fun h => hij (Fin.ext h)
      simp [hij, this]
  have hp : ∏ i : Fin d.length, d[i] = d.prod := by
    conv_rhs => rw [← List.ofFn_getElem (xs := d), List.prod_ofFn]
    rfl
  rw [e, Matrix.det_diagonal, hp]

theorem det_diag_ne {d : List ℝ} (h : ∀ x ∈ d, 0 < x) : (mat d.length d.length (diagE d)).det ≠ 0 := by
  rw [det_diag]
  exact (List.prod_pos h).ne'

theorem log_det_diag {d : List ℝ} (h : ∀ x ∈ d, 0 < x) :
    Real.log |(mat d.length d.length (diagE d)).det| = (d.map Real.log).sum := by
  rw [det_diag]
  induction d with
  | nil => simp
  | cons x d ih =>
    have hx := h x (by simp)
    have hd : 0 < d.prod := List.prod_pos fun y hy => h y (by simp [hy])
    rw [List.prod_cons, abs_mul, Real.log_mul (abs_ne_zero.mpr hx.ne') (abs_ne_zero.mpr hd.ne'), ih fun y hy => h y (by simp [hy]),
      abs_of_pos hx]
    simp

theorem log_det_error (p : Pattern) (hw : p.WF) : ∀ v : Val Flt, Interior p v → ¬ NumericDicts p →
    (∃ msg, logAbsDetFreeing p v = .error (.notImplementedError msg)) ∧
      ∃ msg, logAbsDetUnfreeing p v = .error (.notImplementedError msg) := by
  revert hw
  induction p using Pattern.ind
    (Q := fun es => WFEs es → ∀ vs : List (String × Val Flt), InteriorEs es vs → ¬ NumericDictsEs es →
      (∀ acc, ∃ msg, logAbsDetFreeingEs es vs acc = .error (.notImplementedError msg)) ∧
        ∀ acc, ∃ msg, logAbsDetUnfreeingEs es vs acc = .error (.notImplementedError msg)) with
  | hnum => intro _ v _ h; simp [NumericDicts] at h
  | hsim => intro _ v _ h; exact ⟨⟨_, by rw [logAbsDetFreeing]; all_goals simp⟩, ⟨_, by rw [logAbsDetUnfreeing]; all_goals simp⟩⟩
  | hpsd => intro _ v _ h; exact ⟨⟨_, by rw [logAbsDetFreeing]; all_goals simp⟩, ⟨_, by rw [logAbsDetUnfreeing]; all_goals simp⟩⟩
  | harr s b fd ih => intro _ v _ h; exact ⟨⟨_, by rw [logAbsDetFreeing]; all_goals simp⟩, ⟨_, by rw [logAbsDetUnfreeing]; all_goals simp⟩⟩
  | hdict es l fd ih =>
    intro hw v hI hn
    cases v with
    | arr a => simp [Interior] at hI
    | dict vs =>
      simp only [Pattern.WF] at hw
      simp only [NumericDicts] at hn
      simp only [Interior] at hI
      obtain ⟨h1, h2⟩ := ih hw.2 vs hI hn
      simp only [logAbsDetFreeing, logAbsDetUnfreeing, Val.asDict, bind, Except.bind]
      exact ⟨h1 _, h2 _⟩
  | hnil hw vs hI hn => simp [NumericDictsEs] at hn
  | hcons k p r ihp ihr hw vs hI hn =>
    simp only [WFEs] at hw
    simp only [InteriorEs] at hI
    obtain ⟨⟨v, hl, hv⟩, hI⟩ := hI
    by_cases hp : NumericDicts p
    · have hr : ¬ NumericDictsEs r := fun h => hn ⟨hp, h⟩
      obtain ⟨d, _, _, _, h4, h5, _⟩ := log_det_tree (fun _ _ => .error .unmodelled) p hw.1 hp v hv
      obtain ⟨h1, h2⟩ := ihr hw.2.2 vs hI hr
      simp only [logAbsDetFreeingEs, logAbsDetUnfreeingEs, hl, h4, h5, bind, Except.bind]
      exact ⟨fun acc => h1 _, fun acc => h2 _⟩
    · obtain ⟨⟨m1, h1⟩, ⟨m2, h2⟩⟩ := ihp hw.1 v hv hp
      simp only [logAbsDetFreeingEs, logAbsDetUnfreeingEs, hl, h1, h2, bind, Except.bind]
      exact ⟨fun acc => ⟨_, rfl⟩, fun acc => ⟨_, rfl⟩⟩

end Jac

end Paragami
