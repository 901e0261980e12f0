import Mathlib.Analysis.Calculus.Deriv.Mul
import Mathlib.Analysis.Calculus.Deriv.Add
import Mathlib.Analysis.Calculus.Deriv.Inv
import Mathlib.Analysis.Complex.RealDeriv
import Mathlib.Analysis.Complex.CauchyIntegral
import Mathlib.Analysis.SpecialFunctions.Gamma.Deriv
import Mathlib.Analysis.SpecialFunctions.Log.Deriv
import Mathlib.Analysis.Calculus.IteratedDeriv.Lemmas
import Verif.Spec.Autograd
import Verif.Proofs.LinAlg
import Verif.Proofs.Optimization

/-! # Lemmas about the derivative rules -/

namespace Paragami
namespace Autograd
open NDArray LinAlg Optimization

/-! ### Indexing -/

theorem wrap_eq {N : Nat} {i : ℤ} (h : -(N : ℤ) ≤ i ∧ i < N) : wrap N i = .ok (i % N).toNat ∧ (i % N).toNat < N := by
  obtain ⟨h1, h2⟩ := h
  have hN : (0 : ℤ) < N := by omega
  have hm := Int.emod_lt_of_pos i hN
  have hp := Int.emod_nonneg i hN.ne'
  refine ⟨?_, by omega⟩
  rw [wrap]
  by_cases h0 : 0 ≤ i
  · rw [if_pos ⟨h0, h2⟩, Int.emod_eq_of_lt h0 h2]
  · rw [if_neg (by omega), if_pos ⟨by omega, h1⟩]
    congr 2
    rw [← Int.add_emod_left, Int.emod_eq_of_lt (by omega) (by omega)]

theorem wrap_denotes {N : Nat} {i : ℤ} {p : Fin N} (h : Spec.Denotes i p) : wrap N i = .ok p := by
  have hp := p.2
  rcases h with rfl | rfl
  · rw [wrap, if_pos (by omega)]; simp
  · rw [wrap, if_neg (by omega), if_pos (by omega)]
    congr 1
    omega

theorem wrap_bad {N : Nat} {i : ℤ} (h : i < -(N : ℤ) ∨ (N : ℤ) ≤ i) : wrap N i = .error .indexError := by
  rw [wrap, if_neg (by omega), if_neg (by omega)]

theorem exists_denotes {N : Nat} {i : ℤ} (h : -(N : ℤ) ≤ i ∧ i < N) : ∃ p : Fin N, Spec.Denotes i p := by
  by_cases h0 : 0 ≤ i
  · exact ⟨⟨i.toNat, by omega⟩, .inl (by simp [h0])⟩
  · refine ⟨⟨(N + i).toNat, by omega⟩, .inr ?_⟩
    simp only; omega

theorem mapE_ofFn {α β ε : Type} {n : Nat} (f : α → Except ε β) (a : Fin n → α) (b : Fin n → β) (h : ∀ i, f (a i) = .ok (b i)) :
    mapE f (List.ofFn a) = .ok (List.ofFn b) := by
  induction n with
  | zero => rfl
  | succ n ih =>
    rw [List.ofFn_succ, List.ofFn_succ, mapE, h 0]
    simp only [ih (fun i => a i.succ) (fun i => b i.succ) fun i => h i.succ]

/-! ### `grouped_sum` -/

theorem rows_flatten {α : Type} {n m : Nat} (f : Fin n → Fin m → α) :
    rows n m (List.ofFn fun i => List.ofFn (f i)).flatten = List.ofFn fun i => List.ofFn (f i) := by
  apply List.ext_getElem (by simp [rows])
  intro i h1 h2
  have hi : i < n := by simpa using h2
  simp only [rows, List.getElem_map, List.getElem_range, List.getElem_ofFn]
  apply List.ext_getElem?
  intro j
  by_cases hj : j < m
  · rw [List.getElem?_take, if_pos hj, List.getElem?_drop]
    have := flatten_ofFn_getD f ⟨i, hi⟩ ⟨j, hj⟩
    rw [this, List.getElem?_ofFn]
    simp [hj]
  · rw [List.getElem?_take, if_neg hj, List.getElem?_ofFn]
    simp [hj]

theorem addRow_eq {G D : Nat} (R : Fin G → Fin D → ℝ) (k : Fin G) (row : Fin D → ℝ) :
    addRow (List.ofFn fun g => List.ofFn (R g)) k (List.ofFn row) = List.ofFn fun g => List.ofFn fun j => R g j + if k = g then row j else 0 := by
  apply List.ext_getElem (by simp [addRow])
  intro g h1 h2
  have hg : g < G := by simpa using h2
  simp only [addRow, List.getElem_modify, List.getElem_ofFn, zipWith_ofFn]
  by_cases h : (k : Nat) = g
  · rw [if_pos h]
    have : k = ⟨g, hg⟩ := Fin.ext h
    simp [this]
  · rw [if_neg h]
    have : k ≠ ⟨g, hg⟩ := fun e => h (congrArg Fin.val e)
    simp [this]

theorem addRows_eq {G D : Nat} : ∀ (l : List (ℤ × (Fin D → ℝ))) (pos : ℤ → Fin G), (∀ p ∈ l, wrap G p.1 = .ok (pos p.1)) →
    ∀ R : Fin G → Fin D → ℝ, addRows G (l.map (·.1)) (l.map fun p => List.ofFn p.2) (List.ofFn fun g => List.ofFn (R g)) =
      .ok (List.ofFn fun g => List.ofFn fun j => R g j + (l.map fun p => if pos p.1 = g then p.2 j else 0).sum)
  | [], _, _, R => by simp [addRows]
  | p :: l, pos, h, R => by
    rw [List.map_cons, List.map_cons, addRows, h p (List.mem_cons_self ..)]
    simp only
    rw [addRow_eq, addRows_eq l pos (fun q hq => h q (List.mem_cons_of_mem _ hq))]
    simp only [List.map_cons, List.sum_cons, add_assoc]

theorem addRows_error {G : Nat} : ∀ (is : List ℤ) (rs : List (List ℝ)) (R : List (List ℝ)), is.length = rs.length →
    (∃ i ∈ is, wrap G i = .error .indexError) → addRows G is rs R = .error .indexError
  | [], _, _, _, h => by simp at h
  | i :: is, [], _, hl, _ => by simp at hl
  | i :: is, r :: rs, R, hl, ⟨i', hm, he⟩ => by
    rw [addRows]
    by_cases hi : wrap G i = .error .indexError
    · rw [hi]
    · have : ∃ k, wrap G i = .ok k := by
        by_cases h : -(G : ℤ) ≤ i ∧ i < G
        · exact ⟨_, (wrap_eq h).1⟩
        · exact absurd (wrap_bad (by omega)) hi
      obtain ⟨k, hk⟩ := this
      rw [hk]
      simp only
      refine addRows_error is rs _ (by simpa using hl) ⟨i', ?_, he⟩
      rcases List.mem_cons.mp hm with rfl | h
      · exact absurd he hi
      · exact h

theorem rowsOf_atleast1d {N : Nat} (t : List Nat) (X : Matrix (Fin N) (Fin t.prod) ℝ) : (Spec.rowsOf t X).atleast1d = Spec.rowsOf t X := rfl

theorem groupedSum_unfold {N : Nat} (t : List Nat) (X : Matrix (Fin N) (Fin t.prod) ℝ) (γ : List ℤ) (num : Option ℤ) :
    groupedSum (Spec.rowsOf t X) (vec γ) num =
      if N ≠ γ.length then .error (.valueError "The first dimension of x must match the length of groups")
      else do
        let max ← maxGroup γ
        let num ← groupCount max num
        let zeros ← zeroRows num t.prod
        let result ← addRows num.toNat γ (rows γ.length t.prod (ofMatrix X).data) zeros
        return ⟨num.toNat :: t, result.flatten⟩ := by
  have hnd : ¬ (vec γ).atleast1d.ndim > 1 := by simp [ndim, vec, atleast1d]
  simp only [groupedSum, if_neg hnd]
  rfl

theorem max?_lt {l : List ℤ} {G : ℤ} (h : ∀ i ∈ l, i < G) {m : ℤ} (hm : l.max? = some m) : m < G :=
  h m (List.max?_mem hm)

theorem le_max? {l : List ℤ} {m : ℤ} (hm : l.max? = some m) {i : ℤ} (hi : i ∈ l) : i ≤ m :=
  (List.max?_eq_some_iff.mp hm).2 i hi

/-- `grouped_sum` with every index in range. -/
theorem groupedSum_eq {N G : Nat} (t : List Nat) (X : Matrix (Fin N) (Fin t.prod) ℝ) (γ : Fin N → ℤ) (pos : Fin N → Fin G) (hN : 0 < N)
    (hγ : ∀ i, Spec.Denotes (γ i) (pos i)) {num : Option ℤ} (hnum : num = some (G : ℤ) ∨ (num = none ∧ ∃ i, γ i + 1 = G)) :
    groupedSum (Spec.rowsOf t X) (vec (List.ofFn γ)) num = .ok (Spec.rowsOf t fun g j => ∑ i, if pos i = g then X i j else 0) := by
  have hlt : ∀ i ∈ List.ofFn γ, i < (G : ℤ) := by
    intro i hi
    obtain ⟨k, rfl⟩ := (List.mem_ofFn).mp hi
    have := (pos k).2
    rcases hγ k with h | h <;> omega
  obtain ⟨m, hm⟩ : ∃ m, (List.ofFn γ).max? = some m := by
    cases h : (List.ofFn γ).max? with
    | none => rw [List.max?_eq_none_iff] at h; simp at h; omega
    | some m => exact ⟨m, rfl⟩
  have hmG := max?_lt hlt hm
  have hnum' : groupCount m num = .ok (G : ℤ) := by
    rcases hnum with rfl | ⟨rfl, i, hi⟩
    · rw [groupCount, if_neg (by omega)]
    · have := le_max? hm (List.mem_ofFn.mpr ⟨i, rfl⟩)
      rw [groupCount]
      congr 1; omega
  have hloop : addRows G (List.ofFn γ) (rows N t.prod (ofMatrix X).data) (List.replicate G (List.replicate t.prod 0)) =
      .ok (List.ofFn fun g => List.ofFn fun j => ∑ i, if pos i = g then X i j else 0) := by
    obtain ⟨i₀⟩ : Nonempty (Fin N) := ⟨⟨0, hN⟩⟩
    classical
    have key := addRows_eq (List.ofFn fun i => (γ i, X i)) (fun z => if h : ∃ i, γ i = z then pos h.choose else pos i₀) ?_ fun (_ : Fin G) _ => (0 : ℝ)
    · rw [show rows N t.prod (ofMatrix X).data = List.ofFn fun i => List.ofFn (X i) from rows_flatten _]
      simp only [List.map_ofFn, Function.comp_def, List.ofFn_const] at key
      refine (key.trans ?_)
      congr 1
      congr 1
      funext g
      congr 1
      funext j
      rw [zero_add, List.sum_ofFn]
      refine Finset.sum_congr rfl fun i _ => ?_
      have h : ∃ i', γ i' = γ i := ⟨i, rfl⟩
      have : pos h.choose = pos i := by
        have h1 := wrap_denotes (hγ h.choose)
        rw [h.choose_spec, wrap_denotes (hγ i)] at h1
        exact (Fin.ext (Except.ok.inj h1)).symm
      simp only [dif_pos h, this]
    · intro p hp
      obtain ⟨i, rfl⟩ := List.mem_ofFn.mp hp
      have h : ∃ i', γ i' = γ i := ⟨i, rfl⟩
      simp only [dif_pos h]
      have h1 := wrap_denotes (hγ h.choose)
      rwa [h.choose_spec] at h1
  have hmax : maxGroup (vec (List.ofFn γ)).data = .ok m := by
    rw [maxGroup, show (vec (List.ofFn γ)).data = List.ofFn γ from rfl, hm]
  have hzero : zeroRows (G : ℤ) t.prod = .ok (List.replicate G (List.replicate t.prod 0)) := by
    rw [zeroRows, if_neg (by omega)]; simp
  have hlen : (vec (List.ofFn γ)).len = .ok N := by simp [len, vec]
  have hsh : (Spec.rowsOf t X).shape = N :: t := rfl
  have hnd : ¬ (vec (List.ofFn γ)).atleast1d.ndim > 1 := by simp [ndim, vec, atleast1d]
  simp only [groupedSum, if_neg hnd]
  simp only [rowsOf_atleast1d, vec_atleast1d]
  simp only [hlen, hsh, hmax, hnum', List.tail_cons, hzero, List.headD_cons, ne_eq, not_true, if_false, bind, Except.bind, Int.toNat_natCast]
  have : (Spec.rowsOf t X).data = (ofMatrix X).data := rfl
  rw [this, show (vec (List.ofFn γ)).data = List.ofFn γ from rfl, hloop]
  rfl

/-- `v[groups]`. -/
theorem ungroup_eq {N G : Nat} (t : List Nat) (V : Matrix (Fin G) (Fin t.prod) ℝ) (γ : Fin N → ℤ) (pos : Fin N → Fin G) (hγ : ∀ i, Spec.Denotes (γ i) (pos i)) :
    ungroup (Spec.rowsOf t V) (vec (List.ofFn γ)) = .ok (Spec.rowsOf t fun i j => V (pos i) j) := by
  have h := mapE_ofFn (fun i => (do
      let j ← wrap G i
      return ((ofMatrix V).data.drop (j * t.prod)).take t.prod : Except Err (List ℝ))) γ (fun i => List.ofFn (V (pos i))) ?_
  · simp only [ungroup, Spec.rowsOf, vec]
    rw [h]
    simp only [bind, Except.bind, pure, Except.pure, List.length_ofFn]
    rfl
  · intro i
    simp only [wrap_denotes (hγ i), bind, Except.bind, pure, Except.pure]
    congr 1
    have hr := congrArg (fun l => l[(pos i : Nat)]?) (rows_flatten V)
    simp only [rows, List.getElem?_map, List.getElem?_ofFn] at hr
    rw [List.getElem?_range (pos i).2] at hr
    simp [(pos i).2] at hr
    exact hr

/-! ### `replace` -/

theorem assign_length : ∀ (ks : List Nat) (vs x : List ℝ), (assign x ks vs).length = x.length
  | [], _, x => by simp [assign]
  | _ :: _, [], x => by simp [assign]
  | k :: ks, v :: vs, x => by rw [assign, assign_length ks vs]; simp

theorem assign_getElem? : ∀ (ks : List Nat) (vs x : List ℝ) (p : Nat), p < x.length →
    (assign x ks vs)[p]? = match (ks.zip vs).reverse.find? (fun q => q.1 == p) with
      | some q => some q.2
      | none => x[p]?
  | [], vs, x, p, _ => by simp [assign]
  | k :: ks, [], x, p, _ => by simp [assign]
  | k :: ks, v :: vs, x, p, hp => by
    rw [assign, assign_getElem? ks vs (x.set k v) p (by simpa using hp), List.zip_cons_cons, List.reverse_cons, List.find?_append]
    cases h : (ks.zip vs).reverse.find? (fun q => q.1 == p) with
    | some q => simp
    | none =>
      simp only [Option.none_or, List.find?_singleton]
      by_cases hk : k = p
      · subst hk; simp [hp]
      · simp [hk]

/-- What `replace` computes. -/
theorem assign_replaced {N D : Nat} (xs : Fin D → ℝ) (x : Fin N → ℝ) (pos : Fin D → Fin N) :
    ∃ r : Fin N → ℝ, vec (assign (List.ofFn x) (List.ofFn fun k => (pos k : Nat)) (List.ofFn xs)) = vecOf r ∧ Spec.LastWrites xs x pos r := by
  have hz : (List.ofFn fun k => (pos k : Nat)).zip (List.ofFn xs) = List.ofFn fun k => ((pos k : Nat), xs k) := by
    rw [List.zip, zipWith_ofFn]
  obtain ⟨a, ha⟩ : ∃ a, a = assign (List.ofFn x) (List.ofFn fun k => (pos k : Nat)) (List.ofFn xs) := ⟨_, rfl⟩
  have hl : a.length = N := by rw [ha, assign_length]; simp
  have hget : ∀ p : Fin N, a[(p : Nat)]? = match (List.ofFn fun k => ((pos k : Nat), xs k)).reverse.find? (fun q => q.1 == (p : Nat)) with
      | some q => some q.2
      | none => some (x p) := by
    intro p
    rw [ha, assign_getElem? _ _ _ _ (by simp), hz]
    cases (List.ofFn fun k => ((pos k : Nat), xs k)).reverse.find? (fun q => q.1 == (p : Nat)) <;> simp
  refine ⟨toVec N (vec a), ?_, ?_, ?_⟩
  · rw [← ha, vecOf_toVec (by simp [vec, hl]) (by simp [NDArray.WF, vec])]
  · intro k hk
    have h1 : (List.ofFn fun k => ((pos k : Nat), xs k)).reverse.find? (fun q => q.1 == (pos k : Nat)) = some ((pos k : Nat), xs k) := by
      rw [List.find?_eq_some_iff_append]
      refine ⟨by simp, ((List.ofFn fun k => ((pos k : Nat), xs k)).drop (k + 1)).reverse, ((List.ofFn fun k => ((pos k : Nat), xs k)).take k).reverse, ?_, ?_⟩
      · have : List.ofFn (fun k => ((pos k : Nat), xs k)) = (List.ofFn fun k => ((pos k : Nat), xs k)).take k ++
            ((pos k : Nat), xs k) :: (List.ofFn fun k => ((pos k : Nat), xs k)).drop (k + 1) := by
          conv_lhs => rw [← List.take_append_drop k (List.ofFn fun k => ((pos k : Nat), xs k))]
          congr 1
          rw [List.drop_eq_getElem_cons (by simp)]
          simp
        conv_lhs => rw [this]
        rw [List.reverse_append, List.reverse_cons]
        simp
      · intro q hq
        rw [List.mem_reverse, List.mem_drop_iff_getElem] at hq
        obtain ⟨i, hi, rfl⟩ := hq
        simp only [List.getElem_ofFn, Bool.not_eq_true', beq_eq_false_iff_ne]
        intro h
        have hi' : k + 1 + i < D := by simp at hi; omega
        exact hk ⟨k + 1 + i, hi'⟩ (by simp [Fin.lt_def]; omega) (Fin.ext h)
    have := hget (pos k)
    rw [h1] at this
    simp [toVec, vec, this]
  · intro p hp
    have h1 : (List.ofFn fun k => ((pos k : Nat), xs k)).reverse.find? (fun q => q.1 == (p : Nat)) = none := by
      rw [List.find?_eq_none]
      intro q hq
      rw [List.mem_reverse, List.mem_ofFn] at hq
      obtain ⟨k, rfl⟩ := hq
      have : (pos k : Nat) ≠ p := fun h => hp k (Fin.ext h)
      simpa using this
    have := hget p
    rw [h1] at this
    simp [toVec, vec, this]

/-- The positions determine the result. -/
theorem LastWrites.unique {N D : Nat} {xs : Fin D → ℝ} {x : Fin N → ℝ} {pos : Fin D → Fin N} {r r' : Fin N → ℝ} (h : Spec.LastWrites xs x pos r)
    (h' : Spec.LastWrites xs x pos r') : r = r' := by
  funext p
  by_cases hp : ∀ k, pos k ≠ p
  · rw [h.2 p hp, h'.2 p hp]
  · push Not at hp
    obtain ⟨k, hk⟩ := last_index hp
    rw [← hk.1, h.1 k (by rw [hk.1]; exact hk.2), h'.1 k (by rw [hk.1]; exact hk.2)]
where
  last_index {N D : Nat} {pos : Fin D → Fin N} {p : Fin N} (hp : ∃ k, pos k = p) : ∃ k, pos k = p ∧ ∀ k', k < k' → pos k' ≠ p := by
    classical
    have hne : (Finset.univ.filter fun k => pos k = p).Nonempty := by
      obtain ⟨k, hk⟩ := hp
      exact ⟨k, by simpa using hk⟩
    refine ⟨(Finset.univ.filter fun k => pos k = p).max' hne, ?_, fun k' hlt he => ?_⟩
    · have := Finset.max'_mem _ hne
      simpa using this
    · have := Finset.le_max' (Finset.univ.filter fun k => pos k = p) k' (by simpa using he)
      exact absurd hlt (not_lt.mpr this)

theorem replace_eq {N D : Nat} (xs : Fin D → ℝ) (x : Fin N → ℝ) (inds : Fin D → ℤ) (pos : Fin D → Fin N) (h : ∀ k, Spec.Denotes (inds k) (pos k)) :
    ∃ r, replace (vecOf xs) (vecOf x) (List.ofFn inds) = .ok (vecOf r) ∧ Spec.LastWrites xs x pos r := by
  obtain ⟨r, h1, h2⟩ := assign_replaced xs x pos
  refine ⟨r, ?_, h2⟩
  have hm := mapE_ofFn (wrap N) inds (fun k => (pos k : Nat)) fun k => wrap_denotes (h k)
  rw [← h1]
  simp only [replace, vecOf_shape, List.length_ofFn, if_true, List.length_singleton, vecOf_data, hm]
  simp

theorem replace_scalar {N D : Nat} (c : ℝ) (x : Fin N → ℝ) (inds : Fin D → ℤ) (pos : Fin D → Fin N) (h : ∀ k, Spec.Denotes (inds k) (pos k)) :
    ∃ r, replace ⟨[], [c]⟩ (vecOf x) (List.ofFn inds) = .ok (vecOf r) ∧ Spec.LastWrites (fun _ => c) x pos r := by
  obtain ⟨r, h1, h2⟩ := assign_replaced (fun _ => c) x pos
  refine ⟨r, ?_, h2⟩
  have hm := mapE_ofFn (wrap N) inds (fun k => (pos k : Nat)) fun k => wrap_denotes (h k)
  rw [← h1]
  simp only [replace, vecOf_shape, List.length_ofFn, vecOf_data, hm, List.headD_cons, List.ofFn_const]
  simp

theorem gather_eq {N D : Nat} (g : Fin N → ℝ) (inds : Fin D → ℤ) (pos : Fin D → Fin N) (h : ∀ k, Spec.Denotes (inds k) (pos k)) :
    gather (vecOf g) (List.ofFn inds) = .ok (vecOf fun k => g (pos k)) := by
  have hm := mapE_ofFn (fun i => (do
      let j ← wrap N i
      return (List.ofFn g).getD j 0 : Except Err ℝ)) inds (fun k => g (pos k)) fun k => by
    simp [wrap_denotes (h k), bind, Except.bind, pure, Except.pure]
  simp only [gather, vecOf_shape, vecOf_data]
  rw [hm]
  rfl

/-! ### Determinants and inverses -/

/-- Jacobi's formula. -/
theorem hasDerivAt_det {n : Nat} {A : ℝ → Matrix (Fin n) (Fin n) ℝ} {G : Matrix (Fin n) (Fin n) ℝ} {t : ℝ} (h : Spec.Velocity A G t) :
    HasDerivAt (fun s => (A s).det) ((A t).adjugate * G).trace t := by
  have h1 : ∀ s, (A s).det = ∑ σ : Equiv.Perm (Fin n), ((Equiv.Perm.sign σ : ℤ) : ℝ) * ∏ i, A s (σ i) i := fun s => Matrix.det_apply' _
  simp only [h1]
  have h2 : HasDerivAt (fun s => ∑ σ : Equiv.Perm (Fin n), ((Equiv.Perm.sign σ : ℤ) : ℝ) * ∏ i, A s (σ i) i)
      (∑ σ : Equiv.Perm (Fin n), ((Equiv.Perm.sign σ : ℤ) : ℝ) * ∑ i, (∏ j ∈ Finset.univ.erase i, A t (σ j) j) • G (σ i) i) t :=
    HasDerivAt.fun_sum fun σ _ => (HasDerivAt.fun_finsetProd fun i _ => h (σ i) i).const_mul _
  refine h2.congr_deriv ?_
  simp only [Matrix.trace, Matrix.diag_apply, Finset.mul_sum]
  rw [Finset.sum_comm]
  refine Finset.sum_congr rfl fun i _ => ?_
  have h3 : ((A t).adjugate * G) i i = ((A t).updateCol i fun k => G k i).det := by
    rw [← Matrix.cramer_apply, Matrix.cramer_eq_adjugate_mulVec]
    rfl
  rw [h3, Matrix.det_apply']
  refine Finset.sum_congr rfl fun σ _ => ?_
  congr 1
  rw [← Finset.mul_prod_erase Finset.univ _ (Finset.mem_univ i)]
  rw [Matrix.updateCol_self, smul_eq_mul, mul_comm]
  congr 1
  refine Finset.prod_congr rfl fun j hj => ?_
  rw [Matrix.updateCol_ne (Finset.ne_of_mem_erase hj)]

theorem eventually_det {n : Nat} {A : ℝ → Matrix (Fin n) (Fin n) ℝ} {G : Matrix (Fin n) (Fin n) ℝ} {t : ℝ} (h : Spec.Velocity A G t) (h0 : (A t).det ≠ 0) :
    ∀ᶠ s in nhds t, (A s).det ≠ 0 :=
  (hasDerivAt_det h).continuousAt.eventually_ne h0

theorem velocity_mulVec {n m : Nat} (A : Matrix (Fin m) (Fin n) ℝ) {b : ℝ → Fin n → ℝ} {b' : Fin n → ℝ} {t : ℝ} (hb : Spec.VelocityVec b b' t) :
    Spec.VelocityVec (fun s => A.mulVec (b s)) (A.mulVec b') t := by
  intro i
  show HasDerivAt (fun s => ∑ j, A i j * b s j) (∑ j, A i j * b' j) t
  exact HasDerivAt.fun_sum fun j _ => (hb j).const_mul _

theorem velocity_mul {n m k : Nat} {A : ℝ → Matrix (Fin n) (Fin m) ℝ} {B : ℝ → Matrix (Fin m) (Fin k) ℝ} {G H t} (hA : Spec.Velocity A G t)
    (hB : Spec.Velocity B H t) : Spec.Velocity (fun s => A s * B s) (G * B t + A t * H) t := by
  intro i j
  simp only [Matrix.mul_apply, Matrix.add_apply]
  rw [← Finset.sum_add_distrib]
  exact HasDerivAt.fun_sum fun l _ => (hA i l).mul (hB l j)

/-- The derivative of the inverse. -/
theorem velocity_inv {n : Nat} {A : ℝ → Matrix (Fin n) (Fin n) ℝ} {G : Matrix (Fin n) (Fin n) ℝ} {t : ℝ} (h : Spec.Velocity A G t) (h0 : (A t).det ≠ 0) :
    Spec.Velocity (fun s => (A s)⁻¹) (-((A t)⁻¹ * G * (A t)⁻¹)) t := by
  have hadj : ∀ i j, DifferentiableAt ℝ (fun s => (A s).adjugate i j) t := by
    intro i j
    have hv : Spec.Velocity (fun s => (A s).updateRow j (Pi.single i 1)) (G.updateRow j 0) t := by
      intro a b
      by_cases ha : a = j
      · subst ha
        simp only [Matrix.updateRow_self]
        exact hasDerivAt_const _ _
      · simp only [Matrix.updateRow_ne ha]
        exact h a b
    have : (fun s => (A s).adjugate i j) = fun s => ((A s).updateRow j (Pi.single i 1)).det := by
      funext s; exact Matrix.adjugate_apply _ _ _
    rw [this]
    exact (hasDerivAt_det hv).differentiableAt
  have hinv : ∀ i j, DifferentiableAt ℝ (fun s => (A s)⁻¹ i j) t := by
    intro i j
    have e : (fun s => (A s)⁻¹ i j) = fun s => ((A s).det)⁻¹ * (A s).adjugate i j := by
      funext s
      rw [Matrix.inv_def, Matrix.smul_apply, Ring.inverse_eq_inv', smul_eq_mul]
    rw [e]
    exact ((hasDerivAt_det h).differentiableAt.inv h0).mul (hadj i j)
  obtain ⟨R, hR⟩ : ∃ R : Matrix (Fin n) (Fin n) ℝ, R = Matrix.of fun i j => deriv (fun s => (A s)⁻¹ i j) t := ⟨_, rfl⟩
  have hv : Spec.Velocity (fun s => (A s)⁻¹) R t := by
    intro i j
    rw [hR]
    exact (hinv i j).hasDerivAt
  have hu : IsUnit (A t).det := isUnit_iff_ne_zero.mpr h0
  have hprod := velocity_mul h hv
  have hz : G * (A t)⁻¹ + A t * R = 0 := by
    ext i j
    have h1 := hprod i j
    have h2 : HasDerivAt (fun s => (A s * (A s)⁻¹) i j) 0 t := by
      refine (hasDerivAt_const t ((1 : Matrix (Fin n) (Fin n) ℝ) i j)).congr_of_eventuallyEq ?_
      filter_upwards [eventually_det h h0] with s hs
      rw [Matrix.mul_nonsing_inv _ (isUnit_iff_ne_zero.mpr hs)]
    exact h1.unique h2
  have hR' : R = -((A t)⁻¹ * G * (A t)⁻¹) := by
    have h1 : A t * R = -(G * (A t)⁻¹) := by
      rw [eq_neg_iff_add_eq_zero, add_comm]; exact hz
    have h2 := congrArg ((A t)⁻¹ * ·) h1
    simp only [← Matrix.mul_assoc, Matrix.nonsing_inv_mul _ hu, Matrix.one_mul, Matrix.mul_neg] at h2
    exact h2
  rwa [hR'] at hv

theorem solve_vec {n : Nat} {A : Matrix (Fin n) (Fin n) ℝ} (h : A.det ≠ 0) (b : Fin n → ℝ) : solve (ofMatrix A) (vecOf b) = .ok (vecOf (A⁻¹.mulVec b)) := by
  rw [solve, if_pos (by simp [NDArray.ndim, vecOf_shape, ofMatrix_shape]), inv_mat, if_neg h]
  exact matmul_vec _ _

theorem solve_mat {n m : Nat} {A : Matrix (Fin n) (Fin n) ℝ} (h : A.det ≠ 0) (B : Matrix (Fin n) (Fin m) ℝ) :
    solve (ofMatrix A) (ofMatrix B) = .ok (ofMatrix (A⁻¹ * B)) := by
  rw [solve, if_pos (by simp [NDArray.ndim, ofMatrix_shape]), inv_mat, if_neg h]
  exact matmul_mat _ _

theorem mulAny_mat {n m k : Nat} (A : Matrix (Fin n) (Fin m) ℝ) (B : Matrix (Fin m) (Fin k) ℝ) :
    mulAny (ofMatrix A) (ofMatrix B) = .ok (ofMatrix (A * B)) := by
  rw [mulAny, if_pos (by simp [NDArray.ndim, ofMatrix_shape]), matmul_mat]

theorem neg_mat {n m : Nat} (A : Matrix (Fin n) (Fin m) ℝ) : neg (ofMatrix A) = ofMatrix (-A) := by
  simp only [neg, NDArray.map, ofMatrix, List.map_flatten, List.map_ofFn, Function.comp_def]
  rfl

theorem neg_vecOf {n : Nat} (v : Fin n → ℝ) : neg (vecOf v) = vecOf (-v) := map_vec _ v

/-- A vector as a matrix with one column. -/
def colOf {n : Nat} (v : Fin n → ℝ) : Matrix (Fin n) (Fin 1) ℝ := Matrix.of fun i _ => v i

theorem col_data {n : Nat} (v : Fin n → ℝ) : (ofMatrix (colOf v)).data = List.ofFn v := by
  have : ∀ i, List.ofFn (colOf v i) = [v i] := fun i => by simp [colOf, List.ofFn_succ]
  simp only [ofMatrix, this]
  rw [List.ofFn_eq_map, ← List.flatMap_def, ← List.map_eq_flatMap, List.ofFn_eq_map]

theorem broadcastMatmul_vec {n m : Nat} (M : Matrix (Fin n) (Fin m) ℝ) (v : Fin m → ℝ) : broadcastMatmul (ofMatrix M) (vecOf v) = .ok (vecOf (M.mulVec v)) := by
  have hnd : ¬ (vecOf v).ndim = (ofMatrix M).ndim := by simp [NDArray.ndim, vecOf_shape, ofMatrix_shape]
  have hcol : (⟨(vecOf v).shape ++ [1], (vecOf v).data⟩ : NDArray ℝ) = ofMatrix (colOf v) := by
    rw [vecOf_shape, vecOf_data, ← col_data]; rfl
  have hmul : M * colOf v = colOf (M.mulVec v) := rfl
  simp only [broadcastMatmul, if_neg hnd, newAxis]
  rw [hcol, mulAny, if_pos (by simp [NDArray.ndim, ofMatrix_shape]), matmul_mat, hmul]
  simp only [dropAxis, bind, Except.bind, ofMatrix_shape, col_data, List.reverse_cons, List.reverse_nil, List.nil_append, List.cons_append]
  simp [vecOf, vec]

/-! ### Gamma -/

theorem contDiffAt_Gamma {x : ℝ} (hx : ∀ m : ℕ, x ≠ -m) {n : WithTop ℕ∞} : ContDiffAt ℝ n Real.Gamma x := by
  have h : AnalyticAt ℂ Complex.Gamma (x : ℂ) := by
    rw [Complex.analyticAt_iff_eventually_differentiableAt]
    have : ∀ᶠ z in nhds (x : ℂ), ∀ m : ℕ, z ≠ -(m : ℂ) := by
      have hm : (x : ℂ) ∈ (Complex.re ⁻¹' Set.range fun m : ℕ => -(m : ℝ))ᶜ := by
        rintro ⟨m, hm⟩
        exact hx m hm.symm
      filter_upwards [(closed_neg_nat.preimage Complex.continuous_re).isOpen_compl.mem_nhds hm] with z hz m hzm
      exact hz ⟨m, by simp [hzm]⟩
    filter_upwards [this] with z hz
    exact Complex.differentiableAt_Gamma z hz
  exact (h.contDiffAt (n := n)).real_of_complex
where
  closed_neg_nat : IsClosed (Set.range fun m : ℕ => -(m : ℝ)) := by
    have h1 : IsClosed (Set.range fun m : ℕ => (m : ℝ)) := Nat.isClosedEmbedding_coe_real.isClosed_range
    have : (Set.range fun m : ℕ => -(m : ℝ)) = (fun z : ℝ => -z) ⁻¹' (Set.range fun m : ℕ => (m : ℝ)) := by
      ext z
      constructor
      · rintro ⟨m, rfl⟩; exact ⟨m, by simp⟩
      · rintro ⟨m, hm⟩
        refine ⟨m, ?_⟩
        simp only at hm ⊢
        rw [hm, neg_neg]
    rw [this]
    exact h1.preimage continuous_neg

theorem gammaln_smooth {x : ℝ} (hx : ∀ m : ℕ, x ≠ -m) {n : WithTop ℕ∞} : ContDiffAt ℝ n gammaln x :=
  (contDiffAt_Gamma hx).log (Real.Gamma_ne_zero hx)

theorem eventually_nonpole {x : ℝ} (hx : ∀ m : ℕ, x ≠ -m) : ∀ᶠ y in nhds x, ∀ m : ℕ, y ≠ -(m : ℝ) := by
  filter_upwards [contDiffAt_Gamma.closed_neg_nat.isOpen_compl.mem_nhds (show x ∈ (Set.range fun m : ℕ => -(m : ℝ))ᶜ by
    rintro ⟨m, hm⟩; exact hx m hm.symm)] with y hy m hym
  exact hy ⟨m, hym.symm⟩

theorem hasDerivAt_gammaln {x : ℝ} (hx : ∀ m : ℕ, x ≠ -m) : HasDerivAt gammaln (psi x) x :=
  ((gammaln_smooth (n := 1) hx).differentiableAt (by simp)).hasDerivAt

theorem hasDerivAt_Gamma {x : ℝ} (hx : ∀ m : ℕ, x ≠ -m) : HasDerivAt Real.Gamma (Real.Gamma x * psi x) x := by
  have h := (Real.differentiableAt_Gamma hx).hasDerivAt
  have h' := (h.log (Real.Gamma_ne_zero hx)).unique (hasDerivAt_gammaln hx)
  rw [div_eq_iff (Real.Gamma_ne_zero hx), mul_comm] at h'
  rwa [h'] at h

theorem polygamma_eq (n : Nat) (x : ℝ) : polygamma n x = iteratedDeriv (n + 1) gammaln x := by
  rw [polygamma, iteratedDeriv_succ']
  rfl

theorem hasDerivAt_polygamma {x : ℝ} (hx : ∀ m : ℕ, x ≠ -m) (n : Nat) : HasDerivAt (polygamma n) (polygamma (n + 1) x) x := by
  have e : polygamma n = iteratedDeriv (n + 1) gammaln := funext (polygamma_eq n)
  have h := (((gammaln_smooth hx).analyticAt).iterated_deriv (n + 1)).differentiableAt.hasDerivAt
  rw [← iteratedDeriv_eq_iterate, ← iteratedDeriv_succ] at h
  rwa [e, polygamma_eq]

end Autograd
end Paragami
