import Verif.Spec.PrecondMemory
import Verif.Proofs.LinAlg
import Verif.Proofs.NonfreeTrip

/-!
# C117: which arrays a `PreconditionedFunction` holds on to, and which ones the original function sees
-/

set_option linter.unusedSimpArgs false

namespace Paragami
open Optimization Spec NDArray LinAlg

variable {Y : Type} {eigh : Eigh} {autoHessian : NDArray ℝ → Except Err MatArg} {f : Nat → HM Y}

theorem outcome_new (r : Except Err (NDArray ℝ)) (h : Heap) : outcome (newArray r h) = r := by
  cases r <;> simp [newArray, outcome, Except.map, Heap.read]

theorem read_append {h : Heap} {t : List MatArg} {i : Nat} (hi : i < h.length) : Heap.read (h ++ t) i = h.read i := by
  simp [Heap.read, List.getD_eq_getElem?_getD, List.getElem?_append_left hi]

theorem read_new (h : Heap) (c : MatArg) : Heap.read (h ++ [c]) h.length = c := by simp [Heap.read]

theorem read_newArray {r : Except Err (NDArray ℝ)} {h : Heap} {i : Nat} (hi : i < h.length) :
    Heap.read (newArray r h).2 i = h.read i := by
  cases r with
  | error e => rfl
  | ok a => exact read_append hi

theorem keeps_step {s : HeldPrecond} {h : Heap} {o : HeldOp} (ho : Keeps o) : (s.step eigh autoHessian f h o).1 = s := by
  cases o <;> first | rfl | exact absurd ho (by simp [Keeps])

theorem keeps_run {s : HeldPrecond} {h : Heap} {l : List HeldOp} (hl : ∀ o ∈ l, Keeps o) :
    (s.run eigh autoHessian f h l).1 = s := by
  induction l generalizing s h with
  | nil => rfl
  | cons o l ih =>
    rw [HeldPrecond.run]
    rw [ih fun o' ho' => hl o' (List.mem_cons_of_mem _ ho')]
    exact keeps_step (hl o List.mem_cons_self)

theorem setMatrix_held {a : Nat} {b : Option Nat} {h : Heap} {s : HeldPrecond} (hs : HeldPrecond.setMatrix a b h = .ok s) :
    s.aTimes = (if (h.read a).sparse then .sparse a else .dense a) ∧
    (∀ b', b = some b' → s.aInvTimes = if (h.read a).sparse then .sparse b' else .dense b') ∧
    (b = none → ∃ ai, invOf (h.read a) = .ok ai ∧ s.aInvTimes = .own (timesOf (h.read a) ai)) := by
  unfold HeldPrecond.setMatrix at hs
  cases hsp : (h.read a).sparse with
  | true =>
    simp only [hsp, if_true] at hs ⊢
    cases b with
    | none =>
      simp only at hs
      obtain ⟨ai, h1, hs⟩ := Pattern.bind_ok hs
      obtain ⟨_, _, hs⟩ := Pattern.bind_ok hs
      obtain ⟨_, _, hs⟩ := Pattern.bind_ok hs
      cases hs
      exact ⟨rfl, (by rintro b' h; cases h), fun _ => ⟨ai, by simp [invOf, hsp, h1], by simp [timesOf, hsp]⟩⟩
    | some b =>
      simp only at hs
      obtain ⟨_, _, hs⟩ := Pattern.bind_ok hs
      obtain ⟨_, _, hs⟩ := Pattern.bind_ok hs
      cases hs
      exact ⟨rfl, by rintro b' h; cases h; rfl, by rintro h; cases h⟩
  | false =>
    simp only [hsp, Bool.false_eq_true, if_false] at hs ⊢
    cases b with
    | none =>
      simp only at hs
      obtain ⟨ai, h1, hs⟩ := Pattern.bind_ok hs
      cases hs
      exact ⟨rfl, (by rintro b' h; cases h), fun _ => ⟨ai, by simp [invOf, hsp, h1], by simp [timesOf, hsp]⟩⟩
    | some b =>
      cases hs
      exact ⟨rfl, by rintro b' h; cases h; rfl, by rintro h; cases h⟩

/-- **C117, when it is set.**  `set_preconditioner_matrix` and `set_preconditioner_with_hessian` with array objects raise exactly when
the value-level model says, for the contents the objects have at that time. -/
theorem C117_raises (a : Nat) (b x hess : Option Nat) (l u : Option Threshold) (h : Heap) (e : Err) :
    (HeldPrecond.setMatrix a b h = .error e ↔ Precond.setMatrix (h.read a) (b.map h.read) = .error e) ∧
    (HeldPrecond.withHessian eigh autoHessian x hess l u h = .error e ↔
      Precond.withHessian eigh autoHessian (x.map fun i => (h.read i).arr) (hess.map h.read) l u = .error e) := by
  constructor
  · unfold HeldPrecond.setMatrix Precond.setMatrix
    cases (h.read a).sparse with
    | true =>
      simp only [if_true]
      cases b with
      | none =>
        simp only [Option.map_none, bind, Except.bind, pure, Except.pure]
        cases sparseInv (h.read a).arr with
        | error e' => simp
        | ok ai =>
          simp only
          cases checkSparse (h.read a).arr with
          | error e' => simp
          | ok _ => cases checkSparse ai <;> simp
      | some b =>
        simp only [Option.map_some, bind, Except.bind, pure, Except.pure]
        cases checkSparse (h.read a).arr with
        | error e' => simp
        | ok _ => cases checkSparse (h.read b).arr <;> simp
    | false =>
      simp only [Bool.false_eq_true, if_false]
      cases b with
      | none =>
        simp only [Option.map_none, bind, Except.bind, pure, Except.pure]
        cases inv (h.read a).arr <;> simp
      | some b => simp [bind, Except.bind, pure, Except.pure]
  · unfold HeldPrecond.withHessian Precond.withHessian
    cases x <;> cases hess <;>
      simp only [Option.map_none, Option.map_some, Option.isSome_none, Option.isSome_some, Bool.false_eq_true, false_and, and_false,
        and_self, if_false, if_true, bind, Except.bind, pure, Except.pure, throw, throwThe, MonadExceptOf.throw]
    · simp
    · rename_i i
      cases (h.read i).sparse <;> simp
      cases symMatrixInvSqrtFuncs eigh (h.read i).arr l u <;> simp
    · rename_i i
      cases autoHessian (h.read i).arr with
      | error e' => simp
      | ok hh =>
        simp only
        cases hh.sparse <;> simp
        cases symMatrixInvSqrtFuncs eigh hh.arr l u <;> simp
    · simp

/-- **C117, matrices are held by reference.**  After `set_preconditioner_matrix(a, a_inv)` and any uses and writes, `unprecondition`
(and so a call of the function) multiplies by what `a` contains *now*.  `precondition` multiplies by what `a_inv` contains now, if it was given, and otherwise by the
inverse of what `a` contained when it was set. -/
theorem C117_matrix {a : Nat} {b : Option Nat} {h : Heap} {s s0 : HeldPrecond} (hs : HeldPrecond.setMatrix a b h = .ok s0)
    {o : HeldOp} (ho : o = .setMatrix a b ∨ o = .setDeprecated a b) {l : List HeldOp} (hl : ∀ o ∈ l, Keeps o) {s' : HeldPrecond} {h' : Heap}
    (hr : s.run eigh autoHessian f h (o :: l) = (s', h')) (v : Nat) :
    outcome (s'.unprecondition v h') = timesOf (h.read a) (h'.read a).arr (h'.read v).arr ∧
    (∀ {Z : Type} (g : Nat → HM Z) (gV : NDArray ℝ → Except Err Z), Reads g gV →
      (s'.call g v h').1 = (timesOf (h.read a) (h'.read a).arr (h'.read v).arr >>= gV)) ∧
    (∀ b', b = some b' → outcome (s'.precondition v h') = timesOf (h.read a) (h'.read b').arr (h'.read v).arr) ∧
    (b = none → ∃ ai, invOf (h.read a) = .ok ai ∧ outcome (s'.precondition v h') = timesOf (h.read a) ai (h'.read v).arr) := by
  have e : (s.step eigh autoHessian f h o).1 = s0 := by
    rcases ho with rfl | rfl <;> simp [HeldPrecond.step, hs, HeldPrecond.orElse]
  have hs' : s' = s0 := by
    rw [HeldPrecond.run] at hr
    have := keeps_run (eigh := eigh) (autoHessian := autoHessian) (f := f) (s := (s.step eigh autoHessian f h o).1)
      (h := (s.step eigh autoHessian f h o).2) hl
    rw [hr, e] at this
    exact this
  subst hs'
  obtain ⟨h1, h2, h3⟩ := setMatrix_held hs
  have hu : s'.unprecondition v h' = newArray (timesOf (h.read a) (h'.read a).arr (h'.read v).arr) h' := by
    rw [HeldPrecond.unprecondition, h1]
    cases hsp : (h.read a).sparse <;> simp [Held.apply, timesOf, hsp]
  refine ⟨?_, ?_, ?_, ?_⟩
  · rw [hu, outcome_new]
  · intro Z g gV hg
    rw [HeldPrecond.call, hu]
    cases timesOf (h.read a) (h'.read a).arr (h'.read v).arr with
    | error e => rfl
    | ok c =>
      simp only [newArray, bind, Except.bind]
      rw [hg, read_new]
  · intro b' hb
    rw [HeldPrecond.precondition, h2 b' hb]
    cases hsp : (h.read a).sparse <;> simp [Held.apply, timesOf, hsp, outcome_new]
  · intro hb
    obtain ⟨ai, h4, h5⟩ := h3 hb
    exact ⟨ai, h4, by rw [HeldPrecond.precondition, h5]; simp [Held.apply, outcome_new]⟩

theorem withHessian_held {x hess : Option Nat} {lo hi : Option Threshold} {h : Heap} {s : HeldPrecond}
    (hs : HeldPrecond.withHessian eigh autoHessian x hess lo hi h = .ok s) :
    ∃ P, Precond.withHessian eigh autoHessian (x.map fun i => (h.read i).arr) (hess.map h.read) lo hi = .ok P ∧
      s = ⟨.own P.aTimes, .own P.aInvTimes⟩ := by
  unfold HeldPrecond.withHessian at hs
  unfold Precond.withHessian
  cases x <;> cases hess <;>
    simp only [Option.map_none, Option.map_some, Option.isSome_none, Option.isSome_some, Bool.false_eq_true, false_and, and_false,
      and_self, if_false, if_true, bind, Except.bind, pure, Except.pure, throw, throwThe, MonadExceptOf.throw, reduceCtorEq] at hs ⊢
  · rename_i i
    cases hsp : (h.read i).sparse <;> simp [hsp] at hs ⊢
    cases hf : symMatrixInvSqrtFuncs eigh (h.read i).arr lo hi with
    | error e => simp [hf] at hs
    | ok q => simp [hf] at hs ⊢; exact hs.symm
  · rename_i i
    cases ha : autoHessian (h.read i).arr with
    | error e => simp [ha] at hs
    | ok hh =>
      simp only [ha] at hs ⊢
      cases hsp : hh.sparse <;> simp [hsp] at hs ⊢
      cases hf : symMatrixInvSqrtFuncs eigh hh.arr lo hi with
      | error e => simp [hf] at hs
      | ok q => simp [hf] at hs ⊢; exact hs.symm

/-- **C117, Hessians are not.**  After `set_preconditioner_with_hessian`, whatever is written to the Hessian (or anything else), both
operators are those computed from the contents at that time. -/
theorem C117_hessian {x hess : Option Nat} {lo hi : Option Threshold} {h : Heap} {s : HeldPrecond} {P : Precond}
    (hP : Precond.withHessian eigh autoHessian (x.map fun i => (h.read i).arr) (hess.map h.read) lo hi = .ok P)
    {l : List HeldOp} (hl : ∀ o ∈ l, Keeps o) {s' : HeldPrecond} {h' : Heap}
    (hr : s.run eigh autoHessian f h (.withHessian x hess lo hi :: l) = (s', h')) (v : Nat) :
    outcome (s'.unprecondition v h') = P.unprecondition (h'.read v).arr ∧
    outcome (s'.precondition v h') = P.precondition (h'.read v).arr := by
  cases hw : HeldPrecond.withHessian eigh autoHessian x hess lo hi h with
  | error e =>
    have := (C117_raises (eigh := eigh) (autoHessian := autoHessian) 0 none x hess lo hi h e).2.mp hw
    rw [hP] at this; cases this
  | ok s0 =>
    obtain ⟨P', hP', rfl⟩ := withHessian_held hw
    rw [hP] at hP'; cases hP'
    have e : (s.step eigh autoHessian f h (.withHessian x hess lo hi)).1 = ⟨.own P.aTimes, .own P.aInvTimes⟩ := by
      simp [HeldPrecond.step, hw, HeldPrecond.orElse]
    have hs' : s' = ⟨.own P.aTimes, .own P.aInvTimes⟩ := by
      rw [HeldPrecond.run] at hr
      have := keeps_run (eigh := eigh) (autoHessian := autoHessian) (f := f)
        (s := (s.step eigh autoHessian f h (.withHessian x hess lo hi)).1)
        (h := (s.step eigh autoHessian f h (.withHessian x hess lo hi)).2) hl
      rw [hr, e] at this
      exact this
    subst hs'
    exact ⟨by simp [HeldPrecond.unprecondition, Precond.unprecondition, Held.apply, outcome_new],
      by simp [HeldPrecond.precondition, Precond.precondition, Held.apply, outcome_new]⟩

/-- **C117, a stale inverse.**  Set a non-singular matrix without an inverse, and use the object and write to its arrays in any way.
Then the two operators are inverse to each other exactly if the matrix array holds what it held: in that case `check_preconditioner`
accepts every vector and every tolerance that is not negative, and otherwise it rejects, for every tolerance, some vector. -/
theorem C117_stale {n : Nat} {M M' : Matrix (Fin n) (Fin n) ℝ} {a : Nat} {h : Heap} (ha : h.read a = ⟨ofMatrix M, false⟩) (hM : M.det ≠ 0)
    {s s' : HeldPrecond} {h' : Heap} {l : List HeldOp} (hl : ∀ o ∈ l, Keeps o)
    (hr : s.run eigh autoHessian f h (.setMatrix a none :: l) = (s', h')) (ha' : h'.read a = ⟨ofMatrix M', false⟩) (hlt : a < h'.length) :
    (M' = M → ∀ (x : Fin n → ℝ) (tol : ℝ), 0 ≤ tol → (s'.check h'.length tol (h' ++ [⟨vecOf x, false⟩])).1 = .ok ()) ∧
    (M' ≠ M → ∀ tol : ℝ, ∃ x : Fin n → ℝ, ∃ msg,
      (s'.check h'.length tol (h' ++ [⟨vecOf x, false⟩])).1 = .error (.valueError msg)) := by
  have hset : HeldPrecond.setMatrix a none h = .ok ⟨.dense a, .own (matmul (ofMatrix M⁻¹))⟩ := by
    simp only [HeldPrecond.setMatrix, ha, Bool.false_eq_true, if_false, inv_mat, hM]; rfl
  have hs' : s' = ⟨.dense a, .own (matmul (ofMatrix M⁻¹))⟩ := by
    rw [HeldPrecond.run] at hr
    have := keeps_run (eigh := eigh) (autoHessian := autoHessian) (f := f) (s := (s.step eigh autoHessian f h (.setMatrix a none)).1)
      (h := (s.step eigh autoHessian f h (.setMatrix a none)).2) hl
    rw [hr] at this
    refine this.trans ?_
    simp [HeldPrecond.step, hset, HeldPrecond.orElse]
  subst hs'
  let V : (Fin n → ℝ) → MatArg := fun x => ⟨vecOf x, false⟩
  have hV : ∀ x, (V x).arr = vecOf x := fun _ => rfl
  have hV' : ∀ x, (⟨vecOf x, false⟩ : MatArg) = V x := fun _ => rfl
  have key : ∀ (x : Fin n → ℝ) (tol : ℝ), ((⟨.dense a, .own (matmul (ofMatrix M⁻¹))⟩ : HeldPrecond).check h'.length tol
      (h' ++ [V x])).1 = if norm (vecOf (x - M'.mulVec (M⁻¹.mulVec x))) > tol then
        .error (.valueError "``a_times`` does not invert ``a_inv_times``.") else .ok () := by
    intro x tol
    have e1 : Heap.read (h' ++ [V x]) h'.length = V x := read_new _ _
    have e2 : Heap.read (h' ++ [V x] ++ [V (M⁻¹.mulVec x)]) a = ⟨ofMatrix M', false⟩ := by
      rw [read_append (by simp; omega), read_append hlt, ha']
    have e3 : Heap.read (h' ++ [V x] ++ [V (M⁻¹.mulVec x)]) (h' ++ [V x]).length =
        V (M⁻¹.mulVec x) := read_new _ _
    have e4 : Heap.read (h' ++ [V x] ++ [V (M⁻¹.mulVec x)] ++ [V (M'.mulVec (M⁻¹.mulVec x))])
        h'.length = V x := by
      rw [read_append (by simp), read_append (by simp), e1]
    have e5 : Heap.read (h' ++ [V x] ++ [V (M⁻¹.mulVec x)] ++ [V (M'.mulVec (M⁻¹.mulVec x))])
        (h' ++ [V x] ++ [V (M⁻¹.mulVec x)]).length = V (M'.mulVec (M⁻¹.mulVec x)) := read_new _ _
    have a1 : Held.apply (.own (matmul (ofMatrix M⁻¹))) h'.length (h' ++ [V x]) =
        (.ok (h' ++ [V x]).length, h' ++ [V x] ++ [V (M⁻¹.mulVec x)]) := by
      simp only [Held.apply, e1, hV, matmul_vec, newArray, hV']
    have a2 : Held.apply (.dense a) (h' ++ [V x]).length
        (h' ++ [V x] ++ [V (M⁻¹.mulVec x)]) =
        (.ok (h' ++ [V x] ++ [V (M⁻¹.mulVec x)]).length,
          h' ++ [V x] ++ [V (M⁻¹.mulVec x)] ++ [V (M'.mulVec (M⁻¹.mulVec x))]) := by
      simp only [Held.apply, e2, e3, hV, matmul_vec, newArray, hV']
    simp only [HeldPrecond.check, a1, a2, e4, e5, hV, sub_vec]
    by_cases hn : norm (vecOf (x - M'.mulVec (M⁻¹.mulVec x))) > tol
    · rw [if_pos hn]; simp only [hn, decide_true, if_true]
    · rw [if_neg hn]; simp only [hn, decide_false, Bool.false_eq_true, if_false]
  refine ⟨?_, ?_⟩
  · rintro rfl x tol htol
    rw [key, if_neg]
    have : M'.mulVec (M'⁻¹.mulVec x) = x := by
      rw [Matrix.mulVec_mulVec, Matrix.mul_nonsing_inv _ (isUnit_iff_ne_zero.mpr hM), Matrix.one_mulVec]
    rw [this, sub_self, norm_vec]
    simpa using htol
  · intro hne tol
    have hD : (1 : Matrix (Fin n) (Fin n) ℝ) - M' * M⁻¹ ≠ 0 := by
      intro h0
      apply hne
      have h1 : M' * M⁻¹ = 1 := (sub_eq_zero.mp h0).symm
      calc M' = M' * (M⁻¹ * M) := by rw [Matrix.nonsing_inv_mul _ (isUnit_iff_ne_zero.mpr hM), Matrix.mul_one]
        _ = M := by rw [← Matrix.mul_assoc, h1, Matrix.one_mul]
    obtain ⟨i, j, hij⟩ : ∃ i j, ((1 : Matrix (Fin n) (Fin n) ℝ) - M' * M⁻¹) i j ≠ 0 := by
      by_contra hc
      push Not at hc
      exact hD (by ext i j; exact hc i j)
    generalize hd : ((1 : Matrix (Fin n) (Fin n) ℝ) - M' * M⁻¹) = D at hD hij
    have hx : ∀ x : Fin n → ℝ, x - M'.mulVec (M⁻¹.mulVec x) = D.mulVec x := by
      intro x
      rw [Matrix.mulVec_mulVec, ← hd, Matrix.sub_mulVec, Matrix.one_mulVec]
    refine ⟨Pi.single j ((|tol| + 1) / D i j), "``a_times`` does not invert ``a_inv_times``.", ?_⟩
    rw [key, hx, if_pos]
    have h1 : (D.mulVec (Pi.single j ((|tol| + 1) / D i j))) i = |tol| + 1 := by
      rw [Matrix.mulVec_single]
      simp
      field_simp
    generalize D.mulVec (Pi.single j ((|tol| + 1) / D i j)) = w at h1
    rw [norm_vec, gt_iff_lt]
    refine lt_of_lt_of_le (lt_of_le_of_lt (le_abs_self tol) (lt_add_one _)) ?_
    refine Real.le_sqrt_of_sq_le ?_
    rw [← h1, sq]
    exact Finset.single_le_sum (f := fun i => w i * w i) (fun i _ => mul_self_nonneg _) (Finset.mem_univ i)

/-- **C117, what the original function gets.**  With the identity preconditioner (as constructed, or set again) the original function
gets the caller's own array; with a matrix or a Hessian it gets a new one, so that a function that writes to its argument changes no
array that existed before the call. -/
theorem C117_argument {Z : Type} (g : Nat → HM Z) {s s' : HeldPrecond} {h h' : Heap} {l : List HeldOp} (hl : ∀ o ∈ l, Keeps o) :
    (s.run eigh autoHessian f h (.setIdentity :: l) = (s', h') → ∀ xc, s'.call g xc h' = g xc h') ∧
    (∀ o, ((∃ a b s0, (o = .setMatrix a b ∨ o = .setDeprecated a b) ∧ HeldPrecond.setMatrix a b h = .ok s0) ∨
        (∃ x hess lo hi s0, o = .withHessian x hess lo hi ∧ HeldPrecond.withHessian eigh autoHessian x hess lo hi h = .ok s0)) →
      s.run eigh autoHessian f h (o :: l) = (s', h') → WritesArgument g →
      ∀ xc i, i < h'.length → (s'.call g xc h').2.read i = h'.read i) := by
  have hrun : ∀ o, s.run eigh autoHessian f h (o :: l) = (s', h') → s' = (s.step eigh autoHessian f h o).1 := by
    intro o hr
    rw [HeldPrecond.run] at hr
    have := keeps_run (eigh := eigh) (autoHessian := autoHessian) (f := f) (s := (s.step eigh autoHessian f h o).1)
      (h := (s.step eigh autoHessian f h o).2) hl
    rw [hr] at this
    exact this
  refine ⟨fun hr xc => ?_, fun o ho hr hg xc i hi => ?_⟩
  · rw [hrun _ hr]; rfl
  · have hnew : ∃ r, s'.unprecondition xc h' = newArray r h' := by
      rw [hrun o hr]
      rcases ho with ⟨a, b, s0, ho, hs⟩ | ⟨x, hess, lo, hi, s0, rfl, hs⟩
      · have e : (s.step eigh autoHessian f h o).1 = s0 := by
          rcases ho with rfl | rfl <;> simp [HeldPrecond.step, hs, HeldPrecond.orElse]
        rw [e, HeldPrecond.unprecondition, (setMatrix_held hs).1]
        cases (h.read a).sparse
        · exact ⟨matmul (h'.read a).arr (h'.read xc).arr, rfl⟩
        · exact ⟨sparseTimes (h'.read a).arr (h'.read xc).arr, rfl⟩
      · have e : (s.step eigh autoHessian f h (.withHessian x hess lo hi)).1 = s0 := by
          simp [HeldPrecond.step, hs, HeldPrecond.orElse]
        obtain ⟨P, -, rfl⟩ := withHessian_held hs
        rw [e]
        exact ⟨P.aTimes (h'.read xc).arr, rfl⟩
    obtain ⟨r, hr'⟩ := hnew
    rw [HeldPrecond.call, hr']
    cases r with
    | error e => rfl
    | ok c =>
      simp only [newArray]
      rw [hg h'.length _ i (by simp; omega) (by omega), read_append hi]

/-- **C117, the identity does not protect.**  With the identity preconditioner a function that overwrites its argument overwrites the
caller's array. -/
theorem C117_identity {s s' : HeldPrecond} {h h' : Heap} {l : List HeldOp} (hl : ∀ o ∈ l, Keeps o)
    (hr : s.run eigh autoHessian f h (.setIdentity :: l) = (s', h')) {xc : Nat} (hx : xc < h'.length) (y : MatArg) :
    WritesArgument (overwriteArgument y) ∧ (s'.call (overwriteArgument y) xc h').2.read xc = y := by
  refine ⟨fun x h i hi hne => ?_, ?_⟩
  · simp [overwriteArgument, Heap.read, List.getD_eq_getElem?_getD, List.getElem?_set, Ne.symm hne]
  · rw [(C117_argument (overwriteArgument y) hl).1 hr]
    simp [overwriteArgument, Heap.read, List.getD_eq_getElem?_getD, List.getElem?_set, hx]

/-- **C117, values.**  As long as nothing is written between, the array objects do not matter: right after `set_preconditioner_matrix`
a call returns what the value-level model says for the contents. -/
theorem C117_values {Z : Type} {g : Nat → HM Z} {gV : NDArray ℝ → Except Err Z} (hg : Reads g gV) {a : Nat} {b : Option Nat} {h : Heap}
    {s : HeldPrecond} (hs : HeldPrecond.setMatrix a b h = .ok s) :
    ∃ P, Precond.setMatrix (h.read a) (b.map h.read) = .ok P ∧
      ∀ xc, (s.call g xc h).1 = P.call gV (h.read xc).arr ∧ outcome (s.precondition xc h) = P.precondition (h.read xc).arr ∧
        outcome (s.unprecondition xc h) = P.unprecondition (h.read xc).arr := by
  cases hP : Precond.setMatrix (h.read a) (b.map h.read) with
  | error e =>
    have := (C117_raises (eigh := fun _ _ => (0, 0)) (autoHessian := fun _ => .error .unmodelled) a b none none none none h e).1.mpr hP
    rw [hs] at this; cases this
  | ok P =>
    refine ⟨P, rfl, fun xc => ?_⟩
    have hu : ∃ r, s.unprecondition xc h = newArray r h ∧ P.unprecondition (h.read xc).arr = r ∧
        outcome (s.precondition xc h) = P.precondition (h.read xc).arr := by
      obtain ⟨h1, h2, h3⟩ := setMatrix_held hs
      unfold Precond.setMatrix at hP
      cases hsp : (h.read a).sparse with
      | true =>
        simp only [hsp, if_true] at hP h1 h2
        cases b with
        | none =>
          obtain ⟨ai, h4, h5⟩ := h3 rfl
          simp only [invOf, hsp, if_true] at h4
          simp only [Option.map_none, h4, bind, Except.bind, pure, Except.pure] at hP
          cases hc : checkSparse (h.read a).arr with
          | error e => simp [hc] at hP
          | ok _ =>
            cases hc' : checkSparse ai with
            | error e => simp [hc, hc'] at hP
            | ok _ =>
              simp only [hc, hc', Except.ok.injEq] at hP
              subst hP
              refine ⟨sparseTimes (h.read a).arr (h.read xc).arr, by rw [HeldPrecond.unprecondition, h1]; rfl, rfl, ?_⟩
              rw [HeldPrecond.precondition, h5]
              simp [Held.apply, outcome_new, timesOf, hsp, Precond.precondition]
        | some b =>
          simp only [Option.map_some, bind, Except.bind, pure, Except.pure] at hP
          cases hc : checkSparse (h.read a).arr with
          | error e => simp [hc] at hP
          | ok _ =>
            cases hc' : checkSparse (h.read b).arr with
            | error e => simp [hc, hc'] at hP
            | ok _ =>
              simp only [hc, hc', Except.ok.injEq] at hP
              subst hP
              refine ⟨sparseTimes (h.read a).arr (h.read xc).arr, by rw [HeldPrecond.unprecondition, h1]; rfl, rfl, ?_⟩
              rw [HeldPrecond.precondition, h2 b rfl]
              simp [Held.apply, outcome_new, Precond.precondition]
      | false =>
        simp only [hsp, Bool.false_eq_true, if_false] at hP h1 h2
        cases b with
        | none =>
          obtain ⟨ai, h4, h5⟩ := h3 rfl
          simp only [invOf, hsp, Bool.false_eq_true, if_false] at h4
          simp only [Option.map_none, h4, bind, Except.bind, pure, Except.pure, Except.ok.injEq] at hP
          subst hP
          refine ⟨matmul (h.read a).arr (h.read xc).arr, by rw [HeldPrecond.unprecondition, h1]; rfl, rfl, ?_⟩
          rw [HeldPrecond.precondition, h5]
          simp [Held.apply, outcome_new, timesOf, hsp, Precond.precondition]
        | some b =>
          simp only [Option.map_some, bind, Except.bind, pure, Except.pure, Except.ok.injEq] at hP
          subst hP
          refine ⟨matmul (h.read a).arr (h.read xc).arr, by rw [HeldPrecond.unprecondition, h1]; rfl, rfl, ?_⟩
          rw [HeldPrecond.precondition, h2 b rfl]
          simp [Held.apply, outcome_new, Precond.precondition]
    obtain ⟨r, h1, h2, h3⟩ := hu
    refine ⟨?_, h3, by rw [h1, outcome_new, h2]⟩
    rw [HeldPrecond.call, h1, Precond.call, h2]
    cases r with
    | error e => rfl
    | ok c =>
      simp only [newArray, bind, Except.bind]
      rw [hg, read_new]

theorem read_prefix {h h' : Heap} (hp : Unwritten h h') {i : Nat} (hi : i < h.length) : h'.read i = h.read i := by
  obtain ⟨t, rfl⟩ := hp
  exact read_append hi

theorem unwritten_new (r : Except Err (NDArray ℝ)) (h : Heap) :
    Unwritten h (newArray r h).2 ∧ ∀ i, (newArray r h).1 = .ok i → i < (newArray r h).2.length := by
  cases r with
  | error e => exact ⟨List.prefix_rfl, fun i hi => by cases hi⟩
  | ok a => exact ⟨⟨_, rfl⟩, fun i hi => by cases hi; simp [newArray]⟩

theorem represents_mono {h h' : Heap} {o : Held} {op : Op} (hp : Unwritten h h') (hr : Represents h o op) : Represents h' o op :=
  fun h'' v hu hv => hr h'' v (List.IsPrefix.trans hp hu) hv

theorem represents_identity (h : Heap) : Represents h .identity .ok :=
  fun _ _ _ hv => ⟨rfl, List.prefix_rfl, fun i hi => by cases hi; exact hv⟩

theorem represents_own (h : Heap) (op : Op) : Represents h (.own op) op :=
  fun _ _ _ _ => ⟨outcome_new _ _, unwritten_new _ _⟩

theorem represents_dense {h : Heap} {a : Nat} (ha : a < h.length) : Represents h (.dense a) (matmul (h.read a).arr) :=
  fun h' v hu _ => by
    simp only [Held.apply, read_prefix hu ha]
    exact ⟨outcome_new _ _, unwritten_new _ _⟩

theorem represents_sparse {h : Heap} {a : Nat} (ha : a < h.length) : Represents h (.sparse a) (sparseTimes (h.read a).arr) :=
  fun h' v hu _ => by
    simp only [Held.apply, read_prefix hu ha]
    exact ⟨outcome_new _ _, unwritten_new _ _⟩

theorem acts_matrix {a : Nat} {b : Option Nat} {h : Heap} (ha : a < h.length) (hb : ∀ c, b = some c → c < h.length) {s : HeldPrecond}
    (hs : HeldPrecond.setMatrix a b h = .ok s) : ∃ P, Precond.setMatrix (h.read a) (b.map h.read) = .ok P ∧ Acts h s P := by
  unfold HeldPrecond.setMatrix at hs
  unfold Precond.setMatrix
  cases hsp : (h.read a).sparse with
  | true =>
    simp only [hsp, if_true] at hs ⊢
    cases b with
    | none =>
      simp only at hs
      obtain ⟨ai, h1, hs⟩ := Pattern.bind_ok hs
      obtain ⟨_, h2, hs⟩ := Pattern.bind_ok hs
      obtain ⟨_, h3, hs⟩ := Pattern.bind_ok hs
      cases hs
      exact ⟨_, by simp [h1, h2, h3, bind, Except.bind, pure, Except.pure]; rfl, represents_sparse ha, represents_own h _⟩
    | some b =>
      simp only at hs
      obtain ⟨_, h2, hs⟩ := Pattern.bind_ok hs
      obtain ⟨_, h3, hs⟩ := Pattern.bind_ok hs
      cases hs
      exact ⟨_, by simp [h2, h3, bind, Except.bind, pure, Except.pure]; rfl, represents_sparse ha, represents_sparse (hb b rfl)⟩
  | false =>
    simp only [hsp, Bool.false_eq_true, if_false] at hs ⊢
    cases b with
    | none =>
      simp only at hs
      obtain ⟨ai, h1, hs⟩ := Pattern.bind_ok hs
      cases hs
      exact ⟨_, by simp [h1, bind, Except.bind, pure, Except.pure]; rfl, represents_dense ha, represents_own h _⟩
    | some b =>
      cases hs
      exact ⟨_, by simp [bind, Except.bind, pure, Except.pure]; rfl, represents_dense ha, represents_dense (hb b rfl)⟩

theorem acts_call {Z : Type} {g : Nat → HM Z} {gV : NDArray ℝ → Except Err Z} (hg : Reads g gV) (hw : ∀ x h, Unwritten h (g x h).2)
    {h h' : Heap} {s : HeldPrecond} {P : Precond} (ha : Acts h s P) (hu : Unwritten h h') {v : Nat} (hv : v < h'.length) :
    (s.call g v h').1 = P.call gV (h'.read v).arr ∧ Unwritten h' (s.call g v h').2 := by
  obtain ⟨h1, h2, -⟩ := ha.1 h' v hu hv
  unfold HeldPrecond.call HeldPrecond.unprecondition Precond.call Precond.unprecondition
  rw [← h1]
  cases hr : s.aTimes.apply v h' with
  | mk r h'' =>
    rw [hr] at h2
    cases r with
    | error e => exact ⟨rfl, h2⟩
    | ok w => exact ⟨hg w h'', List.IsPrefix.trans h2 (hw w h'')⟩

theorem acts_check {h h' : Heap} {s : HeldPrecond} {P : Precond} (ha : Acts h s P) (hu : Unwritten h h') {v : Nat} (hv : v < h'.length)
    (tol : ℝ) : (s.check v tol h').1 = P.check (h'.read v).arr tol ∧ Unwritten h' (s.check v tol h').2 := by
  obtain ⟨h1, h2, h3⟩ := ha.2 h' v hu hv
  unfold HeldPrecond.check Precond.check
  rw [← h1]
  cases hr : s.aInvTimes.apply v h' with
  | mk r h1' =>
    rw [hr] at h2 h3
    cases r with
    | error e => exact ⟨rfl, h2⟩
    | ok w =>
      obtain ⟨h4, h5, h6⟩ := ha.1 h1' w (List.IsPrefix.trans hu h2) (h3 w rfl)
      simp only [outcome, Except.map, bind, Except.bind]
      rw [← h4]
      cases hr' : s.aTimes.apply w h1' with
      | mk r' h2' =>
        rw [hr'] at h5 h6
        cases r' with
        | error e => exact ⟨rfl, List.IsPrefix.trans h2 h5⟩
        | ok u =>
          have hp : Unwritten h' h2' := List.IsPrefix.trans h2 h5
          simp only [outcome, Except.map]
          rw [read_prefix hp hv]
          cases sub (h'.read v).arr (h2'.read u).arr with
          | error e => exact ⟨rfl, hp⟩
          | ok d =>
            simp only
            split
            · exact ⟨rfl, hp⟩
            · exact ⟨rfl, hp⟩

/-- **C117, histories without writes.**  As long as neither the caller nor the original function writes to an array, objects do not
matter: after any history of method calls, raising or not, the preconditioner is the one of the value-level model for the contents the
arguments had, and so are the results of `precondition`, `unprecondition`, `check_preconditioner` and of calls.  No array has been
written to. -/
theorem C117_history {fV : NDArray ℝ → Except Err Y} (hf : Reads f fV) (hw : ∀ x h, Unwritten h (f x h).2)
    {s : HeldPrecond} {h : Heap} {P : Precond} (ha : Acts h s P) {l : List HeldOp} {l' : List PrecondOp}
    (hl : Narrates eigh autoHessian f s h l l') {s' : HeldPrecond} {h' : Heap} (hr : s.run eigh autoHessian f h l = (s', h')) :
    Unwritten h h' ∧ ∀ v < h'.length,
      outcome (s'.precondition v h') = (P.run eigh autoHessian l').precondition (h'.read v).arr ∧
      outcome (s'.unprecondition v h') = (P.run eigh autoHessian l').unprecondition (h'.read v).arr ∧
      (s'.call f v h').1 = (P.run eigh autoHessian l').call fV (h'.read v).arr ∧
      ∀ tol, (s'.check v tol h').1 = (P.run eigh autoHessian l').check (h'.read v).arr tol := by
  suffices H : Unwritten h h' ∧ Acts h' s' (P.run eigh autoHessian l') by
    refine ⟨H.1, fun v hv => ⟨(H.2.2 h' v List.prefix_rfl hv).1, (H.2.1 h' v List.prefix_rfl hv).1,
      (acts_call hf hw H.2 List.prefix_rfl hv).1, fun tol => (acts_check H.2 List.prefix_rfl hv tol).1⟩⟩
  induction hl generalizing P with
  | nil => cases hr; exact ⟨List.prefix_rfl, ha⟩
  | use v ho hv hl ih =>
    rename_i s h o l l'
    have hs : (s.step eigh autoHessian f h o).1 = s ∧ Unwritten h (s.step eigh autoHessian f h o).2 := by
      cases o <;> simp only [Uses, reduceCtorEq, Option.some.injEq] at ho <;> subst ho
      · exact ⟨rfl, (ha.2 h _ List.prefix_rfl hv).2.1⟩
      · exact ⟨rfl, (ha.1 h _ List.prefix_rfl hv).2.1⟩
      · exact ⟨rfl, (acts_call hf hw ha List.prefix_rfl hv).2⟩
    have := ih (P := P) (by rw [hs.1]; exact ⟨represents_mono hs.2 ha.1, represents_mono hs.2 ha.2⟩) hr
    exact ⟨List.IsPrefix.trans hs.2 this.1, this.2⟩
  | identity hl ih => exact ih ⟨represents_identity _, represents_identity _⟩ hr
  | functions h1 h2 hl ih => exact ih ⟨h1, h2⟩ hr
  | matrix ho hm hb hl ih =>
    rename_i s h o a b l l'
    have hs : s.step eigh autoHessian f h o = (s.orElse (HeldPrecond.setMatrix a b h), h) := by rcases ho with rfl | rfl <;> rfl
    rw [HeldPrecond.run] at hr
    rw [hs] at hr ih
    rw [Precond.run]
    simp only [Precond.step]
    cases hm' : HeldPrecond.setMatrix a b h with
    | error e =>
      rw [hm'] at hr ih
      rw [(C117_raises (eigh := eigh) (autoHessian := autoHessian) a b none none none none h e).1.mp hm']
      exact ih ha hr
    | ok s1 =>
      rw [hm'] at hr ih
      obtain ⟨Q, h1, h2⟩ := acts_matrix hm hb hm'
      rw [h1]
      exact ih h2 hr
  | hessian hl ih =>
    rename_i s h x a lo hi l l'
    rw [HeldPrecond.run] at hr
    simp only [HeldPrecond.step] at hr ih
    rw [Precond.run]
    simp only [Precond.step]
    cases hm' : HeldPrecond.withHessian eigh autoHessian x a lo hi h with
    | error e =>
      rw [hm'] at hr ih
      rw [(C117_raises (eigh := eigh) (autoHessian := autoHessian) 0 none x a lo hi h e).2.mp hm']
      exact ih ha hr
    | ok s1 =>
      rw [hm'] at hr ih
      obtain ⟨Q, h1, rfl⟩ := withHessian_held hm'
      rw [h1]
      exact ih ⟨represents_own h _, represents_own h _⟩ hr
  | check hv hl ih =>
    rename_i s h v tol l l'
    obtain ⟨h1, h2⟩ := acts_check ha List.prefix_rfl hv tol
    have := ih (P := P) ⟨represents_mono h2 ha.1, represents_mono h2 ha.2⟩ hr
    refine ⟨List.IsPrefix.trans h2 this.1, ?_⟩
    rw [Precond.run]
    simp only [Precond.step]
    cases hc : P.check (h.read v).arr tol with
    | error e => exact this.2
    | ok _ => exact this.2

/-- **C117, functions of the caller.**  After `set_preconditioner_functions(a_times, a_inv_times)` and any uses and writes, the methods
call these two functions with the caller's own array, and the original function gets the very object `a_times` returned. -/
theorem C117_functions {Z : Type} (g : Nat → HM Z) {a b : Nat → HM Nat} {s s' : HeldPrecond} {h h' : Heap} {l : List HeldOp}
    (hl : ∀ o ∈ l, Keeps o) (hr : s.run eigh autoHessian f h (.setFunctions a b :: l) = (s', h')) (v : Nat) :
    s'.unprecondition v h' = a v h' ∧ s'.precondition v h' = b v h' ∧
    (∀ w h'', a v h' = (.ok w, h'') → s'.call g v h' = g w h'') ∧
    (∀ e h'', a v h' = (.error e, h'') → s'.call g v h' = (.error e, h'')) := by
  have e : s' = ⟨.user a, .user b⟩ := by
    have := keeps_run (eigh := eigh) (autoHessian := autoHessian) (f := f) (s := ⟨.user a, .user b⟩) (h := h) hl
    rw [HeldPrecond.run] at hr
    simp only [HeldPrecond.step] at hr
    rw [hr] at this
    exact this
  subst e
  refine ⟨rfl, rfl, ?_, ?_⟩
  · intro w h'' hw
    simp only [HeldPrecond.call, HeldPrecond.unprecondition, Held.apply, hw]
  · intro e h'' hw
    simp only [HeldPrecond.call, HeldPrecond.unprecondition, Held.apply, hw]

/-- **C117, calls that raise.**  Setting a matrix or a Hessian that raises leaves the preconditioner as it was: the rest of the history
goes on as if there had been no such call. -/
theorem C117_failed {s : HeldPrecond} {h : Heap} {o : HeldOp} {e : Err}
    (ho : (∃ a b, (o = .setMatrix a b ∨ o = .setDeprecated a b) ∧ Precond.setMatrix (h.read a) (b.map h.read) = .error e) ∨
      (∃ x hess lo hi, o = .withHessian x hess lo hi ∧
        Precond.withHessian eigh autoHessian (x.map fun i => (h.read i).arr) (hess.map h.read) lo hi = .error e))
    (l : List HeldOp) : s.run eigh autoHessian f h (o :: l) = s.run eigh autoHessian f h l := by
  rw [HeldPrecond.run]
  have : s.step eigh autoHessian f h o = (s, h) := by
    rcases ho with ⟨a, b, ho, he⟩ | ⟨x, hess, lo, hi, rfl, he⟩
    · have := (C117_raises (eigh := eigh) (autoHessian := autoHessian) a b none none none none h e).1.mpr he
      rcases ho with rfl | rfl <;> simp only [HeldPrecond.step, this, HeldPrecond.orElse]
    · have := (C117_raises (eigh := eigh) (autoHessian := autoHessian) 0 none x hess lo hi h e).2.mpr he
      simp only [HeldPrecond.step, this, HeldPrecond.orElse]
  simp only [this]

/-- `C117_failed` is not vacuous: the matrix `0` is rejected and the preconditioner stays the identity. -/
example : (⟨.identity, .identity⟩ : HeldPrecond).run eigh autoHessian f [⟨ofMatrix !![(0 : ℝ)], false⟩] [.setMatrix 0 none] =
    (⟨.identity, .identity⟩, [⟨ofMatrix !![(0 : ℝ)], false⟩]) := by
  refine C117_failed (e := .linAlgError) (.inl ⟨0, none, .inl rfl, ?_⟩) []
  have hi : inv (ofMatrix !![(0 : ℝ)]) = .error .linAlgError := by rw [inv_mat, if_pos (by simp)]
  simp [Precond.setMatrix, Heap.read, hi, bind, Except.bind]

/-- `C117_history` is not vacuous: a function that returns its argument is called, the identity is
checked, and a matrix is set. -/
example : Narrates eigh autoHessian (fun x h => (.ok (h.read x).arr, h)) ⟨.identity, .identity⟩
    [⟨ofMatrix !![(2 : ℝ)], false⟩, ⟨vecOf ![(1 : ℝ)], false⟩] [.call 1, .check 1 0, .setMatrix 0 none]
    [.check (vecOf ![(1 : ℝ)]) 0, .setMatrix ⟨ofMatrix !![(2 : ℝ)], false⟩ none] := by
  have hc : ((⟨.identity, .identity⟩ : HeldPrecond).check 1 0 [⟨ofMatrix !![(2 : ℝ)], false⟩, ⟨vecOf ![(1 : ℝ)], false⟩]).2 =
      [⟨ofMatrix !![(2 : ℝ)], false⟩, ⟨vecOf ![(1 : ℝ)], false⟩] := by
    simp only [HeldPrecond.check, Held.apply]
    split
    · rfl
    · split <;> rfl
  refine .use 1 rfl (by simp) (.check (by simp [HeldPrecond.step, HeldPrecond.call, HeldPrecond.unprecondition, Held.apply]) ?_)
  change Narrates eigh autoHessian _ ⟨.identity, .identity⟩
    ((⟨.identity, .identity⟩ : HeldPrecond).check 1 0 [⟨ofMatrix !![(2 : ℝ)], false⟩, ⟨vecOf ![(1 : ℝ)], false⟩]).2 _ _
  rw [hc]
  exact .matrix (a := 0) (b := none) (.inl rfl) (by simp) (by simp) .nil

/-- The C117 theorems are not vacuous: the matrix `2` is set, then overwritten with `3`; `unprecondition` of the vector `1` is 3 while
`precondition` of it is still one half. -/
example : ∃ s' h', (⟨.identity, .identity⟩ : HeldPrecond).run eigh autoHessian (overwriteArgument ⟨⟨[], []⟩, false⟩)
      [⟨ofMatrix !![2], false⟩, ⟨vecOf ![1], false⟩] [.setMatrix 0 none, .mutate 0 ⟨ofMatrix !![3], false⟩] = (s', h') ∧
    outcome (s'.unprecondition 1 h') = .ok (vecOf ![3]) ∧ outcome (s'.precondition 1 h') = .ok (vecOf ![1 / 2]) := by
  have hi : inv (ofMatrix !![(2 : ℝ)]) = .ok (ofMatrix !![1 / 2]) := by
    rw [inv_mat, if_neg (by simp)]
    congr 2
    rw [Matrix.inv_def]
    ext i j
    fin_cases i; fin_cases j
    simp
  have hset : HeldPrecond.setMatrix 0 none [⟨ofMatrix !![(2 : ℝ)], false⟩, ⟨vecOf ![(1 : ℝ)], false⟩] =
      .ok ⟨.dense 0, .own (matmul (ofMatrix !![1 / 2]))⟩ := by
    simp only [HeldPrecond.setMatrix, Heap.read, List.getD_cons_zero, Bool.false_eq_true, if_false, hi]; rfl
  refine ⟨_, _, rfl, ?_⟩
  have h := C117_matrix (eigh := eigh) (autoHessian := autoHessian) (f := overwriteArgument ⟨⟨[], []⟩, false⟩)
    (s := ⟨.identity, .identity⟩) hset (.inl rfl) (l := [.mutate 0 ⟨ofMatrix !![(3 : ℝ)], false⟩]) (by simp [Keeps]) rfl 1
  refine ⟨h.1.trans ?_, ?_⟩
  · have e := matmul_vec !![(3 : ℝ)] ![(1 : ℝ)]
    have e' : (!![(3 : ℝ)]).mulVec ![1] = ![3] := by ext i; fin_cases i; simp
    rw [e'] at e
    exact e
  · obtain ⟨ai, h1, h2⟩ := h.2.2.2 rfl
    have h3 : ai = ofMatrix !![1 / 2] := by
      have : invOf ⟨ofMatrix !![(2 : ℝ)], false⟩ = .ok ai := h1
      simp only [invOf, Bool.false_eq_true, if_false, hi, Except.ok.injEq] at this
      exact this.symm
    subst h3
    refine h2.trans ?_
    have e := matmul_vec !![(1 / 2 : ℝ)] ![(1 : ℝ)]
    have e' : (!![(1 / 2 : ℝ)]).mulVec ![1] = ![1 / 2] := by ext i; fin_cases i; simp
    rw [e'] at e
    exact e

end Paragami
