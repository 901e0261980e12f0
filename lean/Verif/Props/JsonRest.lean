import Verif.Props.Json
import Verif.Model.Jacobian
import Verif.Model.Str
/-!
# C143: the other methods of patterns that were saved or compare equal

C29 and C31 say that `fold`, `flatten`, `validate_folded` and `flat_length` agree; here are the other methods.
-/
namespace Paragami
open Pattern NDArray

/-- The two patterns cannot be told apart by `shape`, `empty`, `empty_bool`, `random`, by `flat_indices` and `flat_names` with an
explicit `free`, nor by the four methods about Jacobians. -/
structure Spec.SameMethods (p q : Pattern) : Prop where
  shape : p.shape = q.shape
  empty : p.empty = q.empty
  emptyBool : ∀ value, p.emptyBool value = q.emptyBool value
  random : ∀ draw, p.random draw = q.random draw
  flatIndices : ∀ (b : Bool) v, p.flatIndices v (some b) = q.flatIndices v (some b)
  flatNames : ∀ (b : Bool) delim, p.flatNames (some b) delim = q.flatNames (some b) delim
  freeingJacobian : ∀ (ad : AutogradJacobian) v, p.freeingJacobian ad v = q.freeingJacobian ad v
  unfreeingJacobian : ∀ (ad : AutogradJacobian) v, p.unfreeingJacobian ad v = q.unfreeingJacobian ad v
  logAbsDetFreeing : ∀ v, p.logAbsDetFreeing v = q.logAbsDetFreeing v
  logAbsDetUnfreeing : ∀ v, p.logAbsDetUnfreeing v = q.logAbsDetUnfreeing v

namespace JsonRest

theorem symm {p q : Pattern} (h : Spec.SameMethods p q) : Spec.SameMethods q p :=
  ⟨h.1.symm, h.2.symm, fun v => (h.3 v).symm, fun v => (h.4 v).symm, fun b v => (h.5 b v).symm, fun b v => (h.6 b v).symm,
    fun ad v => (h.7 ad v).symm, fun ad v => (h.8 ad v).symm, fun v => (h.9 v).symm, fun v => (h.10 v).symm⟩

theorem trans {p q r : Pattern} (h : Spec.SameMethods p q) (g : Spec.SameMethods q r) : Spec.SameMethods p r :=
  ⟨h.1.trans g.1, h.2.trans g.2, fun v => (h.3 v).trans (g.3 v), fun v => (h.4 v).trans (g.4 v), fun b v => (h.5 b v).trans (g.5 b v),
    fun b v => (h.6 b v).trans (g.6 b v), fun ad v => (h.7 ad v).trans (g.7 ad v), fun ad v => (h.8 ad v).trans (g.8 ad v),
    fun v => (h.9 v).trans (g.9 v), fun v => (h.10 v).trans (g.10 v)⟩

theorem empty_strip (p : Pattern) : (Spec.strip p).empty = p.empty := by
  induction p using Pattern.ind (Q := fun es => emptyEs (Spec.stripEs es) = emptyEs es) with
  | hnum c s lb ub dv fd => rfl
  | hsim k s dv fd => rfl
  | hpsd n lb dv fd => rfl
  | harr s b fd ih => simp only [Spec.strip, Pattern.empty, ih, shape_strip]
  | hdict es l fd ih => simp only [Spec.strip, Pattern.empty, ih]
  | hnil => rfl
  | hcons k p r ihp ihr => simp only [Spec.stripEs, emptyEs, ihp, ihr]

theorem flatIdx_strip (p : Pattern) : ∀ v b, (Spec.strip p).flatIdx v b = p.flatIdx v b := by
  induction p using Pattern.ind (Q := fun es => ∀ vs b o, flatIdxEs (Spec.stripEs es) vs b o = flatIdxEs es vs b o) with
  | hnum c s lb ub dv fd => intro v b; rfl
  | hsim k s dv fd => intro v b; rfl
  | hpsd n lb dv fd => intro v b; rfl
  | harr s b fd ih =>
    intro v f
    have h := validate_strip (α := Bool) (.array s b fd) v (some false)
    simp only [Spec.strip] at h ⊢
    simp only [flatIdx, ih, flatLen_strip, h]
  | hdict es l fd ih =>
    intro v f
    have h := validate_strip (α := Bool) (.dict es l fd) v (some false)
    simp only [Spec.strip] at h ⊢
    simp only [flatIdx, ih, h]
  | hnil vs b o => rfl
  | hcons k p r ihp ihr vs b o => simp only [Spec.stripEs, flatIdxEs, ihp, ihr, flatLen_strip]

theorem flatNames_strip (f : Bool) (p : Pattern) : ∀ delim, (Spec.strip p).flatNames (some f) delim = p.flatNames (some f) delim := by
  induction p using Pattern.ind (Q := fun es => ∀ delim, flatNamesEs (Spec.stripEs es) (some f) delim = flatNamesEs es (some f) delim) with
  | hnum c s lb ub dv fd => intro d; rfl
  | hsim k s dv fd => intro d; rfl
  | hpsd n lb dv fd => intro d; rfl
  | harr s b fd ih =>
    intro d
    have h := flatLen_strip (.array s b fd) f
    simp only [Spec.strip] at h ⊢
    simp only [Pattern.flatNames, freeWithDefault, bind, Except.bind, h]
  | hdict es l fd ih => intro d; simp only [Spec.strip, Pattern.flatNames, ih]
  | hnil d => rfl
  | hcons k p r ihp ihr d => simp only [Spec.stripEs, flatNamesEs, ihp, ihr]

theorem freeing_strip (ad : AutogradJacobian) (p : Pattern) : ∀ v, (Spec.strip p).freeingJacobian ad v = p.freeingJacobian ad v := by
  induction p using Pattern.ind (Q := fun es => ∀ vs, freeingJacobianEs ad (Spec.stripEs es) vs = freeingJacobianEs ad es vs) with
  | hnum c s lb ub dv fd => intro v; rfl
  | hsim k s dv fd => intro v; rfl
  | hpsd n lb dv fd => intro v; rfl
  | harr s b fd ih => intro v; simp only [Spec.strip, Pattern.freeingJacobian, ih]
  | hdict es l fd ih => intro v; simp only [Spec.strip, Pattern.freeingJacobian, ih]
  | hnil vs => rfl
  | hcons k p r ihp ihr vs => simp only [Spec.stripEs, freeingJacobianEs, ihp, ihr]

theorem unfreeing_strip (ad : AutogradJacobian) (p : Pattern) : ∀ v, (Spec.strip p).unfreeingJacobian ad v = p.unfreeingJacobian ad v := by
  induction p using Pattern.ind (Q := fun es => ∀ vs, unfreeingJacobianEs ad (Spec.stripEs es) vs = unfreeingJacobianEs ad es vs) with
  | hnum c s lb ub dv fd => intro v; rfl
  | hsim k s dv fd => intro v; rfl
  | hpsd n lb dv fd => intro v; rfl
  | harr s b fd ih => intro v; simp only [Spec.strip, Pattern.unfreeingJacobian, ih]
  | hdict es l fd ih => intro v; simp only [Spec.strip, Pattern.unfreeingJacobian, ih]
  | hnil vs => rfl
  | hcons k p r ihp ihr vs => simp only [Spec.stripEs, unfreeingJacobianEs, ihp, ihr]

theorem logFreeing_strip (p : Pattern) : ∀ v, (Spec.strip p).logAbsDetFreeing v = p.logAbsDetFreeing v := by
  induction p using Pattern.ind (Q := fun es => ∀ vs a, logAbsDetFreeingEs (Spec.stripEs es) vs a = logAbsDetFreeingEs es vs a) with
  | hnum c s lb ub dv fd => intro v; rfl
  | hsim k s dv fd => intro v; rfl
  | hpsd n lb dv fd => intro v; rfl
  | harr s b fd ih => intro v; rfl
  | hdict es l fd ih => intro v; simp only [Spec.strip, Pattern.logAbsDetFreeing, ih]
  | hnil vs a => rfl
  | hcons k p r ihp ihr vs a => simp only [Spec.stripEs, logAbsDetFreeingEs, ihp, ihr]

theorem logUnfreeing_strip (p : Pattern) : ∀ v, (Spec.strip p).logAbsDetUnfreeing v = p.logAbsDetUnfreeing v := by
  induction p using Pattern.ind (Q := fun es => ∀ vs a, logAbsDetUnfreeingEs (Spec.stripEs es) vs a = logAbsDetUnfreeingEs es vs a) with
  | hnum c s lb ub dv fd => intro v; rfl
  | hsim k s dv fd => intro v; rfl
  | hpsd n lb dv fd => intro v; rfl
  | harr s b fd ih => intro v; rfl
  | hdict es l fd ih => intro v; simp only [Spec.strip, Pattern.logAbsDetUnfreeing, ih]
  | hnil vs a => rfl
  | hcons k p r ihp ihr vs a => simp only [Spec.stripEs, logAbsDetUnfreeingEs, ihp, ihr]

theorem str_strip (fmt : Flt → String) (p : Pattern) : (Spec.strip p).str fmt = p.str fmt := by
  induction p using Pattern.ind (Q := fun es => strEs fmt (Spec.stripEs es) = strEs fmt es) with
  | hnum c s lb ub dv fd => rfl
  | hsim k s dv fd => rfl
  | hpsd n lb dv fd => rfl
  | harr s b fd ih => simp only [Spec.strip, str_arr, ih]
  | hdict es l fd ih => simp only [Spec.strip, str_dict, ih]
  | hnil => rfl
  | hcons k p r ihp ihr => simp only [Spec.stripEs, strEs_cons, ihp, ihr]

theorem flatIndices_strip (p : Pattern) (b : Bool) (v : Val Bool) : (Spec.strip p).flatIndices v (some b) = p.flatIndices v (some b) := by
  have h := flatIdx_strip p v b
  cases p <;> cases v <;> simp only [Spec.strip] at h ⊢ <;>
    simp only [Pattern.flatIndices, freeWithDefault, bind, Except.bind, h]

theorem methods_strip (p : Pattern) : Spec.SameMethods p (Spec.strip p) where
  shape := (shape_strip p).symm
  empty := (empty_strip p).symm
  emptyBool value := by simp only [Pattern.emptyBool, foldNF_strip, flatLen_strip]
  random draw := by simp only [Pattern.random, foldFree_strip]
  flatIndices b v := (flatIndices_strip p b v).symm
  flatNames b d := (flatNames_strip b p d).symm
  freeingJacobian ad v := (freeing_strip ad p v).symm
  unfreeingJacobian ad v := (unfreeing_strip ad p v).symm
  logAbsDetFreeing v := (logFreeing_strip p v).symm
  logAbsDetUnfreeing v := (logUnfreeing_strip p v).symm

theorem methods_lock (p : Pattern) : Spec.SameMethods p p.lock := by
  cases p with
  | dict es l fd =>
    refine ⟨rfl, rfl, fun v => ?_, fun d => ?_, fun b v => ?_, fun b d => rfl, fun ad v => rfl, fun ad v => rfl, fun v => rfl, fun v => rfl⟩
    · simp only [lock, Pattern.emptyBool, foldNF, flatLen, Pattern.validate]
    · simp only [lock, Pattern.random, foldFree]
    · simp only [lock, Pattern.flatIndices, freeDefault, flatIdx, Pattern.validate]
  | _ => exact ⟨rfl, rfl, fun v => rfl, fun d => rfl, fun b v => rfl, fun b d => rfl, fun ad v => rfl, fun ad v => rfl, fun v => rfl, fun v => rfl⟩

theorem str_lock (fmt : Flt → String) (p : Pattern) : p.lock.str fmt = p.str fmt := by cases p <;> rfl

theorem methods_forget (p : Pattern) (hw : p.WF) : Spec.SameMethods p (Spec.forget p) := by
  refine trans (methods_strip p) (trans (methods_lock _) ?_)
  rw [← strip_forget p hw]
  exact trans (symm (methods_lock _)) (symm (methods_strip _))

theorem str_forget (fmt : Flt → String) (p : Pattern) (hw : p.WF) : (Spec.forget p).str fmt = p.str fmt := by
  rw [← str_strip fmt p, ← str_lock fmt (Spec.strip p), ← strip_forget p hw, str_lock, str_strip]

theorem methods_same {p q : Pattern} (hp : p.WF) (hq : q.WF) (h : Spec.Same p q) : Spec.SameMethods p q := by
  have hff (h : Spec.forget p = Spec.forget q) : Spec.SameMethods p q := trans (methods_forget p hp) (h ▸ symm (methods_forget q hq))
  cases p with
  | numeric c s lb ub dv fd =>
    cases q with
    | numeric c' s' lb' ub' dv' fd' =>
      simp only [Spec.Same] at h
      obtain ⟨-, rfl, h1, h2, rfl, -⟩ := h
      refine ⟨rfl, ?_, fun v => ?_, fun d => ?_, fun b v => ?_, fun b d => rfl, fun ad v => ?_, fun ad v => ?_, fun v => ?_, fun v => ?_⟩
      · simp only [Pattern.empty, h1.1, h2.1]
      · simp only [Pattern.emptyBool, foldNF, flatLen, h1.1, h2.1]
      · simp only [Pattern.random, foldFree, h1.1, h2.1]
      · cases v <;> rfl
      · simp only [Pattern.freeingJacobian, h1.1, h2.1]
      · simp only [Pattern.unfreeingJacobian, h1.1, h2.1]
      · simp only [Pattern.logAbsDetFreeing, h1.1, h2.1]
      · simp only [Pattern.logAbsDetUnfreeing, h1.1, h2.1]
    | _ => simp [Spec.Same] at h
  | simplex k s dv fd =>
    cases q with
    | simplex k' s' dv' fd' =>
      simp only [Spec.Same] at h
      obtain ⟨rfl, rfl, rfl⟩ := h
      exact hff rfl
    | _ => simp [Spec.Same] at h
  | psd n lb dv fd =>
    cases q with
    | psd n' lb' dv' fd' =>
      have hb : Spec.SameBehaviour (.psd n lb dv fd) (.psd n' lb' dv' fd') := same_behaviour hp hq h
      simp only [Spec.Same] at h
      obtain ⟨rfl, h1, rfl⟩ := h
      have hfr : (psd n lb dv fd).freeingTransform = (psd n lb' dv fd').freeingTransform := by
        funext x
        simp only [freeingTransform, (hb false x (.arr x) none).1, fun v => (hb true x v none).2.1]
      have hun : (psd n lb dv fd).unfreeingTransform = (psd n lb' dv fd').unfreeingTransform := by
        funext x
        simp only [unfreeingTransform, (hb true x (.arr x) none).1, fun v => (hb false x v none).2.1]
      refine ⟨rfl, ?_, fun v => ?_, fun d => ?_, fun b v => ?_, fun b d => rfl, fun ad v => ?_, fun ad v => ?_, fun v => rfl, fun v => rfl⟩
      · simp only [Pattern.empty, h1.1]
      · simp only [Pattern.emptyBool, foldNF, flatLen, h1.1]
      · simp only [Pattern.random, foldFree, h1.1]
      · cases v <;> simp only [Pattern.flatIndices, freeWithDefault, bind, Except.bind, flatIdx, h1.1]
      · simp only [Pattern.freeingJacobian, hfr, (hb false ⟨[], []⟩ v none).2.1]
      · simp only [Pattern.unfreeingJacobian, hun, (hb true ⟨[], []⟩ v none).2.1]
    | _ => simp [Spec.Same] at h
  | array s base fd =>
    cases q with
    | array s' base' fd' =>
      simp only [Spec.Same] at h
      exact hff (by simp only [Spec.forget, h.1, h.2])
    | _ => simp [Spec.Same] at h
  | dict es l fd =>
    cases q with
    | dict es' l' fd' =>
      simp only [Spec.Same] at h
      exact hff (by simp only [Spec.forget, h])
    | _ => simp [Spec.Same] at h

end JsonRest

/-- **C143.** A pattern that was written to JSON and read back agrees with the original in the other methods too, and prints the
same. -/
theorem C143_json {reg : Registry} (hr : Spec.HasBuiltins reg) (user : Nat → PyVal → Except Err Pattern) {p q : Pattern}
    (hp : Built p) (h : Json.getPatternFromJson reg user p.toJson = .ok q) :
    Spec.SameMethods p q ∧ ∀ fmt : Flt → String, q.str fmt = p.str fmt := by
  rw [C30_exactly hr user hp] at h
  obtain rfl := Except.ok.inj h
  exact ⟨JsonRest.methods_forget p hp.wf, fun fmt => JsonRest.str_forget fmt p hp.wf⟩

/-- **C143.** Patterns that compare equal with `==` agree in the other methods. -/
theorem C143_equal {p q : Pattern} (hp : Built p) (hq : Built q) (h : p.EqPy q) : Spec.SameMethods p q :=
  JsonRest.methods_same hp.wf hq.wf ((C31_characterization hp hq).mp h)

/-- **C143, printing.** Patterns that compare equal need not print the same: bounds that are the numbers `0` and `0.0`. -/
theorem C143_str {fmt : Flt → String} (hf : fmt (.fin 0) = "0.0") : ∃ p q : Pattern, Built p ∧ Built q ∧ p.EqPy q ∧ p.str fmt ≠ q.str fmt := by
  have hb (lb : PyNum) (h : lb.toFlt = .fin 0) : Built (.psd 2 lb true none) :=
    WF.built _ (by simp [Pattern.WF, h, Flt.lt])
  refine ⟨.psd 2 (.int 0) true none, .psd 2 (.flt (.fin 0)) true none, hb _ (by simp [PyNum.toFlt]), hb _ (by simp [PyNum.toFlt]), ?_, ?_⟩
  · rw [C31_characterization (hb _ (by simp [PyNum.toFlt])) (hb _ (by simp [PyNum.toFlt]))]
    simp [Spec.Same, Spec.NumEq, PyNum.toFlt, Flt.NotNaN]
  · rw [str_psd, str_psd, PyNum.str, PyNum.str, hf]
    decide

/-- Non-vacuity: the nested example, whose reading is a different pattern. -/
example : Built exPat ∧ Json.getPatternFromJson initialRegistry (fun _ _ => .error .unmodelled) exPat.toJson = .ok (Spec.forget exPat) ∧
    Spec.forget exPat ≠ exPat := by
  refine ⟨exPat_built, C30_exactly initial_builtins _ exPat_built, fun e => ?_⟩
  have := (forget_eq_iff exPat exPat_built.wf).mp e
  exact absurd this (by simp [exPat, Spec.NoDefault])

end Paragami
