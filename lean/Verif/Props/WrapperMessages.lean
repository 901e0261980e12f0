import Verif.Props.Messages

/-! # The texts of the exceptions of function wrappers (C134) -/

set_option linter.unusedSimpArgs false

namespace Paragami
open NDArray Pattern FunctionPatterns

variable {X : Type}

namespace Messages

section
variable (texts : List ℤ → String) (s : Wrapper) (name : Option String) (tr : Pattern → Option Bool → Arg X → Except Err (Arg X))
  (rets : List (Arg X))

theorem raise_class (f : String → String) (m : String) :
    Spec.exceptionClass (raiseText name f) = Spec.exceptionClass (nameErr name.isSome m) := by
  cases name <;> rfl

theorem outputLoop_same : ∀ (items : List (ℤ × Pattern × Option Bool)) (last : ℤ) (acc : List (Arg X)),
    Spec.resultOrClass (outputLoopText texts s name tr rets items last acc) =
      Spec.resultOrClass (outputLoop name.isSome tr rets items last acc)
  | [], _, _ => rfl
  | (k, p, f) :: items, last, acc => by
    rw [outputLoopText, outputLoop]
    by_cases hk : (rets.length : ℤ) ≤ k
    · rw [if_pos hk, if_pos hk]
      simp only [bind, Except.bind, throw, throwThe, MonadExceptOf.throw, Spec.resultOrClass]
      rw [raise_class]
    · rw [if_neg hk, if_neg hk]
      exact result_bind rfl fun _ _ _ => result_bind rfl fun _ _ _ => outputLoop_same items _ _

theorem outputLoopText_missing (items : List (ℤ × Pattern × Option Bool)) : ∀ (last : ℤ) (acc : List (Arg X)),
    (∀ it ∈ items, 0 ≤ it.1 ∧ ∀ a, rets[it.1.toNat]? = some a → ∃ v, tr it.2.1 it.2.2 a = .ok v) →
    (∃ it ∈ items, (rets.length : ℤ) ≤ it.1) →
    outputLoopText texts s name tr rets items last acc = .error (raiseText name (fewText texts s rets.length)) := by
  induction items with
  | nil => rintro _ _ _ ⟨it, hit, _⟩; cases hit
  | cons it items ih =>
    obtain ⟨k, p, f⟩ := it
    intro last acc h hm
    rw [outputLoopText]
    by_cases hk : (rets.length : ℤ) ≤ k
    · rw [if_pos hk]; rfl
    · obtain ⟨h0, h1⟩ := h _ (List.mem_cons_self ..)
      simp only at h0 h1
      obtain ⟨a, ha⟩ : ∃ a, rets[k.toNat]? = some a := by
        have hlt : k.toNat < rets.length := by omega
        exact ⟨_, List.getElem?_eq_getElem hlt⟩
      obtain ⟨v, hv⟩ := h1 a ha
      have hp : pos rets.length k = k.toNat := by unfold pos; rw [if_neg (by omega)]
      rw [if_neg hk]
      simp only [bind, Except.bind]
      rw [pyGet_eq (a := a) (by omega) (by rw [hp]; exact ha)]
      simp only [hv]
      refine ih _ _ (fun it hit => h it (List.mem_cons_of_mem _ hit)) ?_
      obtain ⟨it, hit, hl⟩ := hm
      rw [List.mem_cons] at hit
      rcases hit with rfl | hit
      · exact absurd hl hk
      · exact ⟨it, hit, hl⟩

end

theorem single_literal : "{} returned only one value, but multiple" ++ "retnums were specified: " =
    "{} returned only one value, but multipleretnums were specified: " := by decide +kernel

theorem few_literal : "Not enough return values in {} ({}) for" ++ "specified retnums " =
    "Not enough return values in {} ({}) forspecified retnums " := by decide +kernel

end Messages

open Messages

/-- **C134.**  The texts change nothing else: the wrapper returns the same and raises exceptions of the same classes. -/
theorem C134_outcome (texts : List ℤ → String) (s : Wrapper) (name : Option String) (r : Ret X) :
    Spec.resultOrClass (transformRetText texts s name r) = Spec.resultOrClass (transformRet s name.isSome r) := by
  cases r with
  | single a =>
    match h : s.nums with
    | [] =>
      simp only [transformRetText, transformRet, h, Spec.resultOrClass]
      rw [raise_class]
    | [k] =>
      simp only [transformRetText, transformRet, h]
      split_ifs
      · simp only [Spec.resultOrClass]
        rw [raise_class]
      all_goals rfl
    | _ :: _ :: _ => simp only [transformRetText, transformRet, h]
  | tuple rets => exact result_bind (outputLoop_same ..) fun _ _ _ => rfl

/-- **C134, one value.**  When the wrapped function returns one value and the only position is not 0, the message begins with a pair of
braces where the function's name should be, and has the name where the positions should be. -/
theorem C134_single_text (texts : List ℤ → String) {s : Wrapper} {k : ℤ} (hn : s.nums = [k]) (hk : k ≠ 0) (n : String) (a : Arg X) :
    transformRetText texts s (some n) (.single a) =
      .error (.valueError ("{} returned only one value, but multipleretnums were specified: " ++ n)) := by
  have e : singleText texts s n = "{} returned only one value, but multipleretnums were specified: " ++ n := by
    unfold singleText
    simp only [pyFormat, String.append_empty]
    rw [← String.append_assoc, single_literal]
  rw [transformRetText]
  simp only [hn, ne_eq, hk, not_false_eq_true, if_true]
  rw [raiseText, e]

/-- **C134, one value.**  That message speaks of multiple positions, but with two or more the exception is numpy's, before any message is
made. -/
theorem C134_multiple (texts : List ℤ → String) {s : Wrapper} (hn : 2 ≤ s.nums.length) (name : Option String) (a : Arg X) :
    transformRetText texts s name (.single a) =
      .error (.valueError "The truth value of an array with more than one element is ambiguous.") := by
  match h : s.nums with
  | [] => simp [h] at hn
  | [_] => simp [h] at hn
  | _ :: _ :: _ => simp only [transformRetText, h]

/-- **C134, too few values.**  The message has two pairs of braces where the name and the number of values should be, and the name where
the positions should be. -/
theorem C134_few_text (texts : List ℤ → String) {s : Wrapper} (hs : Spec.Constructed s) (h0 : ∀ k ∈ s.nums, 0 ≤ k) {rets : List (Arg X)}
    (hm : ∃ k ∈ s.nums, (rets.length : ℤ) ≤ k)
    (ht : ∀ k p fr a, Spec.Targets s k p fr → rets[k.toNat]? = some a → ∃ v, Spec.outputTr s p fr a = .ok v) (n : String) :
    transformRetText texts s (some n) (.tuple rets) =
      .error (.valueError ("Not enough return values in {} ({}) forspecified retnums " ++ n ++ ".")) := by
  have hok := constructed_ok hs
  obtain ⟨k, hk, hlt⟩ := hm
  obtain ⟨p, fr, hkt⟩ := exists_target hok hk
  have hmem := (sorted_perm hok).mem_iff.mpr ((mem_items hok).mpr hkt)
  simp only [transformRetText, outputTr_eq]
  rw [outputLoopText_missing texts s (some n) _ _ _ _ _ (fun it hit => ?_) ⟨_, hmem, hlt⟩]
  · have e : fewText texts s rets.length n = "Not enough return values in {} ({}) forspecified retnums " ++ n ++ "." := by
      unfold fewText
      simp only [pyFormat]
      rw [← String.append_assoc, ← String.append_assoc, few_literal]
    rw [raiseText, e]
    rfl
  · have := (mem_items hok).mp ((sorted_perm hok).mem_iff.mp hit)
    exact ⟨h0 _ (target_mem this), fun a ha => ht _ _ _ _ this ha⟩

/-- **C134, too few values.**  So the message is the same for all positions, all patterns and any number of values. -/
theorem C134_uninformative (texts : List ℤ → String) {s t : Wrapper} (hs : Spec.Constructed s) (ht : Spec.Constructed t)
    (h0 : ∀ k ∈ s.nums, 0 ≤ k) (h0' : ∀ k ∈ t.nums, 0 ≤ k) {rets rets' : List (Arg X)}
    (hm : ∃ k ∈ s.nums, (rets.length : ℤ) ≤ k) (hm' : ∃ k ∈ t.nums, (rets'.length : ℤ) ≤ k)
    (hr : ∀ k p fr a, Spec.Targets s k p fr → rets[k.toNat]? = some a → ∃ v, Spec.outputTr s p fr a = .ok v)
    (hr' : ∀ k p fr a, Spec.Targets t k p fr → rets'[k.toNat]? = some a → ∃ v, Spec.outputTr t p fr a = .ok v) (n : String) :
    transformRetText texts s (some n) (.tuple rets) = transformRetText texts t (some n) (.tuple rets') := by
  rw [C134_few_text texts hs h0 hm hr, C134_few_text texts ht h0' hm' hr']

/-- A wrapper of value 1 and a wrapper of values 0 and 3 of a function called `f`, given tuples of no value and of one value. -/
example (texts : List ℤ → String) (p : Pattern) {s t : Wrapper} (hs : construct (vec [p]) (vec [none]) true (some (vec [1])) = .ok s)
    (ht : construct (vec [p, p]) (vec [none, none]) true (some (vec [0, 3])) = .ok t) (x : NDArray Flt) (v : Val Flt)
    (hx : p.fold x none none = .ok v) :
    transformRetText (X := Unit) texts s (some "f") (.tuple []) =
      .error (.valueError "Not enough return values in {} ({}) forspecified retnums f.") ∧
    transformRetText (X := Unit) texts t (some "f") (.tuple [.val (.arr x)]) =
      .error (.valueError "Not enough return values in {} ({}) forspecified retnums f.") := by
  have hs' : Spec.Constructed s := ⟨_, _, _, _, by simp [NDArray.WF, vec], by simp [NDArray.WF, vec],
    by rintro a h; cases h; simp [NDArray.WF, vec], hs⟩
  have ht' : Spec.Constructed t := ⟨_, _, _, _, by simp [NDArray.WF, vec], by simp [NDArray.WF, vec],
    by rintro a h; cases h; simp [NDArray.WF, vec], ht⟩
  have es : s = ⟨[p], [none], [1], true⟩ := by
    have := hs
    simp [construct, vec, atleast1d, numArray, len, broadcastTo, broadcasts, ndim, bind, Except.bind, pure, Except.pure] at this
    rw [← this]; rfl
  have et : t = ⟨[p, p], [none, none], [0, 3], true⟩ := by
    have := ht
    simp [construct, vec, atleast1d, numArray, len, broadcastTo, broadcasts, ndim, bind, Except.bind, pure, Except.pure] at this
    rw [← this]; rfl
  constructor
  · exact C134_few_text texts hs' (by simp [es]) ⟨1, by simp [es], by simp⟩ (by simp) "f"
  · refine C134_few_text texts ht' (by simp [et]) ⟨3, by simp [et], by simp⟩ (fun k q fr a hk ha => ?_) "f"
    obtain ⟨i, h1, h2, h3⟩ := hk
    match i with
    | 0 =>
      simp [et] at h1 h2 h3
      subst h1 h2 h3
      simp at ha
      subst ha
      exact ⟨.val v, by simp [Spec.outputTr, et, foldArg, hx, bind, Except.bind, pure, Except.pure]⟩
    | 1 =>
      simp [et] at h1 h2 h3
      subst h1
      simp at ha
    | _ + 2 => simp [et] at h1

end Paragami
