import Verif.Proofs.MessagesFree

/-! # The texts of exceptions with `free=True` (C139) -/

set_option linter.unusedSimpArgs false

namespace Paragami
open NDArray Pattern Messages

/-- **C139.**  With their messages, `fold` and `flatten` with `free=True` return what they return without, and raise exceptions of the
same class. -/
theorem C139_outcome (fmt : Flt → String) (p : Pattern) (v : Val Flt) (x : NDArray Flt) (vv : Option Bool) :
    Spec.resultOrClass (p.foldFreeText fmt x) = Spec.resultOrClass (p.fold x (some true) vv) ∧
    Spec.resultOrClass (p.flattenFreeText fmt v vv) = Spec.resultOrClass (p.flatten v (some true) vv) := by
  rw [fold_true, flatten_true]
  exact ⟨foldFree_same fmt p x, flattenFree_same fmt p v vv⟩

/-- **C139, `fold`.**  Folding a free vector succeeds if and only if it has as many elements as the pattern wants. -/
theorem C139_fold {p : Pattern} (hp : Built p) (fmt : Flt → String) (l : List Flt) :
    (∃ v, p.foldFreeText fmt (vec l) = .ok v) ↔ l.length = p.flatLen true := by
  have hs := foldFree_same fmt p (vec l)
  constructor
  · rintro ⟨v, hv⟩
    rw [hv] at hs
    rcases hf : p.foldFree (vec l) with e | w
    · rw [hf] at hs; simp [Spec.resultOrClass] at hs
    · simpa using foldFree_ok_len hf
  · intro hl
    obtain ⟨w, hw⟩ := foldFree_total p hp.wf l hl
    rw [hw] at hs
    rcases hf : p.foldFreeText fmt (vec l) with e | v
    · rw [hf] at hs; simp [Spec.resultOrClass] at hs
    · exact ⟨v, rfl⟩

/-- **C139, `fold`.**  Otherwise the message is that of the outermost pattern, whatever is inside it: it gives the free length, and that of
a dictionary also its description.  Simplexes and matrices give no length. -/
theorem C139_fold_size {p : Pattern} (fmt : Flt → String) {l : List Flt} (hl : l.length ≠ p.flatLen true) :
    p.foldFreeText fmt (vec l) = .error (.valueError (match p with
      | .numeric .. => "Wrong size for array.  Expected " ++ toString (p.flatLen true) ++ ", got " ++ toString l.length
      | .simplex .. => "flat_val is the wrong length."
      | .psd .. => "Wrong length for PSDSymmetricMatrix flat value."
      | .array .. => "Wrong size for parameter.  Expected " ++ toString (p.flatLen true) ++ ", got " ++ toString l.length
      | .dict .. => "Wrong size for pattern dictionary " ++ p.str fmt ++ ".\nExpected " ++ toString (p.flatLen true) ++ ", got " ++
          toString l.length ++ ".")) := by
  cases p with
  | numeric c s lb ub dv fd =>
    have hl' : l.length ≠ s.prod := by simpa [flatLen] using hl
    simp [foldFreeText, checkText, bind, Except.bind, throw, throwThe, MonadExceptOf.throw, hl', sizeText, pyFormat, flatLen,
      String.append_assoc]
  | simplex k s dv fd =>
    have hl' : l.length ≠ (s ++ [k - 1]).prod := by simpa [flatLen] using hl
    rw [foldFreeText, vec_len]
    simp only [bind, Except.bind, throw, throwThe, MonadExceptOf.throw, hl', sizeText, ne_eq, not_false_eq_true, if_true]
  | psd n lb dv fd =>
    have hl' : l.length ≠ n * (n + 1) / 2 := by simpa [flatLen] using hl
    simp [foldFreeText, checkText, bind, Except.bind, throw, throwThe, MonadExceptOf.throw, hl', sizeText]
  | array s b fd =>
    have hl' : l.length ≠ s.prod * b.flatLen true := by simpa [flatLen] using hl
    simp [foldFreeText, checkText, bind, Except.bind, throw, throwThe, MonadExceptOf.throw, hl', sizeText, pyFormat, flatLen,
      String.append_assoc]
  | dict es lk fd =>
    have hl' : l.length ≠ flatLenEs es true := by simpa [flatLen] using hl
    simp [foldFreeText, checkText, bind, Except.bind, throw, throwThe, MonadExceptOf.throw, hl', sizeText, pyFormat, flatLen,
      String.append_assoc]

/-- **C139, `fold`.**  An array of two or more dimensions is refused with the same message with `free=True` and with `free=False`, before its
size is looked at, by all patterns but simplexes. -/
theorem C139_fold_1d {p : Pattern} (hp : ∀ k s dv fd, p ≠ .simplex k s dv fd) (fmt : Flt → String) {x : NDArray Flt}
    (hx : 2 ≤ x.shape.length) (vv : Option Bool) :
    p.foldFreeText fmt x = .error (.valueError "The argument to fold must be a 1d vector.") ∧
    p.foldText fmt x vv = .error (.valueError "The argument to fold must be a 1d vector.") := by
  have e : x.atleast1d = x := atleast1d_of_ne (by rintro h; simp [h] at hx)
  have hn : x.ndim ≠ 1 := by simp only [ndim]; omega
  have h (n : Nat) : checkText fmt p x n = .error (.valueError "The argument to fold must be a 1d vector.") := by
    simp [checkText, e, hn, bind, Except.bind, throw, throwThe, MonadExceptOf.throw]
  cases p with
  | simplex k s dv fd => exact absurd rfl (hp k s dv fd)
  | _ => constructor <;> simp only [foldFreeText, foldText, bind, Except.bind, h]

/-- If `validate_folded` raises, or returns a message, so does `flatten`. -/
theorem flattenFreeText_refused (fmt : Flt → String) (p : Pattern) (v : Val Flt) (vv : Option Bool) {e : Err}
    (hr : requireValid (p.validateText fmt v vv) = .error e) : p.flattenFreeText fmt v vv = .error e := by
  cases p with
  | numeric c s lb ub dv fd =>
    cases v with
    | dict d => simpa [validateText, flattenFreeText, requireValid, Val.asArr, bind, Except.bind] using hr
    | arr a =>
      have e : (Pattern.numeric c s lb ub dv fd).validateText fmt (.arr a.atleast1d) vv =
          (Pattern.numeric c s lb ub dv fd).validateText fmt (.arr a) vv := by
        simp only [validateText, Val.asArr, bind, Except.bind, numericText, atleast1d_of_ne (atleast1d_shape_ne_nil a)]
      simp only [flattenFreeText, Val.asArr, bind, Except.bind, e, hr]
  | simplex k s dv fd =>
    cases v with
    | dict d => simpa [validateText, flattenFreeText, requireValid, Val.asArr, bind, Except.bind] using hr
    | arr a => simp only [flattenFreeText, Val.asArr, bind, Except.bind, hr]
  | psd n lb dv fd =>
    cases v with
    | dict d => simpa [validateText, flattenFreeText, requireValid, Val.asArr, bind, Except.bind] using hr
    | arr a => simp only [flattenFreeText, Val.asArr, bind, Except.bind, hr]
  | array s b fd => simp only [flattenFreeText, bind, Except.bind, hr]
  | dict es lk fd => simp only [flattenFreeText, bind, Except.bind, hr]

/-- **C139, `flatten`.**  Of a value that `validate_folded` accepts, `flatten` with `free=True` raises neither `ValueError` nor `KeyError`:
what is left is `LinAlgError` from the Cholesky decomposition, and the `IndexError` of `np.hstack` when there is nothing to concatenate. -/
theorem C139_flatten_accepted (fmt : Flt → String) (p : Pattern) (v : Val Flt) (vv : Option Bool) {m : String}
    (h : p.validateText fmt v vv = .ok (true, m)) {e : Err} (he : p.flattenFreeText fmt v vv = .error e) :
    e = .linAlgError ∨ e = .indexError ∨ e = .unmodelled := by
  have ha : Acc p v vv := by
    have := validate_same fmt p v vv
    rw [h] at this
    rcases hv : p.validate v vv with e | ⟨b, m'⟩
    · rw [hv] at this; simp [Spec.answerOrClass] at this
    · rw [hv] at this
      simp only [Spec.answerOrClass, Except.ok.injEq] at this
      exact ⟨m', by rw [hv, ← this]⟩
  have hs := flattenFree_same fmt p v vv
  rw [he] at hs
  rcases hf : p.flattenFree v vv with e' | w
  · rw [hf] at hs
    simp only [Spec.resultOrClass, Except.error.injEq] at hs
    rcases flattenFree_accepted p v vv ha hf with rfl | rfl | rfl <;> cases e <;> simp [Spec.exceptionClass] at hs ⊢
  · rw [hf] at hs; simp [Spec.resultOrClass] at hs

/-- **C139, `flatten`.**  The texts of the `ValueError`s of `flatten` with `free=True` are exactly the messages that `validate_folded` returns
with `False`, or raises. -/
theorem C139_flatten (fmt : Flt → String) (p : Pattern) (v : Val Flt) (vv : Option Bool) (m : String) :
    p.flattenFreeText fmt v vv = .error (.valueError m) ↔
      p.validateText fmt v vv = .ok (false, m) ∨ p.validateText fmt v vv = .error (.valueError m) := by
  constructor
  · intro h
    rcases hv : p.validateText fmt v vv with e | ⟨b, m'⟩
    · have := flattenFreeText_refused fmt p v vv (e := e) (by rw [hv]; rfl)
      rw [h] at this
      exact .inr (by rw [← Except.error.inj this])
    · cases b with
      | false =>
        have := flattenFreeText_refused fmt p v vv (e := .valueError m') (by rw [hv]; rfl)
        rw [h] at this
        simp only [Except.error.injEq, Err.valueError.injEq] at this
        exact .inl (by rw [this])
      | true => rcases C139_flatten_accepted fmt p v vv hv h with h | h | h <;> cases h
  · rintro (h | h)
    · exact flattenFreeText_refused fmt p v vv (by rw [h]; rfl)
    · exact flattenFreeText_refused fmt p v vv (by rw [h]; rfl)

/-- C139 is not vacuous: the free length of a dictionary with a simplex of three is two, and a vector of three numbers, which is what
`free=False` wants, is refused in the dictionary's name; two numbers are folded. -/
example (fmt : Flt → String) : let p := Pattern.dict (.cons "a" (.simplex 3 [1] true none) .nil) false none
    p.foldFreeText fmt (vec [.fin 1, .fin 2, .fin 3]) = .error (.valueError ("Wrong size for pattern dictionary " ++ p.str fmt ++
      ".\nExpected 2, got 3.")) ∧ (∃ v, p.foldFreeText fmt (vec [.fin 1, .fin 2]) = .ok v) := by
  intro p
  refine ⟨?_, (C139_fold (p := p) (WF.built _ ?_) fmt _).mpr ?_⟩
  · rw [C139_fold_size fmt (by simp [p, flatLen, flatLenEs])]
    simp only [p, flatLen, flatLenEs, List.length_cons, List.length_nil]
    simp only [String.append_assoc]
    rfl
  · simp [p, Pattern.WF, Pattern.WFEs, Entries.keys, Entries.toList, Pattern.lock]
  · simp [p, flatLen, flatLenEs]

/-- C139 for `flatten` is not vacuous: a negative number where only positive ones are allowed. -/
example (fmt : Flt → String) : (Pattern.numeric .vector [1] (.int 0) (.flt .pinf) true none).flattenFreeText fmt (.arr ⟨[1], [Flt.fin (-1)]⟩) none =
    .error (.valueError "Value beneath lower bound.") := by
  rw [C139_flatten, exVector, if_pos (by norm_num)]
  exact .inl rfl

end Paragami
