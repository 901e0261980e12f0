import Verif.Model.MessagesIndices
import Verif.Props.Messages
import Verif.Props.Indices

/-! # The texts of the exceptions of `flat_indices` (C141) -/

set_option linter.unusedSimpArgs false

namespace Paragami
open NDArray Pattern Messages Spec

theorem items_same (f g : Val Bool → Except Err (List Nat)) (h : ∀ v, resultOrClass (f v) = resultOrClass (g v)) (a : NDArray Bool) (n : Nat) :
    ∀ (l : List (List Nat)) (o : Nat), resultOrClass (flatIndicesItems f a n l o) = resultOrClass (flatIndicesItems g a n l o)
  | [], _ => rfl
  | it :: l, o => by
    rw [flatIndicesItems, flatIndicesItems]
    refine result_bind rfl fun sub _ _ => ?_
    dsimp only
    split
    · exact result_bind (h _) fun _ _ _ => result_bind (items_same f g h a n l _) fun _ _ _ => rfl
    · exact result_bind rfl fun _ _ _ => result_bind (items_same f g h a n l _) fun _ _ _ => rfl

/-- **C141.**  With its messages, `flat_indices` returns what it returns without, and raises exceptions of the same class. -/
theorem C141_outcome (fmt : Flt → String) (p : Pattern) (v : Val Bool) (free : Bool) :
    resultOrClass (p.flatIdxText fmt v free) = resultOrClass (p.flatIndices v (some free)) := by
  rw [flatIndices_some]
  revert v
  induction p using Pattern.ind (Q := fun es => ∀ (vs : List (String × Val Bool)) (o : Nat),
      resultOrClass (flatIdxTextEs fmt es vs free o) = resultOrClass (flatIdxEs es vs free o)) with
  | hnum c s lb ub dv fd =>
    intro v
    cases v with
    | dict d => rfl
    | arr a =>
      simp only [flatIdxText, flatIdx, Val.asArr, bind, Except.bind, throw, throwThe, MonadExceptOf.throw, pure, Except.pure,
        Numeric.flatIndices, Numeric.validateShape]
      by_cases h : a.data.any id = true
      · by_cases hs : a.atleast1d.shape = s
        · simp [h, hs]
        · simp [h, hs, resultOrClass, exceptionClass]
      · simp only [Bool.not_eq_true] at h
        simp [h]
  | hsim k s dv fd =>
    intro v
    cases v with
    | dict d => rfl
    | arr a =>
      simp only [flatIdxText, flatIdx, Val.asArr, bind, Except.bind, throw, throwThe, MonadExceptOf.throw, pure, Except.pure,
        Simplex.flatIndices, Simplex.validateShape]
      by_cases h : a.data.any id = true
      · by_cases hs : a.shape = s ++ [k]
        · simp [h, hs]
        · simp [h, hs, resultOrClass, exceptionClass]
      · simp only [Bool.not_eq_true] at h
        simp [h]
  | hpsd n lb dv fd =>
    intro v
    cases v with
    | dict d => rfl
    | arr a =>
      simp only [flatIdxText, flatIdx, Val.asArr, bind, Except.bind, throw, throwThe, MonadExceptOf.throw, pure, Except.pure,
        PSD.flatIndices, PSD.validateShape]
      by_cases h : a.data.any id = true
      · by_cases hs : a.shape = [n, n]
        · simp [h, hs]
        · simp [h, hs, resultOrClass, exceptionClass]
      · simp only [Bool.not_eq_true] at h
        simp [h]
  | harr s b fd ih =>
    intro v
    rw [flatIdxText, flatIdx]
    exact result_bind (result_requireValid (validate_same ..)) fun _ _ _ => result_bind rfl fun a _ _ => items_same _ _ ih a _ _ _
  | hdict es l fd ih =>
    intro v
    rw [flatIdxText, flatIdx]
    exact result_bind (result_requireValid (validate_same ..)) fun _ _ _ => result_bind rfl fun vs _ _ => ih vs 0
  | hnil vs o => rfl
  | hcons k p r ihp ihr vs o =>
    rw [flatIdxTextEs, flatIdxEs]
    cases vs.lookup k with
    | none => rfl
    | some v => exact result_bind (ihp v) fun _ _ _ => result_bind (ihr vs _) fun _ _ _ => rfl

/-- **C141.**  `flat_indices` raises exactly when `validate_folded` with `validate_value=False` raises or returns `False`, and then with its
message.  This is so for all masks of arrays and dictionaries, and for masks with a true entry of the others. -/
theorem C141_texts {p : Pattern} (hp : Built p) (fmt : Flt → String) {b : Val Bool} (hb : b.WF) (free : Bool)
    (hm : ∀ a, b = .arr a → p.isDict = false → (∀ s q fd, p ≠ .array s q fd) → true ∈ a.data) (e : Err) :
    p.flatIdxText fmt b free = .error e ↔
      p.validateText fmt b (some false) = .error e ∨ ∃ m, e = .valueError m ∧ p.validateText fmt b (some false) = .ok (false, m) := by
  have hany {a : NDArray Bool} (h : true ∈ a.data) : a.data.any id = true := List.any_eq_true.mpr ⟨true, h, rfl⟩
  have refuse {e : Err} (h : requireValid (p.validateText fmt b (some false)) = .error e) : p.flatIdxText fmt b free = .error e := by
    cases p with
    | numeric c s lb ub dv fd =>
      cases b with
      | dict d => simpa [validateText, flatIdxText, requireValid, Val.asArr, bind, Except.bind] using h
      | arr a =>
        have ha := hany (hm a rfl rfl (by simp))
        by_cases hs : a.atleast1d.shape = s
        · simp [validateText, requireValid, Val.asArr, bind, Except.bind, numericText, hs, pure, Except.pure] at h
        · simpa [validateText, flatIdxText, requireValid, Val.asArr, bind, Except.bind, numericText, hs, ha, pure, Except.pure, throw, throwThe,
            MonadExceptOf.throw] using h
    | simplex k s dv fd =>
      cases b with
      | dict d => simpa [validateText, flatIdxText, requireValid, Val.asArr, bind, Except.bind] using h
      | arr a =>
        have ha := hany (hm a rfl rfl (by simp))
        by_cases hs : a.shape = s ++ [k]
        · simp [validateText, requireValid, Val.asArr, bind, Except.bind, Simplex.validate, Simplex.validateShape, hs, pure, Except.pure] at h
        · simpa [validateText, flatIdxText, requireValid, Val.asArr, bind, Except.bind, Simplex.validate, Simplex.validateShape, hs, ha, pure,
            Except.pure, throw, throwThe, MonadExceptOf.throw] using h
    | psd n lb dv fd =>
      cases b with
      | dict d => simpa [validateText, flatIdxText, requireValid, Val.asArr, bind, Except.bind] using h
      | arr a =>
        have ha := hany (hm a rfl rfl (by simp))
        by_cases hs : a.shape = [n, n]
        · simp [validateText, requireValid, Val.asArr, bind, Except.bind, psdText, hs, pure, Except.pure] at h
        · simpa [validateText, flatIdxText, requireValid, Val.asArr, bind, Except.bind, psdText, hs, ha, pure, Except.pure, throw, throwThe,
            MonadExceptOf.throw] using h
    | array s b' fd => rw [flatIdxText, h]; rfl
    | dict es l fd => rw [flatIdxText, h]; rfl
  constructor
  · intro h
    rcases hv : p.validateText fmt b (some false) with e' | ⟨t, m⟩
    · have := refuse (e := e') (by rw [hv]; rfl)
      rw [h] at this
      exact .inl (by rw [Except.error.inj this])
    · cases t with
      | false =>
        have := refuse (e := .valueError m) (by rw [hv]; rfl)
        rw [h] at this
        exact .inr ⟨m, Except.error.inj this, rfl⟩
      | true =>
        exfalso
        have hacc : Acc p b (some false) := by
          have := validate_same fmt p b (some false)
          rw [hv] at this
          rcases hw : p.validate b (some false) with e | ⟨t, m'⟩
          · rw [hw] at this; simp [answerOrClass] at this
          · rw [hw] at this
            simp only [answerOrClass, Except.ok.injEq] at this
            exact ⟨m', by rw [hw, ← this]⟩
        have hs := C141_outcome fmt p b free
        rw [h, flatIndices_some, flatIdx_eq free p hp.wf b hb ((shapeOk_iff_acc p hp.wf b).mp hacc)] at hs
        simp [resultOrClass] at hs
  · rintro (h | ⟨m, rfl, h⟩)
    · exact refuse (by rw [h]; rfl)
    · exact refuse (by rw [h]; rfl)

/-- **C141.**  A mask without a true entry has no indices, whatever its shape: numeric patterns, simplexes and matrices do not look at it, but
arrays and dictionaries do. -/
theorem C141_nothing {p : Pattern} (hd : p.isDict = false) (ha : ∀ s q fd, p ≠ .array s q fd) (fmt : Flt → String) (a : NDArray Bool)
    (h : true ∉ a.data) (free : Bool) : p.flatIdxText fmt (.arr a) free = .ok [] := by
  have h' : a.data.any id = false := by
    rw [List.any_eq_false]
    intro x hx
    cases x
    · simp
    · exact absurd hx h
  cases p with
  | array s q fd => exact absurd rfl (ha s q fd)
  | dict es l fd => simp [isDict] at hd
  | _ => simp [flatIdxText, Val.asArr, bind, Except.bind, h', pure, Except.pure]

/-- C141 is not vacuous: a mask of three entries for a vector of two, with and without a true entry, and in an array. -/
example (fmt : Flt → String) (free : Bool) : let p := Pattern.numeric .vector [2] (.flt .ninf) (.flt .pinf) true none
    p.flatIdxText fmt (.arr ⟨[3], [false, true, false]⟩) free = .error (.valueError "Wrong size for array. Expected shape: (2,) Got shape: (3,)") ∧
    p.flatIdxText fmt (.arr ⟨[3], [false, false, false]⟩) free = .ok [] ∧
    (Pattern.array [1] p none).flatIdxText fmt (.arr ⟨[1, 3], [false, false, false]⟩) free =
      .error (.valueError "Wrong shape.  Expected (1, 3), got (1, 2).") := by
  intro p
  have hp : Pattern.WF p := by simp [p, Pattern.WF, Flt.NotNaN, PyNum.toFlt, Flt.lt]
  refine ⟨?_, C141_nothing rfl (by simp [p]) fmt _ (by simp) free, ?_⟩
  · rw [C141_texts (WF.built _ hp) fmt (by simp [Val.WF, NDArray.WF]) free (by simp [p])]
    refine .inr ⟨_, rfl, ?_⟩
    rw [(C133_swapped fmt _ _).2.2 (by simp) (by simp)]
    congr 2
  · rw [C141_texts (p := Pattern.array [1] p none) (WF.built _ ⟨by simp, rfl, hp⟩) fmt (by simp [Val.WF, NDArray.WF]) free (by simp)]
    refine .inr ⟨_, rfl, ?_⟩
    rw [(C133_swapped fmt _ _).2.1 (by simp [p, Pattern.shape]) (by simp [p, Pattern.shape])]
    congr 2

end Paragami
