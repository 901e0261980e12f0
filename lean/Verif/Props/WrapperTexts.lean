import Verif.Model.WrapperTexts
import Verif.Spec.Messages
import Verif.Props.FunctionPatterns

/-! # The texts of the exceptions of the constructors of function wrappers (C146) -/

namespace Paragami
open NDArray FunctionPatterns

namespace WrapperTexts

theorem len_ok {β : Type} (a : NDArray β) : ∃ n r, a.atleast1d.shape = n :: r ∧ a.atleast1d.len = .ok n := by
  unfold NDArray.len
  cases h : a.atleast1d.shape with
  | nil => exact absurd h (atleast1d_shape_ne_nil a)
  | cons n r => exact ⟨n, r, rfl, rfl⟩

theorem ndim_iff {β : Type} (a : NDArray β) : a.atleast1d.ndim = 1 ↔ a.ndim ≤ 1 := by
  unfold NDArray.atleast1d NDArray.ndim
  split
  · next h => simp [h]
  · next h =>
    cases hs : a.shape with
    | nil => exact absurd hs h
    | cons n r => cases r <;> simp

theorem vec_shape {β : Type} {a : NDArray β} (ha : a.WF) (h : a.ndim ≤ 1) : a.atleast1d.shape = [a.data.length] := by
  have h1 := (ndim_iff a).2 h
  have hw : a.atleast1d.data.length = a.atleast1d.shape.prod := by
    unfold NDArray.atleast1d
    split
    · next hs => simpa [NDArray.WF, hs] using ha
    · exact ha
  obtain ⟨n, hn⟩ := List.length_eq_one_iff.1 h1
  rw [hn] at hw ⊢
  rw [atleast1d_data] at hw
  simp [hw]

end WrapperTexts

open WrapperTexts

/-- **C146.** The texts are all that changes: the constructor returns the same and raises exceptions of the same classes as in the model
without texts, whatever the positions are called. -/
theorem C146_outcome (numpy name : String) (P : NDArray Pattern) (F : NDArray (Option Bool)) (flat : Bool) (A : Option (NDArray ℤ)) :
    Spec.resultOrClass (constructText numpy name P F flat A) = Spec.resultOrClass (construct P F flat A) := by
  obtain ⟨n, r, hs, hn⟩ := len_ok P
  obtain ⟨m, q, hq, hm⟩ := len_ok (numArray n A)
  unfold constructText construct broadcastTo
  simp only [hn, hm, bind, Except.bind, throw, throwThe, MonadExceptOf.throw, pure, Except.pure]
  cases hb : broadcasts F.shape P.atleast1d.shape with
  | false => rfl
  | true =>
    simp only [if_true, Bool.true_eq_false, if_false, NDArray.len, hs]
    repeat' split
    all_goals rfl

/-- **C146.** The message for each fault, and which fault is reported when there are several: flags that do not broadcast (with numpy's
message), then patterns with more than one axis, positions with more than one axis, duplicated positions, and last a wrong number of
positions.  `name` is `argnums` for inputs and `retnums` for outputs. -/
theorem C146_texts (numpy name : String) (P : NDArray Pattern) (F : NDArray (Option Bool)) (flat : Bool) (A : Option (NDArray ℤ)) (hP : P.WF)
    (hA : ∀ a, A = some a → a.WF) :
    ((∀ B, broadcastTo F P.atleast1d.shape ≠ .ok B) → constructText numpy name P F flat A = .error (.valueError numpy)) ∧
    ∀ B, broadcastTo F P.atleast1d.shape = .ok B →
      (1 < P.ndim → constructText numpy name P F flat A = .error (.valueError "patterns must be a 1d vector.")) ∧
      (P.ndim ≤ 1 →
        (A = none → constructText numpy name P F flat A = .ok ⟨P.data, B.data, (List.range P.data.length).map Int.ofNat, flat⟩) ∧
        ∀ a, A = some a →
          (1 < a.ndim → constructText numpy name P F flat A = .error (.valueError (name ++ " must be a 1d vector."))) ∧
          (a.ndim ≤ 1 →
            (¬ a.data.Nodup → constructText numpy name P F flat A = .error (.valueError (name ++ " must not contain duplicated values."))) ∧
            (a.data.Nodup →
              (a.data.length ≠ P.data.length →
                constructText numpy name P F flat A = .error (.valueError (name ++ " must be the same length as patterns."))) ∧
              (a.data.length = P.data.length → constructText numpy name P F flat A = .ok ⟨P.data, B.data, a.data, flat⟩)))) := by
  obtain ⟨n, r, hs, hn⟩ := len_ok P
  have hB : ∀ B, broadcastTo F P.atleast1d.shape = .ok B ↔
      broadcasts F.shape P.atleast1d.shape = true ∧ B = ⟨P.atleast1d.shape, broadcastData F P.atleast1d.shape⟩ := by
    intro B
    unfold broadcastTo
    split
    · next h => simp [h, eq_comm]
    · next h => simp [h]
  refine ⟨fun h => ?_, fun B h => ?_⟩
  · have hb : broadcasts F.shape P.atleast1d.shape = false := by
      by_contra hc
      exact h _ ((hB _).2 ⟨by simpa using hc, rfl⟩)
    simp only [constructText, hn, bind, Except.bind, throw, throwThe, MonadExceptOf.throw, hb, if_true]
  · obtain ⟨hb, rfl⟩ := (hB B).1 h
    have key : ∀ a : NDArray ℤ, numArray n A = a → a.WF → constructText numpy name P F flat A =
        if ¬ P.ndim ≤ 1 then .error (.valueError "patterns must be a 1d vector.")
        else if ¬ a.ndim ≤ 1 then .error (.valueError (name ++ " must be a 1d vector."))
        else if ¬ a.data.Nodup then .error (.valueError (name ++ " must not contain duplicated values."))
        else if a.data.length ≠ P.data.length then .error (.valueError (name ++ " must be the same length as patterns."))
        else .ok ⟨P.data, broadcastData F P.atleast1d.shape, a.data, flat⟩ := by
      rintro a ha haw
      obtain ⟨m, q, hq, hm⟩ := len_ok a
      by_cases h1 : P.ndim ≤ 1
      · have e1 : n = P.data.length := by
          have := vec_shape hP h1
          rw [hs] at this
          exact (List.cons.inj this).1
        by_cases h2 : a.ndim ≤ 1
        · have e2 : m = a.data.length := by
            have := vec_shape haw h2
            rw [hq] at this
            exact (List.cons.inj this).1
          have hd : (m ≠ a.data.dedup.length) ↔ ¬ a.data.Nodup := by
            rw [e2, not_iff_not]
            constructor
            · intro h
              exact List.dedup_eq_self.1 ((List.dedup_sublist _).eq_of_length h.symm)
            · intro h
              rw [List.dedup_eq_self.2 h]
          have hf : P.atleast1d.ndim = 1 := (ndim_iff P).2 h1
          have hf' : P.atleast1d.shape = [P.data.length] := vec_shape hP h1
          simp only [constructText, hn, hm, ha, bind, Except.bind, throw, throwThe, MonadExceptOf.throw, pure, Except.pure, hb,
            Bool.true_eq_false, if_false, ne_eq, hf, (ndim_iff a).2 h2, not_true_eq_false, atleast1d_data, h1, h2]
          by_cases h3 : a.data.Nodup
          · rw [if_neg (by rw [← ne_eq, hd]; exact not_not.2 h3), if_neg (not_not.2 h3), e2, ← e1]
            by_cases h4 : a.data.length = n
            · rw [if_neg (not_not.2 h4), if_neg (not_not.2 h4), if_neg (by simp [NDArray.ndim, hf'])]
              simp [NDArray.len, hf', e1]
            · rw [if_pos h4, if_pos h4]
          · rw [if_pos (by rw [← ne_eq, hd]; exact h3), if_pos h3]
        · simp only [constructText, hn, ha, bind, Except.bind, throw, throwThe, MonadExceptOf.throw, pure, Except.pure, hb,
            Bool.true_eq_false, if_false, ne_eq, (ndim_iff P).2 h1, not_true_eq_false, h1]
          rw [if_pos (by rw [ndim_iff]; exact h2), if_pos h2]
      · simp only [constructText, hn, bind, Except.bind, throw, throwThe, MonadExceptOf.throw, pure, Except.pure, hb,
          Bool.true_eq_false, if_false]
        rw [if_pos (by rw [ne_eq, ndim_iff]; exact h1), if_pos h1]
    refine ⟨fun h1 => ?_, fun h1 => ⟨?_, ?_⟩⟩
    · cases A with
      | none => rw [key _ rfl (by simp [numArray, NDArray.WF, NDArray.vec]), if_pos (by omega)]
      | some a => rw [key a rfl (hA a rfl), if_pos (by omega)]
    · rintro rfl
      have e1 : n = P.data.length := by
        have := vec_shape hP h1
        rw [hs] at this
        exact (List.cons.inj this).1
      rw [key _ rfl (by simp [numArray, NDArray.WF, NDArray.vec]), if_neg (not_not.2 h1), if_neg (by simp [numArray, NDArray.ndim, NDArray.vec]),
        if_neg (not_not.2 ?_), if_neg (by simp [numArray, e1])]
      · simp [numArray, e1]
      · exact List.Nodup.map (fun _ _ h => Int.ofNat.inj h) List.nodup_range
    · rintro a rfl
      rw [key a rfl (hA a rfl), if_neg (not_not.2 h1)]
      refine ⟨fun h2 => by rw [if_pos (by omega)], fun h2 => ?_⟩
      rw [if_neg (not_not.2 h2)]
      refine ⟨fun h3 => by rw [if_pos h3], fun h3 => ?_⟩
      rw [if_neg (not_not.2 h3)]
      exact ⟨fun h4 => by rw [if_pos h4], fun h4 => by rw [if_neg (not_not.2 h4)]⟩

/-- **C146.** As the comment in the source says, the last two messages never appear (unless numpy's is one of them): for no arguments is
`free` found wrong by these checks. -/
theorem C146_unreachable (numpy name : String) (P : NDArray Pattern) (F : NDArray (Option Bool)) (flat : Bool) (A : Option (NDArray ℤ))
    (hP : P.WF) (hA : ∀ a, A = some a → a.WF) (hname : name = "argnums" ∨ name = "retnums") (msg : String)
    (h : constructText numpy name P F flat A = .error (.valueError msg)) (hm : msg ≠ numpy) :
    msg ≠ "free must be a single boolean or a 1d vector of booleans." ∧ msg ≠ "free must broadcast to the same shape as patterns." := by
  obtain ⟨h1, h2⟩ := C146_texts numpy name P F flat A hP hA
  have hc : msg = "patterns must be a 1d vector." ∨ msg = name ++ " must be a 1d vector." ∨
      msg = name ++ " must not contain duplicated values." ∨ msg = name ++ " must be the same length as patterns." := by
    cases hb : broadcastTo F P.atleast1d.shape with
    | error e =>
      rw [h1 fun B hB => by rw [hb] at hB; cases hB] at h
      cases h
      exact absurd rfl hm
    | ok B =>
      obtain ⟨h3, h4⟩ := h2 B hb
      by_cases hp : P.ndim ≤ 1
      · obtain ⟨h5, h6⟩ := h4 hp
        cases A with
        | none => rw [h5 rfl] at h; cases h
        | some a =>
          obtain ⟨h7, h8⟩ := h6 a rfl
          by_cases ha : a.ndim ≤ 1
          · obtain ⟨h9, h10⟩ := h8 ha
            by_cases hd : a.data.Nodup
            · obtain ⟨h11, h12⟩ := h10 hd
              by_cases hl : a.data.length = P.data.length
              · rw [h12 hl] at h; cases h
              · rw [h11 hl] at h; cases h; simp
            · rw [h9 hd] at h; cases h; simp
          · rw [h7 (by omega)] at h; cases h; simp
      · rw [h3 (by omega)] at h; cases h; simp
  rcases hname with rfl | rfl <;> rcases hc with rfl | rfl | rfl | rfl <;> decide +kernel

/-- Not vacuous: two patterns with two axes of flags, and two patterns at the same place. -/
example (p : Pattern) :
    constructText "numpy" "retnums" (NDArray.vec [p, p]) ⟨[2, 1], [some true, none]⟩ true none = .error (.valueError "numpy") ∧
    constructText "numpy" "retnums" (NDArray.vec [p, p]) ⟨[], [some true]⟩ true (some (NDArray.vec [1, 1])) =
      .error (.valueError "retnums must not contain duplicated values.") := by
  constructor
  · exact (C146_texts _ _ _ _ _ _ (by simp [NDArray.WF, NDArray.vec]) (by simp)).1 fun B h => by
      simp [broadcastTo, broadcasts, NDArray.atleast1d, NDArray.vec] at h
  · exact ((((C146_texts _ _ _ _ _ _ (by simp [NDArray.WF, NDArray.vec]) (by simp [NDArray.WF, NDArray.vec])).2 _ (by
      simp [broadcastTo, broadcasts, NDArray.atleast1d, NDArray.vec]; rfl)).2 (by simp [NDArray.ndim, NDArray.vec])).2 _ rfl).2 (by simp [NDArray.ndim, NDArray.vec]) |>.1 (by simp)

end Paragami
