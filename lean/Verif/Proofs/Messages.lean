import Verif.Proofs.NonfreeTrip
import Verif.Proofs.Str
import Verif.Spec.Messages

/-! # Lemmas on the texts of exceptions -/

set_option linter.unusedSimpArgs false

namespace Paragami
open NDArray Pattern

namespace Messages
open Spec

variable {α : Type}

theorem result_bind {β γ : Type} {x y : Except Err β} {f g : β → Except Err γ} (h : resultOrClass x = resultOrClass y)
    (hf : ∀ b, x = .ok b → y = .ok b → resultOrClass (f b) = resultOrClass (g b)) :
    resultOrClass (x >>= f) = resultOrClass (y >>= g) := by
  cases x with
  | error e => cases y with
    | error e' => simpa [resultOrClass, bind, Except.bind] using h
    | ok b => simp [resultOrClass] at h
  | ok b => cases y with
    | error e' => simp [resultOrClass] at h
    | ok b' =>
      simp only [resultOrClass, Except.ok.injEq] at h
      subst h
      exact hf b rfl rfl

theorem result_mapE {β γ : Type} {f g : β → Except Err γ} (h : ∀ b, resultOrClass (f b) = resultOrClass (g b)) :
    ∀ l : List β, resultOrClass (mapE f l) = resultOrClass (mapE g l)
  | [] => rfl
  | b :: l => by
    have hb := h b
    have ih := result_mapE h l
    simp only [mapE]
    cases hf : f b with
    | error e => cases hg : g b with
      | error e' => simpa [hf, hg, resultOrClass] using hb
      | ok c => simp [hf, hg, resultOrClass] at hb
    | ok c => cases hg : g b with
      | error e' => simp [hf, hg, resultOrClass] at hb
      | ok c' =>
        simp only [hf, hg, resultOrClass, Except.ok.injEq] at hb
        subst hb
        simp only
        cases hfl : mapE f l with
        | error e => cases hgl : mapE g l with
          | error e' => simpa [hfl, hgl, resultOrClass] using ih
          | ok d => simp [hfl, hgl, resultOrClass] at ih
        | ok d => cases hgl : mapE g l with
          | error e' => simp [hfl, hgl, resultOrClass] at ih
          | ok d' => simpa [hfl, hgl, resultOrClass] using ih

theorem result_requireValid {x y : Except Err (Bool × String)} (h : answerOrClass x = answerOrClass y) :
    resultOrClass (requireValid x) = resultOrClass (requireValid y) := by
  match x, y with
  | .error e, .error e' => simpa [answerOrClass, requireValid, bind, Except.bind, resultOrClass] using h
  | .error e, .ok (b, m) => simp [answerOrClass] at h
  | .ok (b, m), .error e => simp [answerOrClass] at h
  | .ok (b, m), .ok (b', m') =>
    simp only [answerOrClass, Except.ok.injEq] at h
    subst h
    cases b <;> rfl

variable [Elem α]

omit [Elem α] in
theorem items_same {f g : NDArray α → Except Err (Bool × String)} (h : ∀ x, answerOrClass (f x) = answerOrClass (g x)) (a : NDArray α) :
    ∀ l : List (List Nat), answerOrClass (itemsText f a l) = answerOrClass (validateItems g a l)
  | [] => rfl
  | it :: l => by
    have ih := items_same h a l
    simp only [itemsText, validateItems, bind, Except.bind]
    cases a.getItem it with
    | error e => rfl
    | ok sub =>
      have hs := h sub
      match hf : f sub, hg : g sub with
      | .error e, .error e' => simpa [hf, hg, answerOrClass] using hs
      | .error e, .ok (b, m) => simp [hf, hg, answerOrClass] at hs
      | .ok (b, m), .error e => simp [hf, hg, answerOrClass] at hs
      | .ok (b, m), .ok (b', m') =>
        simp only [hf, hg, answerOrClass, Except.ok.injEq] at hs
        subst hs
        simp only [hf, hg]
        cases b
        · rfl
        · simpa using ih

theorem numericText_same (s : List Nat) (lb ub : Flt) (dv : Bool) (a : NDArray α) (vv : Option Bool) :
    (numericText s lb ub dv a vv).1 = (Numeric.validate s lb ub dv a vv).1 := by
  simp only [numericText, Numeric.validate, Numeric.validateShape]
  by_cases h : a.atleast1d.shape = s
  · simp only [h, ne_eq, not_true_eq_false, if_false, if_true, Bool.not_true, Bool.false_eq_true]
  · simp [h]

theorem psdText_same (fmt : Flt → String) (n : Nat) (lb : PyNum) (dv : Bool) (a : NDArray α) (vv : Option Bool) :
    answerOrClass (psdText fmt n lb dv a vv) = answerOrClass (PSD.validate n lb.toFlt dv a vv) := by
  simp only [psdText, PSD.validate, PSD.validateShape]
  by_cases h : a.shape = [n, n]
  · simp only [h, ne_eq, not_true_eq_false, if_false, if_true, Bool.not_true, Bool.false_eq_true]
    split
    · split
      · rfl
      · rfl
    · rfl
  · simp [h, answerOrClass, exceptionClass]

theorem validate_same (fmt : Flt → String) (p : Pattern) : ∀ (v : Val α) (vv : Option Bool),
    answerOrClass (p.validateText fmt v vv) = answerOrClass (p.validate v vv) := by
  induction p using Pattern.ind (Q := fun es => ∀ (vs : List (String × Val α)) (vv : Option Bool),
      answerOrClass (validateTextEs fmt es vs vv) = answerOrClass (validateEs es vs vv)) with
  | hnum c s lb ub dv fd =>
    intro v vv
    cases v with
    | dict d => rfl
    | arr a => simp [validateText, validate, Val.asArr, bind, Except.bind, pure, Except.pure, answerOrClass, numericText_same]
  | hsim k s dv fd => intro v vv; rfl
  | hpsd n lb dv fd =>
    intro v vv
    cases v with
    | dict d => rfl
    | arr a => simp [validateText, validate, Val.asArr, bind, Except.bind, psdText_same]
  | harr s b fd ih =>
    intro v vv
    cases v with
    | dict d => rfl
    | arr a =>
      simp only [validateText, validate, Val.asArr, bind, Except.bind, pure, Except.pure]
      split
      · rfl
      · split
        · rfl
        · exact items_same (fun x => ih (.arr x) vv) a _
  | hdict es l fd ih =>
    intro v vv
    cases v with
    | arr a => rfl
    | dict vs => simpa [validateText, validate, Val.asDict, bind, Except.bind] using ih vs vv
  | hnil vs vv => rfl
  | hcons k p r ihp ihr vs vv =>
    simp only [validateTextEs, validateEs]
    cases vs.lookup k with
    | none => rfl
    | some v =>
      have hv := ihp v vv
      simp only [bind, Except.bind]
      match hf : p.validateText fmt v vv, hg : p.validate v vv with
      | .error e, .error e' => simpa [hf, hg, answerOrClass] using hv
      | .error e, .ok (b, m) => simp [hf, hg, answerOrClass] at hv
      | .ok (b, m), .error e => simp [hf, hg, answerOrClass] at hv
      | .ok (b, m), .ok (b', m') =>
        simp only [hf, hg, answerOrClass, Except.ok.injEq] at hv
        subst hv
        cases b
        · rfl
        · simpa using ihr vs vv

omit [Elem α] in
theorem checkText_same (fmt : Flt → String) (p : Pattern) (x : NDArray α) (n : Nat) :
    resultOrClass (checkText fmt p x n) = resultOrClass (checkFlat x n) := by
  simp only [checkText, checkFlat, bind, Except.bind, throw, throwThe, MonadExceptOf.throw, pure, Except.pure]
  split
  · rfl
  · split
    · rfl
    · rfl

theorem fold_same (fmt : Flt → String) (p : Pattern) : ∀ (x : NDArray α) (vv : Option Bool),
    resultOrClass (p.foldText fmt x vv) = resultOrClass (p.foldNF x vv) := by
  induction p using Pattern.ind (Q := fun es => ∀ (x : NDArray α) (vv : Option Bool) (off : Nat),
      resultOrClass (foldTextEs fmt es x vv off) = resultOrClass (foldNFEs es x vv off)) with
  | hnum c s lb ub dv fd =>
    intro x vv
    have e : resultOrClass ((numeric c s lb ub dv fd).foldNF x vv) = resultOrClass (do
        let x ← checkFlat x s.prod
        let a ← x.reshape s
        requireValid ((numeric c s lb ub dv fd).validate (.arr a) vv)
        return .arr a) := by
      simp only [foldNF, Numeric.foldNF, checkFlat, requireValid, validate, Val.asArr, bind, Except.bind, throw, throwThe,
        MonadExceptOf.throw, pure, Except.pure]
      split_ifs <;> try rfl
      cases hr : x.atleast1d.reshape s with
      | error e => simp only [hr]
      | ok a =>
        simp only [hr]
        rcases Numeric.validate s lb.toFlt ub.toFlt dv a vv with ⟨b, m⟩
        cases b <;> rfl
    rw [e, foldText]
    exact result_bind (checkText_same ..) fun x _ _ => result_bind rfl fun a _ _ => result_bind
      (result_requireValid (validate_same ..)) fun _ _ _ => rfl
  | hsim k s dv fd =>
    intro x vv
    simp only [foldText, foldNF, Simplex.foldNF, requireValid, validateText, Val.asArr, bind, Except.bind, throw, throwThe,
        MonadExceptOf.throw, pure, Except.pure]
    cases x.len with
    | error e => rfl
    | ok n =>
      simp only
      split_ifs
      · rfl
      · cases x.reshape (s ++ [k]) with
        | error e => rfl
        | ok a =>
          simp only
          rcases Simplex.validate k s dv a vv with e | ⟨b, m⟩
          · rfl
          · cases b <;> rfl
  | hpsd n lb dv fd =>
    intro x vv
    have e : resultOrClass ((psd n lb dv fd).foldNF x vv) = resultOrClass (do
        let x ← checkFlat x (n ^ 2)
        let a ← x.reshape [n, n]
        requireValid ((psd n lb dv fd).validate (.arr a) vv)
        return .arr a) := by
      simp only [foldNF, PSD.foldNF, checkFlat, requireValid, validate, Val.asArr, bind, Except.bind, throw, throwThe,
        MonadExceptOf.throw, pure, Except.pure]
      split_ifs <;> try rfl
      cases hr : x.atleast1d.reshape [n, n] with
      | error e => simp only [hr]
      | ok a =>
        simp only [hr]
        rcases PSD.validate n lb.toFlt dv a vv with e | ⟨b, m⟩
        · rfl
        · cases b <;> rfl
    rw [e, foldText]
    exact result_bind (checkText_same ..) fun x _ _ => result_bind rfl fun a _ _ => result_bind
      (result_requireValid (validate_same ..)) fun _ _ _ => rfl
  | harr s b fd ih =>
    intro x vv
    rw [foldText, foldNF]
    refine result_bind (checkText_same ..) fun x _ _ => result_bind ?_ fun a _ _ => result_bind
      (result_requireValid (validate_same ..)) fun _ _ _ => rfl
    unfold foldItems
    exact result_bind (result_mapE (fun it => result_bind (ih _ vv) fun _ _ _ => rfl) _) fun _ _ _ => rfl
  | hdict es l fd ih =>
    intro x vv
    rw [foldText, foldNF]
    exact result_bind (checkText_same ..) fun x _ _ => result_bind (ih x vv 0) fun a _ _ => result_bind
      (result_requireValid (validate_same ..)) fun _ _ _ => rfl
  | hnil x vv off => rfl
  | hcons k p r ihp ihr x vv off =>
    rw [foldTextEs, foldNFEs]
    exact result_bind (ihp _ vv) fun _ _ _ => result_bind (ihr x vv _) fun _ _ _ => rfl

theorem flatten_same (fmt : Flt → String) (p : Pattern) : ∀ (v : Val α) (vv : Option Bool),
    resultOrClass (p.flattenText fmt v vv) = resultOrClass (p.flattenNF v vv) := by
  induction p using Pattern.ind (Q := fun es => ∀ (vs : List (String × Val α)) (vv : Option Bool),
      resultOrClass (flattenTextEs fmt es vs vv) = resultOrClass (flattenNFEs es vs vv)) with
  | hnum c s lb ub dv fd =>
    intro v vv
    cases v with
    | dict d => rfl
    | arr a =>
      have e : (numeric c s lb ub dv fd).flattenNF (.arr a) vv = (do
          requireValid ((numeric c s lb ub dv fd).validate (.arr a.atleast1d) vv)
          return a.atleast1d.flatten) := by
        simp only [flattenNF, Numeric.flattenNF, requireValid, validate, Val.asArr, bind, Except.bind, throw, throwThe,
          MonadExceptOf.throw, pure, Except.pure]
        rcases Numeric.validate s lb.toFlt ub.toFlt dv a.atleast1d vv with ⟨b, m⟩
        cases b <;> rfl
      rw [e]
      exact result_bind (result_requireValid (validate_same ..)) fun _ _ _ => rfl
  | hsim k s dv fd =>
    intro v vv
    cases v with
    | dict d => rfl
    | arr a =>
      simp only [flattenText, flattenNF, Simplex.flattenNF, requireValid, validateText, Val.asArr, bind, Except.bind, throw, throwThe,
        MonadExceptOf.throw, pure, Except.pure]
      rcases Simplex.validate k s dv a vv with e | ⟨b, m⟩
      · rfl
      · cases b <;> rfl
  | hpsd n lb dv fd =>
    intro v vv
    cases v with
    | dict d => rfl
    | arr a =>
      have e : (psd n lb dv fd).flattenNF (.arr a) vv = (do
          requireValid ((psd n lb dv fd).validate (.arr a) vv)
          return a.flatten) := by
        simp only [flattenNF, PSD.flattenNF, requireValid, validate, Val.asArr, bind, Except.bind, throw, throwThe,
          MonadExceptOf.throw, pure, Except.pure]
        rcases PSD.validate n lb.toFlt dv a vv with e | ⟨b, m⟩
        · rfl
        · cases b <;> rfl
      rw [e]
      exact result_bind (result_requireValid (validate_same ..)) fun _ _ _ => rfl
  | harr s b fd ih =>
    intro v vv
    rw [flattenText, flattenNF]
    refine result_bind (result_requireValid (validate_same ..)) fun _ _ _ => result_bind rfl fun a _ _ => ?_
    unfold flattenItems
    exact result_bind (result_mapE (fun it => result_bind rfl fun sub _ _ => ih _ vv) _) fun _ _ _ => rfl
  | hdict es l fd ih =>
    intro v vv
    rw [flattenText, flattenNF]
    exact result_bind (result_requireValid (validate_same ..)) fun _ _ _ => result_bind rfl fun vs _ _ => result_bind (ih vs vv) fun _ _ _ => rfl
  | hnil vs vv => rfl
  | hcons k p r ihp ihr vs vv =>
    rw [flattenTextEs, flattenNFEs]
    cases vs.lookup k with
    | none => rfl
    | some v => exact result_bind (ihp v vv) fun _ _ _ => result_bind (ihr vs vv) fun _ _ _ => rfl

end Messages
end Paragami
