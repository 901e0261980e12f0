import Verif.Model.MessagesFree
import Verif.Props.Messages
import Verif.Props.RoundTrip
import Verif.Proofs.RoundingTree

/-! # Lemmas on the texts of exceptions with `free=True` -/

set_option linter.unusedSimpArgs false

namespace Paragami
open NDArray Pattern

namespace Messages
open Spec

theorem foldFree_same (fmt : Flt → String) (p : Pattern) : ∀ (x : NDArray Flt),
    resultOrClass (p.foldFreeText fmt x) = resultOrClass (p.foldFree x) := by
  induction p using Pattern.ind (Q := fun es => ∀ (x : NDArray Flt) (off : Nat),
      resultOrClass (foldFreeTextEs fmt es x off) = resultOrClass (foldFreeEs es x off)) with
  | hnum c s lb ub dv fd =>
    intro x
    have e : resultOrClass ((numeric c s lb ub dv fd).foldFree x) = resultOrClass (do
        let x ← checkFlat x s.prod
        let a ← (x.map (constrain1 lb.toFlt ub.toFlt)).reshape s
        return .arr a) := by
      simp only [foldFree, Numeric.foldFree, checkFlat, bind, Except.bind, throw, throwThe, MonadExceptOf.throw, pure, Except.pure]
      split_ifs <;> rfl
    rw [e, foldFreeText]
    exact result_bind (checkText_same ..) fun x _ _ => rfl
  | hsim k s dv fd =>
    intro x
    simp only [foldFreeText, foldFree, Simplex.foldFree, bind, Except.bind, throw, throwThe, MonadExceptOf.throw, pure, Except.pure]
    cases x.len with
    | error e => rfl
    | ok n =>
      simp only
      split_ifs
      · rfl
      · cases x.reshape (s ++ [k - 1]) with
        | error e => rfl
        | ok a => rfl
  | hpsd n lb dv fd =>
    intro x
    have e : resultOrClass ((psd n lb dv fd).foldFree x) = resultOrClass (do
        let x ← checkFlat x (n * (n + 1) / 2)
        let a ← unpackPosdef lb.toFlt x
        return .arr a) := by
      simp only [foldFree, PSD.foldFree, checkFlat, bind, Except.bind, throw, throwThe, MonadExceptOf.throw, pure, Except.pure]
      split_ifs <;> rfl
    rw [e, foldFreeText]
    exact result_bind (checkText_same ..) fun x _ _ => rfl
  | harr s b fd ih =>
    intro x
    rw [foldFreeText, foldFree]
    refine result_bind (checkText_same ..) fun x _ _ => result_bind ?_ fun _ _ _ => rfl
    unfold foldItems
    exact result_bind (result_mapE (fun it => result_bind (ih _) fun _ _ _ => rfl) _) fun _ _ _ => rfl
  | hdict es l fd ih =>
    intro x
    rw [foldFreeText, foldFree]
    exact result_bind (checkText_same ..) fun x _ _ => result_bind (ih x 0) fun _ _ _ => rfl
  | hnil x off => rfl
  | hcons k p r ihp ihr x off =>
    rw [foldFreeTextEs, foldFreeEs]
    exact result_bind (ihp _) fun _ _ _ => result_bind (ihr x _) fun _ _ _ => rfl

theorem flattenFree_same (fmt : Flt → String) (p : Pattern) : ∀ (v : Val Flt) (vv : Option Bool),
    resultOrClass (p.flattenFreeText fmt v vv) = resultOrClass (p.flattenFree v vv) := by
  induction p using Pattern.ind (Q := fun es => ∀ (vs : List (String × Val Flt)) (vv : Option Bool),
      resultOrClass (flattenFreeTextEs fmt es vs vv) = resultOrClass (flattenFreeEs es vs vv)) with
  | hnum c s lb ub dv fd =>
    intro v vv
    cases v with
    | dict d => rfl
    | arr a =>
      have e : (numeric c s lb ub dv fd).flattenFree (.arr a) vv = (do
          requireValid ((numeric c s lb ub dv fd).validate (.arr a.atleast1d) vv)
          return (a.atleast1d.map (unconstrain1 lb.toFlt ub.toFlt)).flatten) := by
        simp only [flattenFree, Numeric.flattenFree, requireValid, validate, Val.asArr, bind, Except.bind, throw, throwThe,
          MonadExceptOf.throw, pure, Except.pure]
        rcases Numeric.validate s lb.toFlt ub.toFlt dv a.atleast1d vv with ⟨b, m⟩
        cases b <;> rfl
      rw [e]
      exact result_bind (result_requireValid (validate_same ..)) fun _ _ _ => rfl
  | hsim k s dv fd =>
    intro v vv
    cases v with
    | dict d => rfl
    | arr a =>
      simp only [flattenFreeText, flattenFree, Simplex.flattenFree, requireValid, validateText, Val.asArr, bind, Except.bind, throw, throwThe,
        MonadExceptOf.throw, pure, Except.pure]
      rcases Simplex.validate k s dv a vv with e | ⟨b, m⟩
      · rfl
      · cases b <;> rfl
  | hpsd n lb dv fd =>
    intro v vv
    cases v with
    | dict d => rfl
    | arr a =>
      have e : (psd n lb dv fd).flattenFree (.arr a) vv = (do
          requireValid ((psd n lb dv fd).validate (.arr a) vv)
          packPosdef n lb.toFlt a) := by
        simp only [flattenFree, PSD.flattenFree, requireValid, validate, Val.asArr, bind, Except.bind, throw, throwThe,
          MonadExceptOf.throw, pure, Except.pure]
        rcases PSD.validate n lb.toFlt dv a vv with e | ⟨b, m⟩
        · rfl
        · cases b <;> rfl
      rw [e]
      exact result_bind (result_requireValid (validate_same ..)) fun _ _ _ => rfl
  | harr s b fd ih =>
    intro v vv
    rw [flattenFreeText, flattenFree]
    refine result_bind (result_requireValid (validate_same ..)) fun _ _ _ => result_bind rfl fun a _ _ => ?_
    unfold flattenItems
    exact result_bind (result_mapE (fun it => result_bind rfl fun sub _ _ => ih _ vv) _) fun _ _ _ => rfl
  | hdict es l fd ih =>
    intro v vv
    rw [flattenFreeText, flattenFree]
    exact result_bind (result_requireValid (validate_same ..)) fun _ _ _ => result_bind rfl fun vs _ _ => result_bind (ih vs vv) fun _ _ _ => rfl
  | hnil vs vv => rfl
  | hcons k p r ihp ihr vs vv =>
    rw [flattenFreeTextEs, flattenFreeEs]
    cases vs.lookup k with
    | none => rfl
    | some v => exact result_bind (ihp v vv) fun _ _ _ => result_bind (ihr vs vv) fun _ _ _ => rfl

/-- A free vector of the right length can always be folded. -/
theorem foldFree_total (p : Pattern) : p.WF → ∀ l : List Flt, l.length = p.flatLen true → ∃ v, p.foldFree (vec l) = .ok v := by
  induction p using Pattern.ind (Q := fun es => WFEs es → ∀ (l : List Flt) (off : Nat), l.length = off + flatLenEs es true →
      ∃ vs, foldFreeEs es (vec l) off = .ok vs) with
  | hnum c s lb ub dv fd =>
    intro hw l hl
    have hl' : l.length = s.prod := by simpa [flatLen] using hl
    exact ⟨_, by rw [← Arith.exact_foldFree, foldFreeA, numeric_foldFreeA hl']; rfl⟩
  | hsim k s dv fd =>
    intro hw l hl
    have hl' : l.length = (s ++ [k - 1]).prod := by simpa [flatLen] using hl
    exact ⟨_, by rw [← Arith.exact_foldFree, foldFreeA, simplex_foldFreeA hl']; rfl⟩
  | hpsd n lb dv fd =>
    intro hw l hl
    have hl' : l.length = tri n := by simpa [flatLen, tri] using hl
    exact ⟨_, by rw [← Arith.exact_foldFree, foldFreeA, psd_foldFreeA hl']; rfl⟩
  | harr s b fd ih =>
    intro hw l hl
    simp only [Pattern.WF] at hw
    simp only [flatLen] at hl
    have hB : ∀ i, ∃ d : List Flt, i < s.prod → b.foldFree (vec (chunk (b.flatLen true) l i)) = .ok (.arr ⟨b.shape, d⟩) := by
      intro i
      by_cases hi : i < s.prod
      · obtain ⟨v, h1⟩ := ih hw.2.2 (chunk (b.flatLen true) l i) (length_chunk hl hi)
        obtain ⟨d, rfl, _⟩ := foldFree_ok_arr b hw.2.2 hw.2.1 _ _ h1
        exact ⟨d, fun _ => h1⟩
      · exact ⟨[], fun h => absurd h hi⟩
    choose g hg using hB
    refine ⟨_, (foldFree_array_iff fun l' c hc => ?_).mpr ⟨hl, g, hg, rfl⟩⟩
    obtain ⟨d, hd, hd'⟩ := foldFree_ok_arr b hw.2.2 hw.2.1 _ _ hc
    simp only [Val.arr.injEq] at hd
    subst hd
    exact ⟨rfl, hd'⟩
  | hdict es l fd ih =>
    intro hw l hl
    simp only [Pattern.WF] at hw
    simp only [flatLen] at hl
    obtain ⟨vs, h⟩ := ih hw.2 l 0 (by omega)
    exact ⟨.dict vs, by rw [foldFree_dict_unfold, checkFlat_vec hl]; simp only [bind, Except.bind, h]; rfl⟩
  | hnil hw l off hl => exact ⟨[], by simp [foldFreeEs]⟩
  | hcons k p r ihp ihr hw l off hl =>
    simp only [WFEs] at hw
    simp only [flatLenEs] at hl
    obtain ⟨vs, h⟩ := ihr hw.2.2 l (off + p.flatLen true) (by omega)
    obtain ⟨v, g⟩ := ihp hw.1 ((l.drop off).take (p.flatLen true)) (by simp; omega)
    have : (vec l).slice off (p.flatLen true) = vec ((l.drop off).take (p.flatLen true)) := rfl
    exact ⟨(k, v) :: vs, by simp only [foldFreeEs, bind, Except.bind, this, g, h, pure, Except.pure]⟩

theorem mapE_error_mem {β γ : Type} {f : β → Except Err γ} {e : Err} : ∀ {l : List β}, mapE f l = .error e → ∃ b ∈ l, f b = .error e
  | [], h => by simp [mapE] at h
  | b :: l, h => by
    rw [mapE] at h
    rcases hb : f b with e' | c
    · simp only [hb] at h
      obtain rfl : e' = e := by simpa using h
      exact ⟨b, by simp, hb⟩
    · simp only [hb] at h
      rcases hl : mapE f l with e' | c
      · simp only [hl] at h
        obtain rfl : e' = e := by simpa using h
        obtain ⟨b', h1, h2⟩ := mapE_error_mem hl
        exact ⟨b', by simp [h1], h2⟩
      · simp [hl] at h

/-- What can still go wrong once the value is accepted: a matrix that is not positive definite, or nothing to concatenate. -/
theorem flattenFree_accepted (p : Pattern) : ∀ (v : Val Flt) (vv : Option Bool) {e : Err}, Acc p v vv → p.flattenFree v vv = .error e →
    e = .linAlgError ∨ e = .indexError ∨ e = .unmodelled := by
  induction p using Pattern.ind (Q := fun es => ∀ (vs : List (String × Val Flt)) (vv : Option Bool) {e : Err}, AccEs es vs vv →
      flattenFreeEs es vs vv = .error e → e = .linAlgError ∨ e = .indexError ∨ e = .unmodelled) with
  | hnum c s lb ub dv fd =>
    intro v vv e ha h
    obtain ⟨a, rfl, _⟩ := acc_numeric.mp ha
    have e1 : Numeric.validate s lb.toFlt ub.toFlt dv a.atleast1d vv = (true, "") := by
      have := acc_numeric_arr.mp ha
      rw [← this]
      unfold Numeric.validate
      rw [atleast1d_of_ne (atleast1d_shape_ne_nil a)]
    simp [flattenFree, Numeric.flattenFree, Val.asArr, bind, Except.bind, e1, pure, Except.pure] at h
  | hsim k s dv fd =>
    intro v vv e ha h
    obtain ⟨a, rfl, _⟩ := acc_simplex.mp ha
    obtain ⟨m, hm⟩ := ha
    simp only [validate, Val.asArr, bind, Except.bind] at hm
    simp [flattenFree, Simplex.flattenFree, Val.asArr, bind, Except.bind, hm, pure, Except.pure] at h
  | hpsd n lb dv fd =>
    intro v vv e ha h
    obtain ⟨a, rfl, _⟩ := acc_psd.mp ha
    obtain ⟨m, hm⟩ := ha
    simp only [validate, Val.asArr, bind, Except.bind] at hm
    simp only [flattenFree, PSD.flattenFree, Val.asArr, bind, Except.bind, hm, pure, Except.pure, packPosdef, Bool.not_true,
      Bool.false_eq_true, if_false] at h
    rcases hc : cholesky n (ofFn2 n n fun i j => entry n a.data i j - (if i = j then lb.toFlt else 0)) with e' | c
    · rw [hc] at h
      obtain rfl : e' = e := by simpa using h
      unfold cholesky at hc
      split_ifs at hc
      · simp only [Except.error.injEq] at hc; exact .inl hc.symm
      · simp only [Except.error.injEq] at hc; exact .inr (.inr hc.symm)
    · rw [hc] at h
      simp only [logDiag, vectorizeLd_ofFn2] at h
      simp at h
  | harr s b fd ih =>
    intro v vv e ha h
    obtain ⟨a, rfl, hsh, hi⟩ := acc_array.mp ha
    rw [flattenFree_array_unfold, requireValid_ok_iff.mpr ha] at h
    simp only [Val.asArr, bind, Except.bind, flattenItems] at h
    rcases hm : mapE (fun item => (a.getItem item >>= fun sub => b.flattenFree (.arr sub) vv)) (productRanges s) with e' | parts
    · simp only [bind, Except.bind] at hm
      rw [hm] at h
      obtain rfl : e' = e := by simpa using h
      obtain ⟨item, h1, h2⟩ := mapE_error_mem hm
      rw [getItem_eq hsh h1] at h2
      exact ih _ vv (hi _ (List.mem_range.mp (map_ravel_productRanges s ▸ List.mem_map_of_mem h1))) h2
    · simp only [bind, Except.bind] at hm
      rw [hm] at h
      simp only [hstack] at h
      split at h
      · simp only [Except.error.injEq] at h; exact .inr (.inl h.symm)
      · simp at h
  | hdict es l fd ih =>
    intro v vv e ha h
    obtain ⟨vs, rfl, hes⟩ := acc_dict.mp ha
    rw [flattenFree_dict_unfold, requireValid_ok_iff.mpr ha] at h
    simp only [Val.asDict, bind, Except.bind] at h
    rcases hm : flattenFreeEs es vs vv with e' | parts
    · rw [hm] at h
      obtain rfl : e' = e := by simpa using h
      exact ih vs vv hes hm
    · rw [hm] at h
      simp only [hstack] at h
      split at h
      · simp only [Except.error.injEq] at h; exact .inr (.inl h.symm)
      · simp at h
  | hnil vs vv _ h => simp [flattenFreeEs] at h
  | hcons k p r ihp ihr vs vv ha h =>
    obtain ⟨⟨v, hv, hp⟩, hr⟩ := ha
    simp only [flattenFreeEs, hv, bind, Except.bind] at h
    rcases h1 : p.flattenFree v vv with e' | x
    · rw [h1] at h
      obtain rfl := Except.error.inj h
      exact ihp v vv hp h1
    · rw [h1] at h
      rcases h2 : flattenFreeEs r vs vv with e' | xs
      · rw [h2] at h
        obtain rfl := Except.error.inj h
        exact ihr vs vv hr h2
      · rw [h2] at h; simp [pure, Except.pure] at h

end Messages
end Paragami
