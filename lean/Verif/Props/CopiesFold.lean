import Verif.Props.Copies
import Verif.Props.MessagesFree

/-! # Folding with a length that is too short (C138) -/

namespace Paragami.Copies

open Pattern NDArray Messages

/-- Folding without free values by a vector of the right length raises nothing but `ValueError`. -/
theorem foldNF_error {p : Pattern} (hw : p.WF) {l : List Flt} (hl : l.length = p.flatLen false) {vv : Option Bool} {e : Err}
    (h : p.foldNF (vec l) vv = .error e) : ∃ m, e = .valueError m := by
  have hs := fold_same (fun _ => "") p (vec l) vv
  rw [h] at hs
  rcases hf : p.foldText (fun _ => "") (vec l) vv with e' | v
  · obtain ⟨m, rfl, _⟩ := C133_fold_rule (WF.built _ hw) _ hl vv hf
    rw [hf] at hs
    cases e <;> simp [Spec.resultOrClass, Spec.exceptionClass] at hs ⊢
  · rw [hf] at hs; simp [Spec.resultOrClass] at hs

theorem foldNFEs_short_value (es : Entries) : WFEs es → ∀ (l : List Flt) (vv : Option Bool) (o : Nat), o ≤ l.length →
    l.length < o + flatLenEs es false → ∃ m, foldNFEs es (vec l) vv o = .error (.valueError m) := by
  induction es using Entries.rec (motive_1 := fun _ => True) with
  | nil => intro _ l vv o h1 h2; rw [flatLenEs] at h2; omega
  | cons k p r _ ih =>
    intro hw l vv o h1 h2
    rw [flatLenEs] at h2
    rw [foldNFEs]
    have e : (vec l).slice o (p.flatLen false) = vec ((l.drop o).take (p.flatLen false)) := rfl
    by_cases h : o + p.flatLen false ≤ l.length
    · obtain ⟨m, hm⟩ := ih hw.2.2 l vv (o + p.flatLen false) h (by omega)
      rcases hp : p.foldNF ((vec l).slice o (p.flatLen false)) vv with e' | v
      · rw [e] at hp
        obtain ⟨m, rfl⟩ := foldNF_error hw.1 (by simp; omega) hp
        exact ⟨m, rfl⟩
      · exact ⟨m, by simp only [bind, Except.bind, hm]⟩
    · obtain ⟨m, hm⟩ := C07_fold_rejects_wrong_size (p := p) (free := some false) (vv := vv) (flatLength_some _ _)
        (l := (l.drop o).take (p.flatLen false)) (by simp; omega)
      rw [fold_false] at hm
      rw [e, hm]
      exact ⟨_, rfl⟩
  | _ => trivial

theorem foldFreeEs_short_value (es : Entries) : WFEs es → ∀ (l : List Flt) (o : Nat), o ≤ l.length → l.length < o + flatLenEs es true →
    ∃ m, foldFreeEs es (vec l) o = .error (.valueError m) := by
  induction es using Entries.rec (motive_1 := fun _ => True) with
  | nil => intro _ l o h1 h2; rw [flatLenEs] at h2; omega
  | cons k p r _ ih =>
    intro hw l o h1 h2
    rw [flatLenEs] at h2
    rw [foldFreeEs]
    have e : (vec l).slice o (p.flatLen true) = vec ((l.drop o).take (p.flatLen true)) := rfl
    by_cases h : o + p.flatLen true ≤ l.length
    · obtain ⟨m, hm⟩ := ih hw.2.2 l (o + p.flatLen true) h (by omega)
      obtain ⟨v, hv⟩ := foldFree_total p hw.1 ((l.drop o).take (p.flatLen true)) (by simp; omega)
      exact ⟨m, by simp only [bind, Except.bind, e, hv, hm]⟩
    · obtain ⟨m, hm⟩ := C07_fold_rejects_wrong_size (p := p) (free := some true) (vv := none) (flatLength_some _ _)
        (l := (l.drop o).take (p.flatLen true)) (by simp; omega)
      rw [fold_true] at hm
      rw [e, hm]
      exact ⟨_, rfl⟩
  | _ => trivial

/-- **C138.**  In a program, if the cached length of a dictionary is less than what its members take, `fold` raises `ValueError` for every
vector, with free values or without. -/
theorem C138_fold_short {s : State} (hs : Reached s) {d : Nat} {o : Obj} {es : Entries} (hd : look s d = some (o, es))
    {b : Bool} {n : Nat} (hn : (Pattern.dict es o.locked o.fd).flatLength (some b) = .ok n) (hlt : o.len b < n) (l : List Flt)
    (vv : Option Bool) : ∃ m, o.fold es (vec l) (some b) vv = .error (.valueError m) := by
  have hw := hs.inv.members _ _ (look_iff.mp hd).2
  rw [flatLength_some, Pattern.flatLen] at hn
  obtain rfl := Except.ok.inj hn
  by_cases hl : l.length = o.len b
  · simp only [Obj.fold, freeWithDefault, bind, Except.bind, checkFlat_vec hl, pure, Except.pure]
    cases b
    · obtain ⟨m, hm⟩ := foldNFEs_short_value es hw.2 l vv 0 (Nat.zero_le _) (by omega)
      exact ⟨m, by simp only [hm, Bool.false_eq_true, if_false]⟩
    · obtain ⟨m, hm⟩ := foldFreeEs_short_value es hw.2 l 0 (Nat.zero_le _) (by omega)
      exact ⟨m, by simp only [hm, if_true]⟩
  · obtain ⟨m, hm⟩ := checkFlat_err (x := vec l) (n := o.len b) (by simpa [vec] using hl)
    exact ⟨m, by simp only [Obj.fold, freeWithDefault, bind, Except.bind, hm]⟩

/-- Non-vacuity: the program of `Props/Copies.lean`, after which a locked dictionary says 1 and has members of length 2. -/
example : ∃ (o : Obj) (es : Entries) (s : State), Reached s ∧ look s 0 = some (o, es) ∧
    ∀ (l : List Flt) (vv : Option Bool), ∃ m, o.fold es (vec l) (some false) vv = .error (.valueError m) := by
  have hb : Built (.numeric .scalar [1] (.flt .ninf) (.flt .pinf) true none) :=
    WF.built _ (by simp [Pattern.WF, PyNum.toFlt, Flt.NotNaN, Flt.lt])
  let p : Pattern := .numeric .scalar [1] (.flt .ninf) (.flt .pinf) true none
  have hr : Reached (run ⟨[], []⟩ [.new none, .set 0 "a" p, .copy 0, .lock 0, .set 1 "b" p]) := ⟨_, by
    intro d k q h
    simp only [List.mem_cons, reduceCtorEq, Op.set.injEq, List.not_mem_nil, or_false, false_or] at h
    rcases h with ⟨_, _, rfl⟩ | ⟨_, _, rfl⟩ <;> exact hb, rfl⟩
  have hl : look (run ⟨[], []⟩ [.new none, .set 0 "a" p, .copy 0, .lock 0, .set 1 "b" p]) 0 =
      some (⟨0, true, 1, 1, none⟩, .cons "a" p (.cons "b" p .nil)) := by
    simp [run, step, look, store, Entries.set, Pattern.lock, p, flatLenEs, Pattern.flatLen]
  exact ⟨_, _, _, hr, hl, fun l vv => C138_fold_short hr hl (n := 2)
    (by simp [flatLength_some, Pattern.flatLen, flatLenEs, p]) (by simp [Obj.len]) l vv⟩

end Paragami.Copies
