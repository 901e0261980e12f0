import Verif.Proofs.Json
import Verif.Props.RoundTrip

/-! # C29–C34: JSON and equality of patterns -/

namespace Paragami
open Pattern NDArray

theorem initial_builtins : Spec.HasBuiltins initialRegistry := by
  intro b; cases b <;> decide

/-! ### C29 -/

/-- **C29.** Reading back the JSON text of a pattern succeeds, and the result behaves as the original whenever `free` is given. -/
theorem C29_round_trip {reg : Registry} (hr : Spec.HasBuiltins reg) (user : Nat → PyVal → Except Err Pattern) {p : Pattern}
    (hp : Built p) : ∃ q, Json.getPatternFromJson reg user p.toJson = .ok q ∧ Spec.SameBehaviour p q ∧ Built q := by
  refine ⟨Spec.forget p, decode hr p hp.wf, same_forget p hp.wf, WF.built _ ?_⟩
  exact forget_wf p hp.wf

/-- **C29.** The result compares equal to the original (unless the pattern is a PSD pattern with a NaN bound: it only equals
patterns with the same NaN object, and the one read is another), in both directions. -/
theorem C29_equal {reg : Registry} (hr : Spec.HasBuiltins reg) (user : Nat → PyVal → Except Err Pattern) {p q : Pattern}
    (hp : Built p) (h : Json.getPatternFromJson reg user p.toJson = .ok q) :
    (p.EqPy q ↔ p.EqPy p) ∧ (q.EqPy p ↔ p.EqPy p) ∧ (Spec.NotNaNBound p → p.EqPy q ∧ q.EqPy p) := by
  have h1 := decode (user := user) hr p hp.wf
  have h2 : (Except.ok (Spec.forget p) : Except Err Pattern) = .ok q := h1 ▸ h
  obtain rfl := Except.ok.inj h2
  refine ⟨?_, ?_, fun hn => ⟨?_, ?_⟩⟩
  · simp only [EqPy, cls_forget, asDict_forget]
  · simp only [EqPy, cls_forget, asDict_forget]
  · have : p.EqPy p := (eqPy_iff hp.wf hp.wf).mpr (same_refl p hp.wf hn)
    simpa only [EqPy, cls_forget, asDict_forget] using this
  · have : p.EqPy p := (eqPy_iff hp.wf hp.wf).mpr (same_refl p hp.wf hn)
    simpa only [EqPy, cls_forget, asDict_forget] using this

/-- The exception in C29: such a pattern can be built. -/
example : ∃ p, mkPSD 2 (.flt .nan) true none = .ok p ∧ ¬ p.EqPy p := by
  refine ⟨.psd 2 (.flt .nan) true none, by simp [mkPSD, PyNum.toFlt, Flt.lt], ?_⟩
  rw [eqPy_iff (by simp [Pattern.WF, PyNum.toFlt, Flt.lt]) (by simp [Pattern.WF, PyNum.toFlt, Flt.lt])]
  simp [Spec.Same, Spec.NumEq, PyNum.toFlt, Flt.NotNaN]

/-- Non-vacuity: a nested pattern goes through JSON, loses its `free_default` and the one inside, and compares equal. -/
example : Built exPat ∧ Spec.HasBuiltins initialRegistry ∧ Spec.NotNaNBound exPat ∧ Spec.forget exPat ≠ exPat :=
  ⟨exPat_built, initial_builtins, trivial, by simp [exPat, Spec.forget]⟩

/-! ### C30 -/

/-- **C30.** Exactly what survives: everything that `forget` keeps. -/
theorem C30_exactly {reg : Registry} (hr : Spec.HasBuiltins reg) (user : Nat → PyVal → Except Err Pattern) {p : Pattern}
    (hp : Built p) : Json.getPatternFromJson reg user p.toJson = .ok (Spec.forget p) :=
  decode hr p hp.wf

/-- **C30.** The pattern read back is the original one exactly when the original is not a locked dictionary and no `free_default`
is set on any simplex, PSD, array or dictionary pattern in it. -/
theorem C30_iff {reg : Registry} (hr : Spec.HasBuiltins reg) (user : Nat → PyVal → Except Err Pattern) {p : Pattern}
    (hp : Built p) : Json.getPatternFromJson reg user p.toJson = .ok p ↔ Spec.Unlocked p ∧ Spec.NoDefault p := by
  rw [C30_exactly hr user hp, ← forget_eq_iff p hp.wf, Except.ok.injEq]

/-- **C30.** Going through JSON a second time changes nothing more. -/
theorem C30_idempotent {reg : Registry} (hr : Spec.HasBuiltins reg) (user : Nat → PyVal → Except Err Pattern) {p q : Pattern}
    (hp : Built p) (h : Json.getPatternFromJson reg user p.toJson = .ok q) :
    q.toJson = p.toJson ∧ Json.getPatternFromJson reg user q.toJson = .ok q := by
  rw [C30_exactly hr user hp] at h
  obtain rfl := Except.ok.inj h
  have e : (Spec.forget p).toJson = p.toJson := by simp only [toJson, asDict_forget]
  exact ⟨e, by rw [e]; exact C30_exactly hr user hp⟩

/-- **C30.** What is lost is visible to a user: with a `free_default`, the original folds without `free` and the one read back does
not. -/
theorem C30_default_lost {reg : Registry} (hr : Spec.HasBuiltins reg) (user : Nat → PyVal → Except Err Pattern) {p q : Pattern}
    (hp : Built p) (h : Json.getPatternFromJson reg user p.toJson = .ok q) (hn : ∀ c s lb ub dv fd, p ≠ .numeric c s lb ub dv fd) :
    q.freeDefault = none ∧ (∀ x vv, ∃ msg, q.fold x none vv = .error (.valueError msg)) ∧
      (p.freeDefault ≠ none → ∃ n, p.flatLength none = .ok n) := by
  rw [C30_exactly hr user hp] at h
  obtain rfl := Except.ok.inj h
  have hd : (Spec.forget p).freeDefault = none := by
    cases p with
    | numeric c s lb ub dv fd => exact absurd rfl (hn c s lb ub dv fd)
    | _ => simp [Spec.forget, freeDefault]
  refine ⟨hd, fun x vv => ?_, fun hf => ?_⟩
  · simp only [Pattern.fold, hd, freeWithDefault, bind, Except.bind]
    exact ⟨_, rfl⟩
  · obtain ⟨b, hb⟩ := Option.ne_none_iff_exists'.mp hf
    exact ⟨p.flatLen b, by simp [flatLength, hb, freeWithDefault, bind, Except.bind, pure, Except.pure]⟩

example : Built exPat ∧ ¬ (Spec.Unlocked exPat ∧ Spec.NoDefault exPat) ∧
    (∀ c s lb ub dv fd, exPat ≠ .numeric c s lb ub dv fd) ∧ exPat.freeDefault ≠ none :=
  ⟨exPat_built, by simp [exPat, Spec.NoDefault], by simp [exPat], by simp [exPat, freeDefault]⟩

/-- A locked dictionary comes back unlocked. -/
example : ∃ d, Built d ∧ Spec.NoDefault d ∧ ¬ Spec.Unlocked d ∧ Spec.forget d ≠ d :=
  ⟨(mkDict none).lock, .lock (.dict none), by simp [mkDict, lock, Spec.NoDefault, Spec.NoDefaultEs],
    by simp [mkDict, lock, Spec.Unlocked], by simp [mkDict, lock, Spec.forget]⟩

/-! ### C31 -/

/-- **C31.** A pattern equals another one that is made from the same numbers, except for a PSD pattern whose bound is NaN, if the other's is
another NaN object. -/
theorem C31_refl {p : Pattern} (hp : Built p) : p.EqPy p ↔ Spec.NotNaNBound p := by
  rw [eqPy_iff hp.wf hp.wf]
  refine ⟨fun h => ?_, same_refl p hp.wf⟩
  cases p with
  | psd n lb dv fd => simp only [Spec.Same] at h; exact h.2.1.2
  | _ => trivial

/-- **C31.** `==` is symmetric. -/
theorem C31_symm {p q : Pattern} (hp : Built p) (hq : Built q) (h : p.EqPy q) : q.EqPy p := by
  rw [eqPy_iff hp.wf hq.wf] at h
  rw [eqPy_iff hq.wf hp.wf]
  exact same_symm h

/-- **C31.** `==` is transitive. -/
theorem C31_trans {p q r : Pattern} (hp : Built p) (hq : Built q) (hr : Built r) (h : p.EqPy q) (h' : q.EqPy r) :
    p.EqPy r := by
  rw [eqPy_iff hp.wf hq.wf] at h
  rw [eqPy_iff hq.wf hr.wf] at h'
  rw [eqPy_iff hp.wf hr.wf]
  exact same_trans h h'

/-- **C31.** Patterns that compare equal behave identically when `free` is given. -/
theorem C31_sound {p q : Pattern} (hp : Built p) (hq : Built q) (h : p.EqPy q) : Spec.SameBehaviour p q :=
  same_behaviour hp.wf hq.wf ((eqPy_iff hp.wf hq.wf).mp h)

/-- **C31, the same NaN object.** Between patterns whose bounds are the same objects `==` is the same, except that two PSD patterns with the bound
NaN and the same size and `default_validate` are equal.  So every pattern equals itself, and patterns that are equal in this way too behave
identically when `free` is given. -/
theorem C31_shared {p q : Pattern} (hp : Built p) (hq : Built q) :
    p.EqPyShared p ∧ (p.EqPyShared q ↔ p.EqPy q ∨ ∃ n dv fd fd', p = .psd n (.flt .nan) dv fd ∧ q = .psd n (.flt .nan) dv fd') ∧
    (p.EqPyShared q → Spec.SameBehaviour p q) := by
  obtain ⟨fs, h1, h2⟩ := asDict_fields p
  obtain ⟨gs, g1, -⟩ := asDict_fields q
  have key : p.EqPyShared q ↔ p.EqPy q ∨ ∃ n dv fd fd', p = .psd n (.flt .nan) dv fd ∧ q = .psd n (.flt .nan) dv fd' := by
    constructor
    · rintro ⟨hc, hs⟩
      by_cases hn : Spec.NotNaNBound p
      · left
        have hr := (C31_refl hp).mpr hn
        refine ⟨hc, ?_⟩
        rw [h1, g1] at hs ⊢
        simp only [PyVal.PyEq, PyVal.SharedEq] at hs ⊢
        refine ⟨hs.1, pyEqFields_iff.mpr fun e he => ?_⟩
        obtain ⟨w, w1, w2⟩ := hs.2 e he
        refine ⟨w, w1, w2.elim (fun h => ?_) id⟩
        obtain ⟨-, hr⟩ := hr
        rw [h1] at hr
        simp only [PyVal.PyEq] at hr
        obtain ⟨u, u1, u2⟩ := pyEqFields_iff.mp hr.2 e he
        rw [h2 e he, Option.some.injEq] at u1
        rw [← h]
        exact u1 ▸ u2
      · right
        cases p with
        | psd n lb dv fd =>
          cases q with
          | psd n' lb' dv' fd' =>
            have hl : lb = .flt .nan := by
              cases lb with
              | int k => simp [Spec.NotNaNBound, PyNum.toFlt, Flt.NotNaN] at hn
              | flt x => cases x <;> simp_all [Spec.NotNaNBound, PyNum.toFlt, Flt.NotNaN]
            subst hl
            rw [asDict, asDict] at hs
            obtain ⟨a, a1, a2⟩ := hs.2 ("size", .nat n) (by simp)
            obtain ⟨b, b1, b2⟩ := hs.2 ("diag_lb", .num (.flt .nan)) (by simp)
            obtain ⟨c, c1, c2⟩ := hs.2 ("default_validate", .bool dv) (by simp)
            obtain rfl : PyVal.nat n' = a := Option.some.inj a1
            obtain rfl : PyVal.num lb' = b := Option.some.inj b1
            obtain rfl : PyVal.bool dv' = c := Option.some.inj c1
            have e1 : n = n' := a2.elim (fun h => by simpa [PyVal.nat] using h) nat_eq.mp
            have e2 : lb' = .flt .nan := b2.elim (fun h => by simpa using h.symm) fun h => by
              simp [PyVal.PyEq, PyNum.toFlt, Flt.eq] at h
            have e3 : dv' = dv := c2.elim (fun h => by simpa using h.symm) fun h => by
              simpa [PyVal.PyEq] using h.symm
            exact ⟨n, dv, fd, fd', rfl, by rw [e1, e2, e3]⟩
          | numeric c => cases c <;> simp [cls] at hc
          | _ => simp [cls] at hc
        | _ => simp [Spec.NotNaNBound] at hn
    · rintro (h | ⟨n, dv, fd, fd', rfl, rfl⟩)
      · refine ⟨h.1, ?_⟩
        have := h.2
        rw [h1, g1] at this ⊢
        simp only [PyVal.PyEq, PyVal.SharedEq] at this ⊢
        refine ⟨this.1, fun e he => ?_⟩
        obtain ⟨w, w1, w2⟩ := pyEqFields_iff.mp this.2 e he
        exact ⟨w, w1, Or.inr w2⟩
      · refine ⟨rfl, ?_⟩
        rw [asDict] at h1 g1
        rw [asDict, asDict]
        simp only [PyVal.dict.injEq] at h1 g1
        subst h1
        exact ⟨rfl, fun e he => ⟨_, h2 e he, Or.inl rfl⟩⟩
  refine ⟨⟨rfl, ?_⟩, key, fun h => ?_⟩
  · rw [h1]
    exact ⟨rfl, fun e he => ⟨_, h2 e he, Or.inl rfl⟩⟩
  · rcases key.mp h with h | ⟨n, dv, fd, fd', rfl, rfl⟩
    · exact C31_sound hp hq h
    · exact (same_strip _).trans (same_strip (.psd n (.flt .nan) dv fd')).symm

/-- Non-vacuity: with NaN as the bound a pattern equals itself and not the pattern made from the same numbers with another NaN object. -/
example : ∃ p, mkPSD 2 (.flt .nan) true none = .ok p ∧ Built p ∧ p.EqPyShared p ∧ ¬p.EqPy p :=
  ⟨.psd 2 (.flt .nan) true none, by simp [mkPSD, PyNum.toFlt, Flt.lt], WF.built _ (by simp [Pattern.WF, PyNum.toFlt, Flt.lt]),
    (C31_shared (q := .psd 2 (.flt .nan) true none) (WF.built _ (by simp [Pattern.WF, PyNum.toFlt, Flt.lt]))
      (WF.built _ (by simp [Pattern.WF, PyNum.toFlt, Flt.lt]))).1,
    fun h => absurd ((C31_refl (WF.built _ (by simp [Pattern.WF, PyNum.toFlt, Flt.lt]))).mp h) (by simp [Spec.NotNaNBound, PyNum.toFlt, Flt.NotNaN])⟩

/-- **C31.** What `==` compares, class by class. -/
theorem C31_characterization {p q : Pattern} (hp : Built p) (hq : Built q) : p.EqPy q ↔ Spec.Same p q :=
  eqPy_iff hp.wf hq.wf

/-- Two different numeric patterns that compare equal: bounds `0` and `0.0`. -/
theorem exEq : Built (.numeric .array [2] (.int 0) (.flt .pinf) true none) ∧
    Built (.numeric .array [2] (.flt (.fin 0)) (.flt .pinf) true none) ∧
    EqPy (.numeric .array [2] (.int 0) (.flt .pinf) true none) (.numeric .array [2] (.flt (.fin 0)) (.flt .pinf) true none) := by
  have h1 : Built (.numeric .array [2] (.int 0) (.flt .pinf) true none) :=
    WF.built _ (by simp [Pattern.WF, PyNum.toFlt, Flt.NotNaN, Flt.lt])
  have h2 : Built (.numeric .array [2] (.flt (.fin 0)) (.flt .pinf) true none) :=
    WF.built _ (by simp [Pattern.WF, PyNum.toFlt, Flt.NotNaN, Flt.lt])
  refine ⟨h1, h2, (eqPy_iff h1.wf h2.wf).mpr ?_⟩
  simp [Spec.Same, Spec.NumEq, PyNum.toFlt, Flt.NotNaN]

example : ∃ p q : Pattern, Built p ∧ Built q ∧ p.EqPy q ∧ q.EqPy p ∧ p ≠ q :=
  ⟨_, _, exEq.1, exEq.2.1, exEq.2.2, C31_symm exEq.1 exEq.2.1 exEq.2.2, by simp⟩

/-! ### C32 -/

/-- **C32.** Arrays compare equal exactly when the shapes agree and the base patterns have the same JSON text; that is more than the
base patterns comparing equal. -/
theorem C32_array {s s' : List Nat} {b b' : Pattern} {fd fd' : Option Bool} (h : Built (.array s b fd))
    (h' : Built (.array s' b' fd')) :
    (EqPy (.array s b fd) (.array s' b' fd') ↔ s = s' ∧ b.toJson = b'.toJson) ∧
    (EqPy (.array s b fd) (.array s' b' fd') → Spec.NotNaNBound b → b.EqPy b') := by
  have hb := h.wf
  have hb' := h'.wf
  simp only [Pattern.WF] at hb hb'
  have key : EqPy (.array s b fd) (.array s' b' fd') ↔ s = s' ∧ b.toJson = b'.toJson := by
    rw [eqPy_iff h.wf h'.wf]
    simp only [Spec.Same, toJson, PyVal.dumps, PyVal.text.injEq, text_eq_iff hb.2.2 hb'.2.2]
  refine ⟨key, fun he hn => ?_⟩
  obtain ⟨-, ht⟩ := key.mp he
  simp only [toJson, PyVal.dumps, PyVal.text.injEq, text_eq_iff hb.2.2 hb'.2.2] at ht
  exact (eqPy_iff hb.2.2 hb'.2.2).mpr (same_of_forget hb.2.2 hn ht)

/-- **C32.** Dictionaries compare equal exactly when they have the same keys in the same order and each member has the same JSON
text. -/
theorem C32_dict {es es' : Entries} {l l' : Bool} {fd fd' : Option Bool} (h : Built (.dict es l fd))
    (h' : Built (.dict es' l' fd')) :
    EqPy (.dict es l fd) (.dict es' l' fd') ↔
      List.Forall₂ (fun m m' => m.1 = m'.1 ∧ m.2.toJson = m'.2.toJson) es.toList es'.toList := by
  have hb := h.wf
  have hb' := h'.wf
  simp only [Pattern.WF] at hb hb'
  rw [eqPy_iff h.wf h'.wf]
  simp only [Spec.Same]
  exact forgetEs_iff hb.2 hb'.2

/-- **C32.** Equal members do not make equal containers: the lower bounds `0` and `0.0` give equal numeric patterns, but arrays and
dictionaries of them differ. -/
theorem C32_not_congruence : ∃ p q : Pattern, Built p ∧ Built q ∧ p.EqPy q ∧
    (∃ a b, mkArray [3] p none = .ok a ∧ mkArray [3] q none = .ok b ∧ ¬ a.EqPy b) ∧
    (∃ a b, setItem (mkDict none) "x" p = .ok a ∧ setItem (mkDict none) "x" q = .ok b ∧ ¬ a.EqPy b) := by
  obtain ⟨h1, h2, h3⟩ := exEq
  refine ⟨_, _, h1, h2, h3, ⟨.array [3] (.numeric .array [2] (.int 0) (.flt .pinf) true none) none,
    .array [3] (.numeric .array [2] (.flt (.fin 0)) (.flt .pinf) true none) none, rfl, rfl, ?_⟩,
    ⟨.dict (.cons "x" (.numeric .array [2] (.int 0) (.flt .pinf) true none) .nil) false none,
     .dict (.cons "x" (.numeric .array [2] (.flt (.fin 0)) (.flt .pinf) true none) .nil) false none, rfl, rfl, ?_⟩⟩
  · rw [eqPy_iff (Built.array (ashape := [3]) (fd := none) h1 rfl).wf (Built.array (ashape := [3]) (fd := none) h2 rfl).wf]
    simp [Spec.Same, Spec.forget]
  · have g1 := (Built.set (k := "x") (.dict none) h1 rfl).wf
    have g2 := (Built.set (k := "x") (.dict none) h2 rfl).wf
    simp only [Entries.set, lock] at g1 g2
    rw [eqPy_iff g1 g2]
    simp [Spec.Same, Spec.forgetEs, Spec.forget, lock]

example : Built (.array [3] (.simplex 2 [] true (some true)) none) ∧ Built (.array [3] (.simplex 2 [] true none) (some false)) ∧
    (Pattern.simplex 2 [] true (some true)).toJson = (Pattern.simplex 2 [] true none).toJson :=
  ⟨WF.built _ (by simp [Pattern.WF, isDict]), WF.built _ (by simp [Pattern.WF, isDict]), by simp [toJson, asDict]⟩

/-! ### C33 -/

/-- **C33.** One registration: a name already in the table is rejected unless overwriting is allowed, and then nothing changes;
otherwise exactly that name changes. -/
theorem C33_register (reg : Registry) (c : Cls) (allow : Bool) :
    ((reg.lookup c.typename).isSome → allow = false → ∃ msg, register reg c allow = (.error (.valueError msg), reg)) ∧
    ((reg.lookup c.typename = none ∨ allow = true) → ∃ reg', register reg c allow = (.ok (), reg') ∧
      reg'.lookup c.typename = some c ∧ ∀ n, n ≠ c.typename → reg'.lookup n = reg.lookup n) := by
  rw [register_eq]
  constructor
  · intro h1 h2
    rw [if_pos ⟨h2, h1⟩]
    exact ⟨_, rfl⟩
  · intro h
    rw [if_neg (by rintro ⟨h1, h2⟩; rcases h with h | h <;> simp_all)]
    refine ⟨_, rfl, by simp [Registry.lookup_set], fun n hn => by simp [Registry.lookup_set, hn]⟩

/-- **C33.** After any sequence of calls, what a name stands for: the last call for this name that allowed overwriting; else what it
stood for before; else the first call for this name. -/
theorem C33_history (reg : Registry) (calls : List (Cls × Bool)) (n : String) :
    (Json.registerAll reg calls).lookup n =
      match reg.lookup n, calls.filter (fun c => c.1.typename = n) with
      | some c0, cs => some (Spec.latest c0 cs)
      | none, [] => none
      | none, c :: cs => some (Spec.latest c.1 cs) :=
  registerAll_lookup reg calls n

/-- **C33.** What `get_pattern_from_json` does with a name: no entry or an unregistered name raises `KeyError`; a user class gets the
text handed over unchanged; a shipped class has its `from_json` called. -/
theorem C33_dispatch (reg : Registry) (user : Nat → PyVal → Except Err Pattern) (fs : List (String × PyVal)) :
    (fs.lookup "pattern" = none → ∃ msg, Json.getPatternFromJson reg user (.text (.dict fs)) = .error (.keyError msg)) ∧
    (∀ n, fs.lookup "pattern" = some (.str n) → reg.lookup n = none →
      ∃ msg, Json.getPatternFromJson reg user (.text (.dict fs)) = .error (.keyError msg)) ∧
    (∀ n m id, fs.lookup "pattern" = some (.str n) → reg.lookup n = some (.user m id) →
      Json.getPatternFromJson reg user (.text (.dict fs)) = user id (.text (.dict fs))) ∧
    (∀ n b, fs.lookup "pattern" = some (.str n) → reg.lookup n = some (.builtin b) →
      Json.getPatternFromJson reg user (.text (.dict fs)) = Json.fromJson reg user b (.text (.dict fs))) := by
  refine ⟨fun h => ?_, fun n h h' => ?_, fun n m id h h' => ?_, fun n b h h' => ?_⟩ <;>
    simp only [Json.getPatternFromJson, Json.dispatch, Json.fromJson, *] <;> exact ⟨_, rfl⟩

/-- Non-vacuity: a user class takes over the name of a shipped one, only when overwriting is allowed; a new name is accepted once. -/
example : (Json.registerAll initialRegistry [(.user "m.P" 0, false), (.user "m.P" 1, false), (.user "m.P" 2, true),
    (.user "m.P" 3, false), (.user Builtin.psd.typename 4, false)]).lookup "m.P" = some (.user "m.P" 2) ∧
    (Json.registerAll initialRegistry [(.user Builtin.psd.typename 4, false)]).lookup Builtin.psd.typename = some (.builtin .psd) := by
  decide

/-! ### C34 -/

/-- **C34.** `C.from_json` of a text made from a pattern of another class raises `ValueError`. -/
theorem C34_other_class (reg : Registry) (user : Nat → PyVal → Except Err Pattern) (b : Builtin) (p : Pattern) (h : b ≠ p.cls) :
    ∃ msg, Json.fromJson reg user b p.toJson = .error (.valueError msg) := by
  obtain ⟨fs, h1, h2⟩ := asDict_type p
  have h3 : p.cls.typename ≠ b.typename := fun e => h (typename_inj e).symm
  simp only [toJson, PyVal.dumps, h1, Json.fromJson, Json.builtinFromJson, Json.checkType, Json.field, h2, bind, Except.bind,
    if_neg h3]
  exact ⟨_, rfl⟩

/-- **C34.** Whatever text it is given, `C.from_json` of a shipped class never returns a pattern of another class. -/
theorem C34_class (reg : Registry) (user : Nat → PyVal → Except Err Pattern) (b : Builtin) (t : PyVal) (q : Pattern)
    (h : Json.fromJson reg user b t = .ok q) : q.cls = b :=
  fromJson_cls h

/-- **C34.** And it accepts the texts of its own class. -/
theorem C34_own_class {reg : Registry} (hr : Spec.HasBuiltins reg) (user : Nat → PyVal → Except Err Pattern) {p : Pattern}
    (hp : Built p) : Json.fromJson reg user p.cls p.toJson = .ok (Spec.forget p) := by
  have h := C30_exactly hr user hp
  obtain ⟨fs, h1, h2⟩ := asDict_type p
  simp only [toJson, PyVal.dumps, h1] at h ⊢
  rwa [(C33_dispatch reg user fs).2.2.2 _ _ h2 (hr _)] at h

example : Builtin.psd ≠ exPat.cls ∧ Built exPat := ⟨by simp [exPat, Pattern.cls], exPat_built⟩

end Paragami
