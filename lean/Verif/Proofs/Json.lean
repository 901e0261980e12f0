import Verif.Proofs.Built
import Verif.Props.Containers
import Verif.Spec.Json

/-! # JSON round trips -/

set_option linter.unusedSimpArgs false

namespace Paragami
open Pattern NDArray PyVal

/-! ### `as_dict` and `forget` -/

theorem shape_forget (p : Pattern) : (Spec.forget p).shape = p.shape := by
  induction p using Pattern.ind (Q := fun _ => True) with
  | harr s b fd ih => simp [Spec.forget, Pattern.shape, ih]
  | hdict es l fd _ => simp [Spec.forget, Pattern.shape]
  | hnil => trivial
  | hcons => trivial
  | _ => simp [Spec.forget, Pattern.shape]

theorem keys_forgetEs (es : Entries) : (Spec.forgetEs es).keys = es.keys := by
  induction es using Entries.rec (motive_1 := fun _ => True) with
  | nil => rfl
  | cons k p r _ ih =>
    simp only [Entries.keys, Spec.forgetEs, Entries.toList, List.map_cons] at ih ⊢
    rw [ih]
  | _ => trivial

theorem asDict_lock (p : Pattern) : p.lock.asDict = p.asDict := by
  cases p <;> simp [Pattern.lock, asDict]

theorem asDict_forget (p : Pattern) : (Spec.forget p).asDict = p.asDict := by
  induction p using Pattern.ind (Q := fun es => contents (Spec.forgetEs es) = contents es) with
  | hnum c s lb ub dv fd => simp [Spec.forget]
  | hsim k s dv fd => simp [Spec.forget, asDict]
  | hpsd n lb dv fd => simp [Spec.forget, asDict]
  | harr s b fd ih => simp [Spec.forget, asDict, ih, shape_forget]
  | hdict es l fd ih => simp only [Spec.forget, asDict, ih, keys_forgetEs]
  | hnil => rfl
  | hcons k p r ihp ihr => simp only [Spec.forgetEs, contents, asDict_lock, ihp, ihr]

theorem cls_forget (p : Pattern) : (Spec.forget p).cls = p.cls := by
  cases p with
  | numeric c => cases c <;> simp [Spec.forget, Pattern.cls]
  | _ => simp [Spec.forget, Pattern.cls]

theorem normFields_contents (es : Entries) : normFields (contents es) = contents es := by
  induction es using Entries.rec (motive_1 := fun _ => True) with
  | nil => rfl
  | cons k p r _ ih => simp only [contents, normFields, PyVal.norm, ih]
  | _ => trivial

theorem normList_strs (l : List String) : normList (l.map .str) = l.map .str := by
  induction l with
  | nil => rfl
  | cons a l ih => simp only [List.map_cons, normList, PyVal.norm, ih]

theorem normList_nats (l : List Nat) : normList (l.map .nat) = l.map .nat := by
  induction l with
  | nil => rfl
  | cons a l ih => simp only [List.map_cons, normList, PyVal.nat, PyVal.norm] at ih ⊢; rw [ih]

theorem asNat_nat (n : Nat) : Json.asNat (.nat n) = .ok n := rfl

theorem asNats_nats (l : List Nat) : Json.asNats (.list (l.map .nat)) = .ok l := by
  simp only [Json.asNats]
  induction l with
  | nil => rfl
  | cons a l ih => simp only [List.map_cons, mapE, asNat_nat, ih]

theorem norm_ofOptBool (fd : Option Bool) : (PyVal.ofOptBool fd).norm = .ofOptBool fd := by
  cases fd <;> rfl

theorem norm_nat (n : Nat) : (PyVal.nat n).norm = .nat n := rfl

/-! ### Decoding -/

section
variable {reg : Registry} {user : Nat → PyVal → Except Err Pattern}

theorem checkType_ok {fs : List (String × PyVal)} {name : String} (h : fs.lookup "pattern" = some (.str name)) :
    Json.checkType fs name = .ok () := by
  simp only [Json.checkType, Json.field, h, bind, Except.bind, if_true]

theorem kwOptBool_ok {fs : List (String × PyVal)} {k : String} {fd : Option Bool} (h : fs.lookup k = some (.ofOptBool fd)) :
    Json.kwOptBool fs k = .ok fd := by
  cases fd <;> simp [Json.kwOptBool, h, ofOptBool]

theorem getEach_lookup (fs : List (String × PyVal)) (k : String) :
    (Json.getEach reg user fs).lookup k = (fs.lookup k).map (Json.getPatternFromJson reg user) := by
  induction fs with
  | nil => rw [Json.getEach]; rfl
  | cons f fs ih =>
    obtain ⟨k', v⟩ := f
    rw [Json.getEach]
    simp only [List.lookup_cons, ih]
    split <;> rfl

theorem dispatch_builtin (hr : Spec.HasBuiltins reg) {fs : List (String × PyVal)} {b : Builtin}
    (h : fs.lookup "pattern" = some (.str b.typename)) (each) (inner) :
    Json.dispatch reg user fs each inner = Json.builtinFromJson b fs each inner := by
  simp only [Json.dispatch, h, hr b]

theorem contents_lookup {es : Entries} (hn : es.keys.Nodup) {k : String} {p : Pattern} (hm : (k, p) ∈ es.toList) :
    (contents es).lookup k = some (.text p.asDict.norm) := by
  induction es using Entries.rec (motive_1 := fun _ => True) with
  | nil => simp [Entries.toList] at hm
  | cons k' p' r _ ih =>
    simp only [Entries.keys, Entries.toList, List.map_cons, List.nodup_cons, List.mem_cons] at hn hm ih
    simp only [contents, List.lookup_cons]
    rcases hm with hm | hm
    · cases hm; simp
    · have : (k == k') = false := by
        simp only [beq_eq_false_iff_ne]
        rintro rfl
        exact hn.1 (List.mem_map_of_mem (f := (·.1)) hm)
      rw [this]
      exact ih hn.2 hm
  | _ => trivial

theorem fillDict_ok {C : List (String × Except Err Pattern)} (suf : Entries) : ∀ (acc : Entries),
    (∀ k p, (k, p) ∈ suf.toList → C.lookup k = some (.ok (Spec.forget p))) → (appendEs acc suf).keys.Nodup →
    Json.fillDict C (.dict acc false none) (suf.keys.map .str) = .ok (.dict (appendEs acc (Spec.forgetEs suf)) false none) := by
  induction suf using Entries.rec (motive_1 := fun _ => True) with
  | nil =>
    intro acc _ _
    simp [Entries.keys, Entries.toList, Json.fillDict, Spec.forgetEs, append_nil]
  | cons k p r _ ih =>
    intro acc h hn
    have hk : k ∉ acc.keys := by
      rw [keys_append] at hn
      intro hm
      exact (List.nodup_append.mp hn).2.2 k hm k (by simp [Entries.keys, Entries.toList]) rfl
    have h1 := h k p (by simp [Entries.toList])
    have e : (Entries.cons k p r).keys.map PyVal.str = .str k :: r.keys.map .str := rfl
    rw [e, Json.fillDict]
    simp only [h1, bind, Except.bind, Pattern.setItem, Bool.false_eq_true, if_false]
    rw [set_append hk, ih]
    · rw [append_assoc]; rfl
    · intro k' p' hm
      exact h k' p' (by simp [Entries.toList, hm])
    · rw [append_assoc, keys_append]
      rw [keys_append] at hn
      exact hn
  | _ => trivial

/-- Reading back the JSON of a well-formed pattern. -/
theorem decode (hr : Spec.HasBuiltins reg) (p : Pattern) (hw : p.WF) :
    Json.getPatternFromJson reg user (.text p.asDict.norm) = .ok (Spec.forget p) := by
  revert hw
  induction p using Pattern.ind (Q := fun es => WFEs es → ∀ k p, (k, p) ∈ es.toList →
    Json.getPatternFromJson reg user (.text p.asDict.norm) = .ok (Spec.forget p)) with
  | hnum c s lb ub dv fd =>
    intro hw
    simp only [Pattern.WF] at hw
    have key : mkNumeric c s lb ub dv fd = .ok (.numeric c s lb ub dv fd) := mkNumeric_ok.mpr ⟨rfl, hw.1, hw.2.2.2⟩
    cases c with
    | array =>
      simp only [asDict, PyVal.norm, normFields, normList_nats, norm_ofOptBool, Json.getPatternFromJson]
      rw [dispatch_builtin hr (b := .numericArray) (by simp [List.lookup])]
      simp only [Json.builtinFromJson]
      rw [checkType_ok (by simp [List.lookup])]
      simp only [bind, Except.bind]
      simp [List.filter, Json.newNumericArray, Json.checkKw, Json.kwReq, List.lookup, asNats_nats, Json.kwNum, Json.kwBool, bind, Except.bind]
      rw [kwOptBool_ok (fd := fd) (by simp [List.lookup])]
      simp only [mkNumericArray, key, Spec.forget]
    | vector =>
      obtain ⟨n, rfl⟩ := List.length_eq_one_iff.mp (hw.2.1 rfl)
      simp only [asDict, PyVal.norm, normFields, norm_nat, norm_ofOptBool, Json.getPatternFromJson]
      rw [dispatch_builtin hr (b := .numericVector) (by simp [List.lookup])]
      simp only [Json.builtinFromJson]
      rw [checkType_ok (by simp [List.lookup])]
      simp only [bind, Except.bind]
      simp [List.filter, Json.newNumericVector, Json.checkKw, Json.kwReq, List.lookup, asNat_nat, Json.kwNum, Json.kwBool, bind, Except.bind]
      rw [kwOptBool_ok (fd := fd) (by simp [List.lookup])]
      simp only [mkNumericVector, key, Spec.forget]
    | scalar =>
      obtain rfl := hw.2.2.1 rfl
      simp only [asDict, PyVal.norm, normFields, norm_ofOptBool, Json.getPatternFromJson]
      rw [dispatch_builtin hr (b := .numericScalar) (by simp [List.lookup])]
      simp only [Json.builtinFromJson]
      rw [checkType_ok (by simp [List.lookup])]
      simp only [bind, Except.bind]
      simp [List.filter, Json.newNumericScalar, Json.checkKw, Json.kwReq, List.lookup, Json.kwNum, Json.kwBool, bind, Except.bind]
      rw [kwOptBool_ok (fd := fd) (by simp [List.lookup])]
      simp only [mkNumericScalar, key, Spec.forget]
  | hsim k s dv fd =>
    intro hw
    simp only [Pattern.WF] at hw
    simp only [asDict, PyVal.norm, normFields, normList_nats, norm_nat, Json.getPatternFromJson]
    rw [dispatch_builtin hr (b := .simplex) (by simp [List.lookup])]
    simp only [Json.builtinFromJson]
    rw [checkType_ok (by simp [List.lookup])]
    simp only [bind, Except.bind]
    simp [Json.newSimplex, Json.field, List.lookup, asNats_nats, asNat_nat, bind, Except.bind, mkSimplex, Spec.forget]
    omega
  | hpsd n lb dv fd =>
    intro hw
    simp only [Pattern.WF] at hw
    simp only [asDict, PyVal.norm, normFields, norm_nat, Json.getPatternFromJson]
    rw [dispatch_builtin hr (b := .psd) (by simp [List.lookup])]
    simp only [Json.builtinFromJson]
    rw [checkType_ok (by simp [List.lookup])]
    simp only [bind, Except.bind]
    simp [List.filter, Json.newPSD, Json.checkKw, Json.kwReq, List.lookup, asNat_nat, Json.kwNum, Json.kwBool, Json.kwOptBool, bind, Except.bind, mkPSD, Spec.forget]
    have h0 : (0 : Flt) = Flt.fin 0 := by simp
    rw [← h0]; exact hw
  | harr s b fd ih =>
    intro hw
    simp only [Pattern.WF] at hw
    simp only [asDict, PyVal.norm, normFields, normList_nats, Json.getPatternFromJson]
    rw [dispatch_builtin hr (b := .array) (by simp [List.lookup])]
    simp only [Json.builtinFromJson]
    rw [checkType_ok (by simp [List.lookup])]
    simp only [bind, Except.bind, getEach_lookup]
    have hd : (Spec.forget b).isDict = false := by
      cases b <;> simp_all [Spec.forget, isDict]
    simp [List.lookup, ih hw.2.2, Json.field, asNats_nats, mkArray, hd, hw.1, Spec.forget]
  | hdict es l fd ih =>
    intro hw
    simp only [Pattern.WF] at hw
    simp only [asDict, PyVal.norm, normFields, normList_strs, normFields_contents, Json.getPatternFromJson]
    rw [dispatch_builtin hr (b := .dict) (by simp [List.lookup])]
    simp only [Json.builtinFromJson]
    rw [checkType_ok (by simp [List.lookup])]
    simp only [bind, Except.bind]
    have hi : Json.getInner reg user [("pattern", PyVal.str Builtin.dict.typename), ("keys", .list (es.keys.map .str)),
        ("contents", .dict (contents es))] = [("contents", Json.getEach reg user (contents es))] := by
      simp [Json.getInner]
    rw [hi]
    have hf := fillDict_ok (C := Json.getEach reg user (contents es)) es .nil (by
      intro k p hm
      rw [getEach_lookup, contents_lookup hw.1 hm]
      simp only [Option.map_some, ih hw.2 k p hm]) (by simpa [appendEs] using hw.1)
    simp [Json.field, List.lookup, mkDict, hf, appendEs, Spec.forget]
  | hnil _ k p hm => simp [Entries.toList] at hm
  | hcons k p r ihp ihr hw k' p' hm =>
    simp only [WFEs] at hw
    simp only [Entries.toList, List.mem_cons] at hm
    rcases hm with hm | hm
    · cases hm; exact ihp hw.1
    · exact ihr hw.2.2 k' p' hm

end

/-! ### Behaviour -/

theorem Spec.SameBehaviour.symm {p q : Pattern} (h : Spec.SameBehaviour p q) : Spec.SameBehaviour q p := fun b x v vv =>
  let ⟨h1, h2, h3, h4⟩ := h b x v vv
  ⟨h1.symm, h2.symm, h3.symm, h4.symm⟩

theorem Spec.SameBehaviour.trans {p q r : Pattern} (h : Spec.SameBehaviour p q) (h' : Spec.SameBehaviour q r) :
    Spec.SameBehaviour p r := fun b x v vv =>
  let ⟨h1, h2, h3, h4⟩ := h b x v vv
  let ⟨g1, g2, g3, g4⟩ := h' b x v vv
  ⟨h1.trans g1, h2.trans g2, h3.trans g3, h4.trans g4⟩

theorem same_strip (p : Pattern) : Spec.SameBehaviour p (Spec.strip p) := fun b x v vv =>
  let ⟨h1, h2, h3⟩ := C28_explicit_overrides p b x v vv
  ⟨h1, h2, (validate_strip p v vv).symm, h3⟩

theorem same_lock (p : Pattern) : Spec.SameBehaviour p p.lock := by
  cases p with
  | dict es l fd =>
    intro b x v vv
    cases b <;>
    simp only [lock, fold_true, fold_false, flatten_true, flatten_false, flatLength_some, foldFree, foldNF, flattenFree,
      flattenNF, Pattern.validate, flatLen, and_self]
  | _ => exact fun b x v vv => ⟨rfl, rfl, rfl, rfl⟩

theorem strip_lock (p : Pattern) : Spec.strip p.lock = (Spec.strip p).lock := by
  cases p <;> simp [lock, Spec.strip]

theorem strip_forget (p : Pattern) (hw : p.WF) : (Spec.strip (Spec.forget p)).lock = (Spec.strip p).lock := by
  revert hw
  induction p using Pattern.ind (Q := fun es => WFEs es → Spec.stripEs (Spec.forgetEs es) = Spec.stripEs es) with
  | hnum c s lb ub dv fd => intro _; rfl
  | hsim k s dv fd => intro _; rfl
  | hpsd n lb dv fd => intro _; rfl
  | harr s b fd ih =>
    intro hw
    simp only [Pattern.WF] at hw
    have := ih hw.2.2
    have h1 : (Spec.strip (Spec.forget b)).lock = Spec.strip (Spec.forget b) := by
      cases b <;> simp_all [Spec.forget, Spec.strip, isDict, lock]
    have h2 : (Spec.strip b).lock = Spec.strip b := by
      cases b <;> simp_all [Spec.forget, Spec.strip, isDict, lock]
    rw [h1, h2] at this
    simp only [Spec.forget, Spec.strip, this]
  | hdict es l fd ih =>
    intro hw
    simp only [Pattern.WF] at hw
    simp only [Spec.forget, Spec.strip, lock, ih hw.2]
  | hnil => rfl
  | hcons k p r ihp ihr hw =>
    simp only [WFEs] at hw
    have h1 := ihp hw.1
    simp only [Spec.forgetEs, Spec.stripEs, strip_lock, h1, ihr hw.2.2]
    rw [← strip_lock, hw.2.1]

/-- What JSON drops does not change the behaviour. -/
theorem same_forget (p : Pattern) (hw : p.WF) : Spec.SameBehaviour p (Spec.forget p) := by
  refine (same_strip p).trans ((same_lock _).trans ?_)
  rw [← strip_forget p hw]
  exact (same_lock _).symm.trans (same_strip _).symm

/-! ### Equality -/

theorem pyEqFields_iff {fs gs : List (String × PyVal)} :
    PyVal.PyEqFields fs gs ↔ ∀ e ∈ fs, ∃ w, gs.lookup e.1 = some w ∧ PyVal.PyEq e.2 w := by
  induction fs with
  | nil => simp [PyVal.PyEqFields]
  | cons e fs ih =>
    obtain ⟨k, v⟩ := e
    simp only [PyVal.PyEqFields, ih, List.mem_cons, forall_eq_or_imp]
    refine and_congr_left fun _ => ?_
    cases gs.lookup k with
    | none => simp
    | some w => simp

theorem asDict_fields (p : Pattern) : ∃ fs, p.asDict = .dict fs ∧ ∀ e ∈ fs, fs.lookup e.1 = some e.2 := by
  cases p with
  | numeric c => cases c <;> exact ⟨_, by rw [asDict], by simp [List.lookup]⟩
  | _ => exact ⟨_, by rw [asDict], by simp [List.lookup]⟩

theorem num_eq_iff {x y : PyNum} : x.toFlt.eq y.toFlt = true ↔ Spec.NumEq x y := by
  unfold Spec.NumEq
  cases x.toFlt <;> cases y.toFlt <;> simp [Flt.eq, Flt.NotNaN]

theorem ofOptBool_eq {a b : Option Bool} : PyEq (.ofOptBool a) (.ofOptBool b) ↔ a = b := by
  rcases a with _ | a <;> rcases b with _ | b <;> simp [ofOptBool, PyEq]

theorem nat_eq {a b : Nat} : PyEq (.nat a) (.nat b) ↔ a = b := by
  simp [PyVal.nat, PyEq, PyNum.toFlt, Flt.eq]

theorem nats_eq {l m : List Nat} : PyEqList (l.map .nat) (m.map .nat) ↔ l = m := by
  induction l generalizing m with
  | nil => cases m <;> simp [PyEqList]
  | cons a l ih => cases m <;> simp [PyEqList, nat_eq, ih]

theorem strs_eq {l m : List String} : PyEqList (l.map .str) (m.map .str) ↔ l = m := by
  induction l generalizing m with
  | nil => cases m <;> simp [PyEqList]
  | cons a l ih => cases m <;> simp [PyEqList, PyEq, ih]

theorem lookup_keys {es : Entries} {k : String} (h : k ∉ es.keys) : (contents es).lookup k = Option.none := by
  induction es using Entries.rec (motive_1 := fun _ => True) with
  | nil => rfl
  | cons k' p r _ ih =>
    simp only [Entries.keys, Entries.toList, List.map_cons, List.mem_cons, not_or] at h ih
    have : (k == k') = false := by simpa using h.1
    simp only [contents, List.lookup_cons, this]
    exact ih h.2
  | _ => trivial

theorem length_contents (es : Entries) : (contents es).length = es.keys.length := by
  induction es using Entries.rec (motive_1 := fun _ => True) with
  | nil => rfl
  | cons k' p r _ ih =>
    simp only [contents, Entries.keys, Entries.toList, List.map_cons, List.length_cons, List.length_map] at ih ⊢
    rw [ih]
  | _ => trivial

theorem fields_cons {es : Entries} {k : String} {v : PyVal} (h : k ∉ es.keys) (gs : List (String × PyVal)) :
    PyEqFields (contents es) ((k, v) :: gs) ↔ PyEqFields (contents es) gs := by
  induction es using Entries.rec (motive_1 := fun _ => True) with
  | nil => simp [contents, PyEqFields]
  | cons k' p r _ ih =>
    simp only [Entries.keys, Entries.toList, List.map_cons, List.mem_cons, not_or] at h ih
    have : (k' == k) = false := by simpa using fun e => h.1 e.symm
    simp only [contents, PyEqFields, List.lookup_cons, this, ih h.2]
  | _ => trivial

/-- Dictionaries with the same keys in the same order compare equal exactly when the texts of their members coincide. -/
theorem contents_eq {es es' : Entries} (hn : es.keys.Nodup) (hk : es.keys = es'.keys) :
    PyEqFields (contents es) (contents es') ↔ contents es = contents es' := by
  induction es using Entries.rec (motive_1 := fun _ => True) generalizing es' with
  | nil =>
    cases es' with
    | nil => simp [contents, PyEqFields]
    | cons k p r => simp [Entries.keys, Entries.toList] at hk
  | cons k p r _ ih =>
    cases es' with
    | nil => simp [Entries.keys, Entries.toList] at hk
    | cons k' p' r' =>
      simp only [Entries.keys, Entries.toList, List.map_cons, List.nodup_cons, List.cons.injEq] at hn hk
      obtain ⟨rfl, hk⟩ := hk
      simp only [contents, PyEqFields, List.lookup_cons, beq_self_eq_true, PyEq, List.cons.injEq, Prod.mk.injEq, true_and,
        PyVal.text.injEq]
      rw [fields_cons hn.1, ih hn.2 hk]
  | _ => trivial

/-- The JSON texts of two well-formed patterns coincide exactly when `forget` identifies them. -/
theorem text_eq_iff {p q : Pattern} (hp : p.WF) (hq : q.WF) : p.asDict.norm = q.asDict.norm ↔ Spec.forget p = Spec.forget q := by
  constructor
  · intro h
    have hr : Spec.HasBuiltins initialRegistry := by
      intro b; cases b <;> decide
    have h1 := decode (user := fun _ _ => .error .unmodelled) hr p hp
    have h2 := decode (user := fun _ _ => .error .unmodelled) hr q hq
    rw [h, h2] at h1
    exact (Except.ok.inj h1).symm
  · intro h
    rw [← asDict_forget p, h, asDict_forget]

theorem contents_forgetEs (es : Entries) : contents (Spec.forgetEs es) = contents es := by
  induction es using Entries.rec (motive_1 := fun _ => True) with
  | nil => rfl
  | cons k p r _ ih => simp only [Spec.forgetEs, contents, asDict_lock, asDict_forget, ih]
  | _ => trivial

theorem contents_inj {es es' : Entries} (h : WFEs es) (h' : WFEs es') (he : contents es = contents es') :
    Spec.forgetEs es = Spec.forgetEs es' := by
  induction es using Entries.rec (motive_1 := fun _ => True) generalizing es' with
  | nil => cases es' with
    | nil => rfl
    | cons => simp [contents] at he
  | cons k p r _ ih => cases es' with
    | nil => simp [contents] at he
    | cons k' p' r' =>
      simp only [contents, List.cons.injEq, Prod.mk.injEq, PyVal.text.injEq] at he
      simp only [WFEs] at h h'
      simp only [Spec.forgetEs, ih h.2.2 h'.2.2 he.2, he.1.1, (text_eq_iff h.1 h'.1).mp he.1.2]
  | _ => trivial

theorem eqPy_iff {p q : Pattern} (hp : p.WF) (hq : q.WF) : p.EqPy q ↔ Spec.Same p q := by
  cases p with
  | numeric c s lb ub dv fd =>
    cases q with
    | numeric c' s' lb' ub' dv' fd' =>
      simp only [Pattern.WF] at hp hq
      cases c <;> cases c' <;>
        simp [EqPy, Pattern.cls, Spec.Same, asDict, PyEq, PyEqFields, List.lookup_cons, num_eq_iff, ofOptBool_eq, nats_eq, nat_eq]
      · tauto
      · obtain ⟨n, rfl⟩ := List.length_eq_one_iff.mp (hp.2.1 rfl)
        obtain ⟨n', rfl⟩ := List.length_eq_one_iff.mp (hq.2.1 rfl)
        simp
      · rw [hp.2.2.1 rfl, hq.2.2.1 rfl]; simp
    | _ => cases c <;> simp [EqPy, Pattern.cls, Spec.Same]
  | simplex k s dv fd =>
    cases q with
    | numeric c' s' lb' ub' dv' fd' => cases c' <;> simp [EqPy, Pattern.cls, Spec.Same]
    | simplex k' s' dv' fd' => simp [EqPy, Pattern.cls, Spec.Same, asDict, PyEq, PyEqFields, List.lookup_cons, nats_eq, nat_eq]
    | _ => simp [EqPy, Pattern.cls, Spec.Same]
  | psd n lb dv fd =>
    cases q with
    | numeric c' s' lb' ub' dv' fd' => cases c' <;> simp [EqPy, Pattern.cls, Spec.Same]
    | psd k' s' dv' fd' => simp [EqPy, Pattern.cls, Spec.Same, asDict, PyEq, PyEqFields, List.lookup_cons, num_eq_iff, nat_eq]
    | _ => simp [EqPy, Pattern.cls, Spec.Same]
  | array s base fd =>
    cases q with
    | numeric c' s' lb' ub' dv' fd' => cases c' <;> simp [EqPy, Pattern.cls, Spec.Same]
    | array s' base' fd' =>
      simp only [Pattern.WF] at hp hq
      simp [EqPy, Pattern.cls, Spec.Same, asDict, PyEq, PyEqFields, List.lookup_cons, ← List.map_append, nats_eq, -List.map_append]
      rw [text_eq_iff hp.2.2 hq.2.2]
      constructor
      · exact fun h => h.2
      · intro h
        exact ⟨by rw [h.1, ← shape_forget base, h.2, shape_forget], h⟩
    | _ => simp [EqPy, Pattern.cls, Spec.Same]
  | dict es l fd =>
    cases q with
    | numeric c' s' lb' ub' dv' fd' => cases c' <;> simp [EqPy, Pattern.cls, Spec.Same]
    | dict es' l' fd' =>
      simp only [Pattern.WF] at hp hq
      simp [EqPy, Pattern.cls, Spec.Same, asDict, PyEq, PyEqFields, List.lookup_cons, strs_eq]
      constructor
      · rintro ⟨h1, -, h2⟩
        exact contents_inj hp.2 hq.2 ((contents_eq hp.1 h1).mp h2)
      · intro h
        have hk : es.keys = es'.keys := by rw [← keys_forgetEs, h, keys_forgetEs]
        refine ⟨hk, by rw [length_contents, length_contents, hk], (contents_eq hp.1 hk).mpr ?_⟩
        rw [← contents_forgetEs, h, contents_forgetEs]
    | _ => simp [EqPy, Pattern.cls, Spec.Same]

theorem numEq_refl {x : PyNum} (h : x.toFlt.NotNaN) : Spec.NumEq x x := ⟨rfl, h⟩
theorem numEq_symm {x y : PyNum} (h : Spec.NumEq x y) : Spec.NumEq y x := ⟨h.1.symm, h.1 ▸ h.2⟩
theorem numEq_trans {x y z : PyNum} (h : Spec.NumEq x y) (h' : Spec.NumEq y z) : Spec.NumEq x z := ⟨h.1.trans h'.1, h.2⟩

theorem same_forget_forget {p q : Pattern} (hp : p.WF) (hq : q.WF) (h : Spec.forget p = Spec.forget q) :
    Spec.SameBehaviour p q := (same_forget p hp).trans (h ▸ (same_forget q hq).symm)

theorem same_behaviour {p q : Pattern} (hp : p.WF) (hq : q.WF) (h : Spec.Same p q) : Spec.SameBehaviour p q := by
  cases p with
  | numeric c s lb ub dv fd =>
    cases q with
    | numeric c' s' lb' ub' dv' fd' =>
      simp only [Spec.Same] at h
      obtain ⟨-, rfl, h1, h2, rfl, -⟩ := h
      intro b x v vv
      cases b <;> simp only [fold_true, fold_false, flatten_true, flatten_false, flatLength_some, foldFree, foldNF, flattenFree,
        flattenNF, Pattern.validate, flatLen, h1.1, h2.1, and_self]
    | _ => simp [Spec.Same] at h
  | simplex k s dv fd =>
    cases q with
    | simplex k' s' dv' fd' =>
      simp only [Spec.Same] at h
      obtain ⟨rfl, rfl, rfl⟩ := h
      exact fun b x v vv => by cases b <;> exact ⟨rfl, rfl, rfl, rfl⟩
    | _ => simp [Spec.Same] at h
  | psd n lb dv fd =>
    cases q with
    | psd n' lb' dv' fd' =>
      simp only [Spec.Same] at h
      obtain ⟨rfl, h1, rfl⟩ := h
      intro b x v vv
      cases b <;> simp only [fold_true, fold_false, flatten_true, flatten_false, flatLength_some, foldFree, foldNF, flattenFree,
        flattenNF, Pattern.validate, flatLen, h1.1, and_self]
    | _ => simp [Spec.Same] at h
  | array s base fd =>
    cases q with
    | array s' base' fd' =>
      simp only [Spec.Same] at h
      exact same_forget_forget hp hq (by simp only [Spec.forget, h.1, h.2])
    | _ => simp [Spec.Same] at h
  | dict es l fd =>
    cases q with
    | dict es' l' fd' =>
      simp only [Spec.Same] at h
      exact same_forget_forget hp hq (by simp only [Spec.forget, h])
    | _ => simp [Spec.Same] at h

/-! ### What survives exactly -/

theorem forget_eq_iff (p : Pattern) (hw : p.WF) : Spec.forget p = p ↔ Spec.Unlocked p ∧ Spec.NoDefault p := by
  revert hw
  suffices H : p.WF → ((Spec.forget p).lock = p.lock ↔ Spec.NoDefault p) by
    intro hw
    rw [← H hw]
    cases p <;> simp [Spec.forget, Spec.Unlocked, lock]
    constructor
    · exact fun h => ⟨h.2.1, h.1, h.2.2⟩
    · exact fun h => ⟨h.2.1, h.1, h.2.2⟩
  induction p using Pattern.ind (Q := fun es => WFEs es → (Spec.forgetEs es = es ↔ Spec.NoDefaultEs es)) with
  | hnum c s lb ub dv fd => intro _; simp [Spec.forget, Spec.NoDefault]
  | hsim k s dv fd => intro _; simp [Spec.forget, Spec.NoDefault, lock, eq_comm]
  | hpsd n lb dv fd => intro _; simp [Spec.forget, Spec.NoDefault, lock, eq_comm]
  | harr s b fd ih =>
    intro hw
    simp only [Pattern.WF] at hw
    have h := ih hw.2.2
    have h1 : (Spec.forget b).lock = Spec.forget b := by
      cases b <;> simp_all [Spec.forget, isDict, lock]
    have h2 : b.lock = b := by
      cases b <;> simp_all [isDict, lock]
    rw [h1, h2] at h
    simp only [Spec.forget, Spec.NoDefault, lock, Pattern.array.injEq, true_and, h, eq_comm (a := Option.none)]
  | hdict es l fd ih =>
    intro hw
    simp only [Pattern.WF] at hw
    simp only [Spec.forget, Spec.NoDefault, lock, Pattern.dict.injEq, true_and, ih hw.2, eq_comm (a := Option.none)]
  | hnil => simp [Spec.forgetEs, Spec.NoDefaultEs]
  | hcons k p r ihp ihr hw =>
    simp only [WFEs] at hw
    have h := ihp hw.1
    rw [hw.2.1] at h
    simp only [Spec.forgetEs, Spec.NoDefaultEs, Entries.cons.injEq, true_and, h, ihr hw.2.2]

/-! ### The registry -/

theorem Registry.lookup_set (reg : Registry) (k : String) (c : Cls) (k' : String) :
    (reg.set k c).lookup k' = if k' = k then some c else reg.lookup k' := by
  induction reg with
  | nil =>
    by_cases h : k' = k <;> simp [Registry.set, List.lookup_cons, h]
    simp [beq_eq_false_iff_ne.mpr h]
  | cons e reg ih =>
    obtain ⟨k2, c2⟩ := e
    simp only [Registry.set]
    by_cases h2 : k2 = k
    · subst h2
      by_cases h : k' = k2 <;> simp [List.lookup_cons, h]
      simp [beq_eq_false_iff_ne.mpr h]
    · rw [if_neg h2, List.lookup_cons, List.lookup_cons, ih]
      by_cases h : k' = k2
      · subst h
        simp [h2]
      · simp [beq_eq_false_iff_ne.mpr h]

theorem Registry.contains_iff (reg : Registry) (k : String) : (reg.map (·.1)).contains k = (reg.lookup k).isSome := by
  induction reg with
  | nil => rfl
  | cons e reg ih =>
    obtain ⟨k2, c2⟩ := e
    rw [List.map_cons, List.contains_cons, ih, List.lookup_cons]
    cases h : k == k2 <;> simp

theorem register_eq (reg : Registry) (c : Cls) (a : Bool) : register reg c a =
    if a = false ∧ (reg.lookup c.typename).isSome then
      (.error (.valueError s!"A pattern named {c.typename} is already registered for JSON."), reg)
    else (.ok (), reg.set c.typename c) := by
  unfold register
  rw [Registry.contains_iff]
  cases a
  · cases h : (reg.lookup c.typename).isSome <;> rfl
  · rfl

theorem registerAll_lookup (reg : Registry) (calls : List (Cls × Bool)) (n : String) :
    (Json.registerAll reg calls).lookup n =
      match reg.lookup n, calls.filter (fun c => c.1.typename = n) with
      | some c0, cs => some (Spec.latest c0 cs)
      | Option.none, [] => Option.none
      | Option.none, c :: cs => some (Spec.latest c.1 cs) := by
  induction calls generalizing reg with
  | nil =>
    simp only [Json.registerAll, List.foldl_nil, List.filter_nil]
    cases reg.lookup n <;> simp [Spec.latest]
  | cons c calls ih =>
    have e : Json.registerAll reg (c :: calls) = Json.registerAll (register reg c.1 c.2).2 calls := rfl
    rw [e, ih, register_eq]
    by_cases hn : c.1.typename = n
    · subst hn
      rw [List.filter_cons_of_pos (by simp)]
      cases hl : reg.lookup c.1.typename with
      | none => simp [Registry.lookup_set]
      | some c0 =>
        obtain ⟨c, a⟩ := c
        cases a with
        | false => simp [hl, Spec.latest]
        | true =>
          simp only [Bool.true_eq_false, false_and, if_false, Registry.lookup_set, if_true, Spec.latest]
          rw [List.filter_cons_of_pos (by simp), List.getLast?_cons]
          cases (List.filter (fun x => x.2) (List.filter (fun c_1 => decide (c_1.1.typename = c.typename)) calls)).getLast? <;> simp
    · rw [List.filter_cons_of_neg (by simpa using hn)]
      have : (if c.2 = false ∧ (reg.lookup c.1.typename).isSome = true then
          ((Except.error (Err.valueError s!"A pattern named {c.1.typename} is already registered for JSON.") : Except Err Unit), reg)
          else (.ok (), reg.set c.1.typename c.1)).2.lookup n = reg.lookup n := by
        split
        · rfl
        · simp [Registry.lookup_set, Ne.symm hn]
      rw [this]

/-! ### Equality through `forget` -/

theorem same_refl (p : Pattern) (hw : p.WF) (hn : Spec.NotNaNBound p) : Spec.Same p p := by
  cases p with
  | numeric c s lb ub dv fd =>
    simp only [Pattern.WF] at hw
    exact ⟨rfl, rfl, numEq_refl hw.2.2.2.1, numEq_refl hw.2.2.2.2.1, rfl, rfl⟩
  | psd n lb dv fd => exact ⟨rfl, numEq_refl hn, rfl⟩
  | _ => simp [Spec.Same]

theorem same_symm {p q : Pattern} (h : Spec.Same p q) : Spec.Same q p := by
  cases p <;> cases q <;> simp only [Spec.Same] at h ⊢
  · exact ⟨h.1.symm, h.2.1.symm, numEq_symm h.2.2.1, numEq_symm h.2.2.2.1, h.2.2.2.2.1.symm, h.2.2.2.2.2.symm⟩
  · exact ⟨h.1.symm, h.2.1.symm, h.2.2.symm⟩
  · exact ⟨h.1.symm, numEq_symm h.2.1, h.2.2.symm⟩
  · exact ⟨h.1.symm, h.2.symm⟩
  · exact h.symm

theorem same_trans {p q r : Pattern} (h : Spec.Same p q) (h' : Spec.Same q r) : Spec.Same p r := by
  cases p <;> cases q <;> simp only [Spec.Same] at h <;> cases r <;> simp only [Spec.Same] at h' ⊢
  · exact ⟨h.1.trans h'.1, h.2.1.trans h'.2.1, numEq_trans h.2.2.1 h'.2.2.1, numEq_trans h.2.2.2.1 h'.2.2.2.1,
      h.2.2.2.2.1.trans h'.2.2.2.2.1, h.2.2.2.2.2.trans h'.2.2.2.2.2⟩
  · exact ⟨h.1.trans h'.1, h.2.1.trans h'.2.1, h.2.2.trans h'.2.2⟩
  · exact ⟨h.1.trans h'.1, numEq_trans h.2.1 h'.2.1, h.2.2.trans h'.2.2⟩
  · exact ⟨h.1.trans h'.1, h.2.trans h'.2⟩
  · exact h.trans h'

theorem same_of_forget {p q : Pattern} (hp : p.WF) (hn : Spec.NotNaNBound p) (h : Spec.forget p = Spec.forget q) : Spec.Same p q := by
  have h1 := same_refl p hp hn
  cases p <;> cases q <;> simp only [Spec.forget, reduceCtorEq] at h <;> injection h <;> simp_all [Spec.Same]

theorem forgetEs_iff {es es' : Entries} (h : WFEs es) (h' : WFEs es') : Spec.forgetEs es = Spec.forgetEs es' ↔
    List.Forall₂ (fun m m' => m.1 = m'.1 ∧ m.2.toJson = m'.2.toJson) es.toList es'.toList := by
  induction es using Entries.rec (motive_1 := fun _ => True) generalizing es' with
  | nil => cases es' <;> simp [Spec.forgetEs, Entries.toList]
  | cons k p r _ ih => cases es' with
    | nil => simp [Spec.forgetEs, Entries.toList]
    | cons k' p' r' =>
      simp only [WFEs] at h h'
      simp only [Spec.forgetEs, Entries.toList, List.forall₂_cons, Entries.cons.injEq, ih h.2.2 h'.2.2, toJson, PyVal.dumps,
        PyVal.text.injEq, text_eq_iff h.1 h'.1, and_assoc]
      have : (Spec.forget p).lock = (Spec.forget p').lock ↔ Spec.forget p = Spec.forget p' := by
        refine ⟨fun e => ?_, fun e => by rw [e]⟩
        rw [← text_eq_iff h.1 h'.1, ← asDict_forget p, ← asDict_lock, e, asDict_lock, asDict_forget]
      rw [this]
  | _ => trivial

theorem forget_wf (p : Pattern) (hw : p.WF) : (Spec.forget p).WF := by
  revert hw
  induction p using Pattern.ind (Q := fun es => WFEs es → WFEs (Spec.forgetEs es)) with
  | hnum c s lb ub dv fd => exact id
  | hsim k s dv fd => intro h; simpa only [Spec.forget, Pattern.WF] using h
  | hpsd n lb dv fd => intro h; simpa only [Spec.forget, Pattern.WF] using h
  | harr s b fd ih =>
    intro h
    simp only [Spec.forget, Pattern.WF] at h ⊢
    refine ⟨h.1, ?_, ih h.2.2⟩
    cases b <;> simp_all [Spec.forget, isDict]
  | hdict es l fd ih =>
    intro h
    simp only [Spec.forget, Pattern.WF, keys_forgetEs] at h ⊢
    exact ⟨h.1, ih h.2⟩
  | hnil => trivial
  | hcons k p r ihp ihr h =>
    simp only [Spec.forgetEs, WFEs] at h ⊢
    exact ⟨wf_lock (ihp h.1), lock_lock _, ihr h.2.2⟩

/-! ### Classes -/

theorem typename_inj {a b : Builtin} (h : a.typename = b.typename) : a = b := by
  cases a <;> cases b <;> first | rfl | (exact absurd h (by decide))

theorem asDict_type (p : Pattern) : ∃ fs, p.asDict.norm = .dict fs ∧ fs.lookup "pattern" = some (.str p.cls.typename) := by
  cases p with
  | numeric c s lb ub dv fd =>
    cases c <;> exact ⟨_, rfl, rfl⟩
  | _ => exact ⟨_, rfl, rfl⟩

theorem mkNumeric_cls {c s lb ub dv fd q} (h : mkNumeric c s lb ub dv fd = .ok q) : q = .numeric c s lb ub dv fd :=
  (mkNumeric_ok.mp h).1

theorem fillDict_cls (C : List (String × Except Err Pattern)) (ks : List PyVal) : ∀ (d q : Pattern), d.cls = .dict →
    Json.fillDict C d ks = .ok q → q.cls = .dict := by
  induction ks with
  | nil =>
    intro d q hd h
    simp only [Json.fillDict, Except.ok.injEq] at h
    exact h ▸ hd
  | cons k ks ih =>
    intro d q hd h
    cases k with
    | str k =>
      simp only [Json.fillDict] at h
      split at h
      · cases h
      · obtain ⟨p, -, h⟩ := bind_ok h
        obtain ⟨d', h1, h⟩ := bind_ok h
        refine ih d' q ?_ h
        cases d with
        | dict es l fd =>
          simp only [Pattern.setItem] at h1
          split at h1
          · cases h1
          · cases h1; rfl
        | _ => cases h1
    | _ => simp [Json.fillDict] at h

theorem builtinFromJson_cls {b : Builtin} {fs each inner q} (h : Json.builtinFromJson b fs each inner = .ok q) : q.cls = b := by
  simp only [Json.builtinFromJson] at h
  obtain ⟨_, -, h⟩ := bind_ok h
  cases b with
  | numericArray =>
    simp only [Json.newNumericArray] at h
    repeat obtain ⟨_, -, h⟩ := bind_ok h
    rw [mkNumeric_cls h]; rfl
  | numericVector =>
    simp only [Json.newNumericVector] at h
    repeat obtain ⟨_, -, h⟩ := bind_ok h
    rw [mkNumeric_cls h]; rfl
  | numericScalar =>
    simp only [Json.newNumericScalar] at h
    repeat obtain ⟨_, -, h⟩ := bind_ok h
    rw [mkNumeric_cls h]; rfl
  | psd =>
    simp only [Json.newPSD] at h
    repeat obtain ⟨_, -, h⟩ := bind_ok h
    simp only [mkPSD] at h
    split at h
    · cases h
    · cases h; rfl
  | simplex =>
    simp only [Json.newSimplex] at h
    repeat obtain ⟨_, -, h⟩ := bind_ok h
    split at h
    · simp only [mkSimplex] at h
      split at h
      · cases h
      · cases h; rfl
    · cases h
  | array =>
    simp only at h
    split at h
    · cases h
    · repeat obtain ⟨_, -, h⟩ := bind_ok h
      simp only [mkArray] at h
      split at h
      · cases h
      · split at h
        · cases h
        · cases h; rfl
  | dict =>
    simp only at h
    obtain ⟨_, -, h⟩ := bind_ok h
    split at h
    · split at h
      · split at h
        · cases h; rfl
        · split at h <;> cases h
      · exact fillDict_cls _ _ _ _ rfl h
    · cases h

theorem fromJson_cls {reg user} {b : Builtin} {t : PyVal} {q : Pattern} (h : Json.fromJson reg user b t = .ok q) : q.cls = b := by
  cases t with
  | text j => cases j with
    | dict fs => exact builtinFromJson_cls h
    | _ => cases h
  | _ => cases h

end Paragami
