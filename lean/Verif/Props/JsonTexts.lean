import Verif.Model.JsonTexts
import Verif.Spec.JsonTexts
import Verif.Spec.Messages
import Verif.Props.Json

/-! # The texts of the exceptions of `from_json` (C140) -/

set_option linter.unusedSimpArgs false

namespace Paragami
open Pattern Spec

theorem checkText_cases (texts : PyVal → String) (fs : List (String × PyVal)) (name : String) :
    (Json.checkTypeText texts fs name = .ok () ∧ Json.checkType fs name = .ok ()) ∨
    ∃ e e', Json.checkTypeText texts fs name = .error e ∧ Json.checkType fs name = .error e' ∧ exceptionClass e = exceptionClass e' := by
  simp only [Json.checkTypeText, Json.checkType, Json.field]
  rcases hp : fs.lookup "pattern" with _ | t
  · exact .inr ⟨_, _, rfl, rfl, rfl⟩
  · simp only [bind, Except.bind]
    cases t with
    | str s =>
      by_cases h : s = name
      · left; simp [h]
      · right; simp [h, exceptionClass]
    | _ => right; simp [exceptionClass]

/-- **C140.**  With its whole message `from_json` gives what it gives without, and raises exceptions of the same class. -/
theorem C140_outcome (reg : Registry) (user : Nat → PyVal → Except Err Pattern) (texts : PyVal → String) (b : Builtin) (v : PyVal) :
    resultOrClass (Json.fromJsonText reg user texts b v) = resultOrClass (Json.fromJson reg user b v) := by
  cases v with
  | text j =>
    cases j with
    | dict fs =>
      rcases checkText_cases texts fs b.typename with ⟨h, _⟩ | ⟨e, e', h, h', he⟩
      · simp [Json.fromJsonText, h, bind, Except.bind]
      · simp [Json.fromJsonText, Json.fromJson, Json.builtinFromJson, h, h', bind, Except.bind, resultOrClass, he]
    | _ => rfl
  | _ => rfl

/-- **C140.**  Reading the text of a pattern with the `from_json` of another class, the message names the class asked and the class found. -/
theorem C140_other_class (reg : Registry) (user : Nat → PyVal → Except Err Pattern) (texts : PyVal → String) (b : Builtin) (p : Pattern)
    (h : b ≠ p.cls) : Json.fromJsonText reg user texts b p.toJson = .error (.valueError (b.typename ++
      ".from_json must be called on a json_string made from a the same pattern type.  The json_string pattern type was " ++
      p.cls.typename ++ ".")) := by
  obtain ⟨fs, h1, h2⟩ := asDict_type p
  have h3 : p.cls.typename ≠ b.typename := fun e => h (typename_inj e).symm
  simp [toJson, PyVal.dumps, h1, Json.fromJsonText, Json.checkTypeText, Json.field, h2, bind, Except.bind, h3, pyFormat,
    String.append_assoc]

/-- What is raised for a class that is not registered: the braces stand where the name was meant to be. -/
theorem unregistered_text {reg : Registry} {user : Nat → PyVal → Except Err Pattern} {fs : List (String × PyVal)} {name : String}
    (h : fs.lookup "pattern" = some (.str name)) (hr : reg.lookup name = none) :
    Json.getPatternFromJson reg user (.text (.dict fs)) = .error (.keyError
      "Before converting from JSON, the pattern {} must be registered with ``register_pattern_json``.") := by
  simp [Json.getPatternFromJson, Json.dispatch, h, hr]

section
variable {reg : Registry} {user : Nat → PyVal → Except Err Pattern}

theorem mem_keys : ∀ (ms : JMembers) {k : String} {t : JTree}, (k, t) ∈ ms.list → k ∈ ms.keys
  | .cons k' t' r, k, t, h => by
    simp only [JMembers.list, List.mem_cons, Prod.mk.injEq] at h
    rcases h with ⟨rfl, rfl⟩ | h
    · simp [JMembers.keys]
    · simp [JMembers.keys, mem_keys r h]

theorem members_lookup : ∀ (ms : JMembers), ms.keys.Nodup → ∀ {k : String} {t : JTree}, (k, t) ∈ ms.list → ms.json.lookup k = some (.text t.json)
  | .cons k' t' r, hn, k, t, h => by
    simp only [JMembers.keys, List.nodup_cons] at hn
    simp only [JMembers.list, List.mem_cons, Prod.mk.injEq] at h
    rcases h with ⟨rfl, rfl⟩ | h
    · simp [JMembers.json]
    · have hne : k ≠ k' := fun e => hn.1 (e ▸ mem_keys r h)
      simp [JMembers.json, List.lookup, beq_eq_false_iff_ne.mpr hne, members_lookup r hn.2 h]

mutual
theorem readTree (hb : HasBuiltins reg) : ∀ t : JTree, t.Sound reg user →
    (¬ t.Unregistered reg → ∃ q, Json.getPatternFromJson reg user (.text t.json) = .ok q ∧ (t.NotDict user reg → q.isDict = false)) ∧
    (t.Unregistered reg → Json.getPatternFromJson reg user (.text t.json) = .error (.keyError
      "Before converting from JSON, the pattern {} must be registered with ``register_pattern_json``."))
  | .known p, hs => by
    simp only [JTree.Sound] at hs
    refine ⟨fun _ => ⟨Spec.forget p, by rw [JTree.json]; exact decode hb p hs.wf, fun h => ?_⟩, fun h => by simp [JTree.Unregistered] at h⟩
    simp only [JTree.NotDict] at h
    cases p <;> simp_all [Spec.forget, isDict]
  | .custom fs, hs => by
    simp only [JTree.Sound] at hs
    obtain ⟨name, hn, hs⟩ := hs
    refine ⟨fun hu => ?_, fun hu => ?_⟩
    · rcases hs with hs | ⟨n, id, q, h1, h2⟩
      · exact absurd (by simp only [JTree.Unregistered]; exact ⟨name, hn, hs⟩) hu
      · refine ⟨q, ?_, fun hd => ?_⟩
        · rw [JTree.json, (C33_dispatch reg user fs).2.2.1 _ _ _ hn h1, h2]
        · simp only [JTree.NotDict] at hd
          exact hd name n id q hn h1 h2
    · simp only [JTree.Unregistered] at hu
      obtain ⟨name', h1, h2⟩ := hu
      rw [JTree.json]
      exact unregistered_text h1 h2
  | .array s w b, hs => by
    simp only [JTree.Sound] at hs
    obtain ⟨hs, hbs, hd⟩ := hs
    obtain ⟨ih1, ih2⟩ := readTree hb b hbs
    have hread : Json.getPatternFromJson reg user (.text (JTree.array s w b).json) = (do
        let base ← Json.getPatternFromJson reg user (.text b.json)
        Pattern.mkArray s base none) := by
      rw [JTree.json, Json.getPatternFromJson]
      rw [dispatch_builtin hb (b := .array) (by simp [List.lookup, Builtin.typename])]
      simp only [Json.builtinFromJson]
      rw [checkType_ok (by simp [List.lookup, Builtin.typename])]
      simp only [bind, Except.bind, getEach_lookup]
      simp only [List.lookup]
      simp [Json.field, List.lookup, asNats_nats]
    rw [hread]
    refine ⟨fun hu => ?_, fun hu => ?_⟩
    · obtain ⟨q, h1, h2⟩ := ih1 (by simpa only [JTree.Unregistered] using hu)
      exact ⟨.array s q none, by simp [h1, bind, Except.bind, mkArray, h2 hd, hs], fun _ => rfl⟩
    · rw [ih2 (by simpa only [JTree.Unregistered] using hu)]; rfl
  | .dict ms, hs => by
    simp only [JTree.Sound] at hs
    obtain ⟨hn, hs⟩ := hs
    have hread : Json.getPatternFromJson reg user (.text (JTree.dict ms).json) =
        Json.fillDict (Json.getEach reg user ms.json) (.dict .nil false none) (ms.keys.map .str) := by
      rw [JTree.json, Json.getPatternFromJson]
      rw [dispatch_builtin hb (b := .dict) (by simp [List.lookup, Builtin.typename])]
      simp only [Json.builtinFromJson]
      rw [checkType_ok (by simp [List.lookup, Builtin.typename])]
      have hi (x : String) : Json.getInner reg user [("pattern", PyVal.str x), ("keys", .list (ms.keys.map .str)),
          ("contents", .dict ms.json)] = [("contents", Json.getEach reg user ms.json)] := by
        simp [Json.getInner]
      rw [hi]
      simp [Json.field, List.lookup, bind, Except.bind, mkDict]
    rw [hread]
    obtain ⟨h1, h2⟩ := readMembers hb ms hs (Json.getEach reg user ms.json) (fun k t h => by
      rw [getEach_lookup, members_lookup ms hn h]; rfl) .nil
    refine ⟨fun hu => ?_, fun hu => h2 (by simpa only [JTree.Unregistered] using hu)⟩
    obtain ⟨q, hq⟩ := h1 (by simpa only [JTree.Unregistered] using hu)
    exact ⟨q, hq, fun h => by simp [JTree.NotDict] at h⟩
theorem readMembers (hb : HasBuiltins reg) : ∀ ms : JMembers, ms.Sound reg user → ∀ C : List (String × Except Err Pattern),
    (∀ (k : String) (t : JTree), (k, t) ∈ ms.list → C.lookup k = some (Json.getPatternFromJson reg user (.text t.json))) → ∀ es : Entries,
    (¬ ms.Unregistered reg → ∃ q, Json.fillDict C (.dict es false none) (ms.keys.map .str) = .ok q) ∧
    (ms.Unregistered reg → Json.fillDict C (.dict es false none) (ms.keys.map .str) = .error (.keyError
      "Before converting from JSON, the pattern {} must be registered with ``register_pattern_json``."))
  | .nil, _, C, _, es => ⟨fun _ => ⟨_, rfl⟩, fun h => by simp [JMembers.Unregistered] at h⟩
  | .cons k t r, hs, C, hC, es => by
    simp only [JMembers.Sound] at hs
    obtain ⟨h1, h2⟩ := readTree hb t hs.1
    have hk := hC k t (by simp [JMembers.list])
    simp only [JMembers.Unregistered, JMembers.keys, List.map_cons, Json.fillDict, hk, bind, Except.bind]
    by_cases hu : t.Unregistered reg
    · rw [h2 hu]
      exact ⟨fun h => absurd (.inl hu) h, fun _ => rfl⟩
    · obtain ⟨q, hq, _⟩ := h1 hu
      rw [hq]
      obtain ⟨g1, g2⟩ := readMembers hb r hs.2 C (fun k t h => hC k t (by simp [JMembers.list, h])) (es.set k q.lock)
      simp only [setItem, Bool.false_eq_true, if_false]
      exact ⟨fun h => g1 fun h' => h (.inr h'), fun h => g2 (h.resolve_left hu)⟩
end

end

/-- **C140.**  If anywhere inside a JSON text there is a pattern of a class that is not registered, `get_pattern_from_json` raises
`KeyError` with one and the same message, which has a pair of braces where the name of the class was meant to be: it does not say which
class is missing, or where.  Otherwise the text is read. -/
theorem C140_unregistered {reg : Registry} (hb : HasBuiltins reg) (user : Nat → PyVal → Except Err Pattern) (t : JTree)
    (ht : t.Sound reg user) :
    (t.Unregistered reg → Json.getPatternFromJson reg user (.text t.json) = .error (.keyError
      "Before converting from JSON, the pattern {} must be registered with ``register_pattern_json``.")) ∧
    (¬ t.Unregistered reg → ∃ q, Json.getPatternFromJson reg user (.text t.json) = .ok q) :=
  ⟨(readTree hb t ht).2, fun h => (readTree hb t ht).1 h |>.imp fun _ h => h.1⟩

/-- **C140.**  Two texts that need different classes cannot be told apart by what is raised. -/
theorem C140_not_named {reg : Registry} (hb : HasBuiltins reg) (user : Nat → PyVal → Except Err Pattern) (t t' : JTree)
    (ht : t.Sound reg user) (ht' : t'.Sound reg user) (hu : t.Unregistered reg) (hu' : t'.Unregistered reg) :
    Json.getPatternFromJson reg user (.text t.json) = Json.getPatternFromJson reg user (.text t'.json) := by
  rw [(C140_unregistered hb user t ht).1 hu, (C140_unregistered hb user t' ht').1 hu']

/-- **C140.**  Registering the classes with the names that occur is enough: with them in the table nothing is missing, and the shipped classes
stay registered. -/
theorem C140_register {reg : Registry} (hb : HasBuiltins reg) (name : String) (id : Nat) (hn : reg.lookup name = none) :
    (register reg (.user name id) false).1 = .ok () ∧ HasBuiltins (register reg (.user name id) false).2 ∧
    (register reg (.user name id) false).2.lookup name = some (.user name id) ∧
    ∀ t : JTree, t.Unregistered (register reg (.user name id) false).2 → t.Unregistered reg := by
  obtain ⟨reg', h1, h2, h3⟩ := (C33_register reg (.user name id) false).2 (.inl hn)
  simp only [Cls.typename] at h2 h3
  rw [h1]
  refine ⟨rfl, fun b => ?_, h2, fun t => ?_⟩
  · have : b.typename ≠ name := fun e => by rw [← e, hb b] at hn; simp at hn
    rw [h3 _ this]; exact hb b
  · have key : ∀ n, reg'.lookup n = none → reg.lookup n = none := fun n h => by
      by_cases e : n = name
      · rw [e]; exact hn
      · rw [← h3 n e]; exact h
    exact unreg_mono key t
where
  unreg_mono {reg reg' : Registry} (key : ∀ n, reg'.lookup n = none → reg.lookup n = none) : ∀ t : JTree, t.Unregistered reg' → t.Unregistered reg
  | .known _, h => by simp [JTree.Unregistered] at h
  | .custom fs, h => by
    simp only [JTree.Unregistered] at h ⊢
    obtain ⟨n, h1, h2⟩ := h
    exact ⟨n, h1, key n h2⟩
  | .array s w b, h => by
    simp only [JTree.Unregistered] at h ⊢
    exact unreg_mono key b h
  | .dict ms, h => by
    simp only [JTree.Unregistered] at h ⊢
    exact unreg_monoM key ms h
  unreg_monoM {reg reg' : Registry} (key : ∀ n, reg'.lookup n = none → reg.lookup n = none) : ∀ ms : JMembers, ms.Unregistered reg' → ms.Unregistered reg
  | .nil, h => by simp [JMembers.Unregistered] at h
  | .cons k t r, h => by
    simp only [JMembers.Unregistered] at h ⊢
    exact h.imp (unreg_mono key t) (unreg_monoM key r)

/-- The members of a dictionary of shipped patterns. -/
def knownMembers : Entries → JMembers
  | .nil => .nil
  | .cons k p r => .cons k (.known p) (knownMembers r)

/-- **C140.**  The texts of the containers here are the ones `to_json` gives. -/
theorem C140_to_json (s : List Nat) (b : Pattern) (es : Entries) (l : Bool) (fd fd' : Option Bool) :
    (Pattern.array s b fd).toJson = .text (JTree.array s (.list ((s ++ b.shape).map .nat)) (.known b)).json ∧
    (Pattern.dict es l fd').toJson = .text (JTree.dict (knownMembers es)).json := by
  have hk : ∀ es, (knownMembers es).keys = es.keys ∧ (knownMembers es).json = contents es := fun es => by
    induction es using Entries.rec (motive_1 := fun _ => True) with
    | nil => exact ⟨rfl, rfl⟩
    | cons k p r _ ih =>
      simp only [knownMembers, JMembers.keys, JMembers.json, contents, JTree.json, ih.2, and_true]
      rw [ih.1]; rfl
    | _ => trivial
  constructor
  · simp only [toJson, PyVal.dumps, asDict, PyVal.norm, PyVal.normFields, normList_nats, JTree.json]; rfl
  · simp only [toJson, PyVal.dumps, asDict, PyVal.norm, PyVal.normFields, normList_strs, normFields_contents, JTree.json, hk]; rfl

/-- **C140.**  The other messages: a name that is taken is given in the message, and a text without the entry `pattern` is told so. -/
theorem C140_names (reg : Registry) (user : Nat → PyVal → Except Err Pattern) :
    (∀ c : Cls, (reg.lookup c.typename).isSome → register reg c false =
      (.error (.valueError ("A pattern named " ++ c.typename ++ " is already registered for JSON.")), reg)) ∧
    (∀ fs : List (String × PyVal), fs.lookup "pattern" = none → Json.getPatternFromJson reg user (.text (.dict fs)) = .error (.keyError
      ("A pattern JSON string must have an entry called pattern which is registered using ``register_pattern_json``."))) := by
  refine ⟨fun c h => ?_, fun fs h => by simp [Json.getPatternFromJson, Json.dispatch, h]⟩
  rw [register_eq, if_pos ⟨rfl, h⟩]
  rfl

/-- C140 is not vacuous: a dictionary with a scalar and an array of patterns of a class `m.C` that is not registered. -/
example (user : Nat → PyVal → Except Err Pattern) :
    let t := JTree.dict (.cons "a" (.known (.numeric .scalar [1] (.flt .ninf) (.flt .pinf) true none))
      (.cons "b" (.array [2] .none (.custom [("pattern", .str "m.C")])) .nil))
    t.Sound initialRegistry user ∧ t.Unregistered initialRegistry := by
  have hm : initialRegistry.lookup "m.C" = none := by decide +kernel
  refine ⟨?_, ?_⟩
  · simp only [JTree.Sound, JMembers.Sound, JMembers.keys, JTree.NotDict]
    refine ⟨by simp, WF.built _ (by simp [Pattern.WF, PyNum.toFlt, Flt.NotNaN, Flt.lt]), ⟨by simp, ⟨"m.C", by simp [List.lookup], .inl hm⟩, ?_⟩, trivial⟩
    intro name n id q h h'
    simp only [List.lookup, beq_self_eq_true, Option.some.injEq, PyVal.str.injEq] at h
    rw [← h, hm] at h'
    simp at h'
  · simp only [JTree.Unregistered, JMembers.Unregistered]
    exact .inr (.inl ⟨"m.C", by simp [List.lookup], hm⟩)

end Paragami
