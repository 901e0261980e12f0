import Verif.Proofs.JsonEdit
import Verif.Props.Json

/-! # C96: edited JSON texts -/

namespace Paragami
open Spec Json JsonEdit Pattern

variable {reg : Registry} {user : Nat → PyVal → Except Err Pattern}

/-- **C96, order.**  Reordering the entries of the dictionaries in a JSON text, at any depth, does not change what is read from it (if that is so for
the classes of users). -/
theorem C96_order (hu : ∀ id v w, SameJson v w → user id v = user id w) {t u : PyVal} (h : SameJson t u) (b : Builtin) :
    Json.getPatternFromJson reg user t = Json.getPatternFromJson reg user u ∧ Json.fromJson reg user b t = Json.fromJson reg user b u := by
  refine ⟨(get_same hu h).1, ?_⟩
  cases h with
  | refl v => rfl
  | dict _ _ _ _ => simp only [Json.fromJson]
  | @text v w h =>
    have ih := (get_same (reg := reg) hu h).2
    cases h with
    | refl v => rfl
    | text _ => simp only [Json.fromJson]
    | @dict fs gs n1 n2 h1 h2 =>
      have hc := corr_of_dict h1 h2
      simp only [Json.fromJson]
      refine builtinFromJson_corr (fun _ => hc) (hc _) (fun _ k _ => hc k) (fun _ => (ih fs gs rfl rfl _).1) fun _ => ?_
      rw [getInner_lookup n1, getInner_lookup n2]
      exact (ih fs gs rfl rfl _).2

/-- Permuted entries are the same entries. -/
theorem sameJson_perm {fs gs : List (String × PyVal)} (hn : (fs.map (·.1)).Nodup) (h : fs.Perm gs) : SameJson (.dict fs) (.dict gs) := by
  have hn' : (gs.map (·.1)).Nodup := (h.map _).nodup_iff.1 hn
  have key : ∀ {l : List (String × PyVal)}, (l.map (·.1)).Nodup → ∀ k v, l.lookup k = some v ↔ (k, v) ∈ l := by
    intro l
    induction l with
    | nil => simp
    | cons a l ih =>
      obtain ⟨k', v'⟩ := a
      intro hn k v
      rw [List.map_cons, List.nodup_cons] at hn
      by_cases hk : k = k'
      · subst hk
        simp only [List.lookup_cons, beq_self_eq_true, Option.some.injEq, List.mem_cons, Prod.mk.injEq, true_and]
        exact ⟨fun h => .inl h.symm, fun h => h.elim Eq.symm fun h => absurd (List.mem_map_of_mem (f := (·.1)) h) hn.1⟩
      · have hk' : (k == k') = false := by simpa using hk
        simp [List.lookup_cons, hk', ih hn.2, hk]
  refine .dict hn hn' (fun k => ?_) fun k v w hv hw => ?_
  · rw [lookup_none_iff, lookup_none_iff, (h.map (·.1)).mem_iff]
  · rw [key hn] at hv
    rw [key hn', ← h.mem_iff, ← key hn] at hw
    rw [(key hn k v).2 hv] at hw
    cases hw
    exact .refl _

/-- **C96, order, one level.**  In particular any permutation of the entries of a text with distinct entries. -/
theorem C96_permuted (hu : ∀ id v w, SameJson v w → user id v = user id w) {fs gs : List (String × PyVal)} (hn : (fs.map (·.1)).Nodup)
    (h : fs.Perm gs) : Json.getPatternFromJson reg user (.text (.dict fs)) = Json.getPatternFromJson reg user (.text (.dict gs)) :=
  (C96_order hu (.text (sameJson_perm hn h)) .dict).1

/-- **C96, order, round trip.**  A text of a pattern whose entries have been reordered at any depth (by a formatter, say) is read as before. -/
theorem C96_round_trip (hr : HasBuiltins reg) (hu : ∀ id v w, SameJson v w → user id v = user id w) {p : Pattern} (hp : Built p) {t : PyVal}
    (h : SameJson p.toJson t) : Json.getPatternFromJson reg user t = .ok (forget p) :=
  (C96_order hu h .dict).1.symm.trans (C30_exactly hr user hp)

/-- **C96, texts of other things.**  The text of anything that is not a dictionary raises `TypeError`. -/
theorem C96_not_object {t : PyVal} (ht : ∀ fs, t ≠ .dict fs) (b : Builtin) :
    Json.getPatternFromJson reg user (.text t) = .error .typeError ∧ Json.fromJson reg user b (.text t) = .error .typeError := by
  cases t with
  | dict fs => exact absurd rfl (ht fs)
  | _ => exact ⟨by simp only [Json.getPatternFromJson], by simp only [Json.fromJson]⟩

/-- **C96, names that are not strings.**  Under the entry `pattern`, a list or a dictionary raises `TypeError` and any other value that is not a string
raises `KeyError`; a shipped class raises `ValueError` for both, and `KeyError` if there is no such entry. -/
theorem C96_name {fs : List (String × PyVal)} (b : Builtin) :
    (∀ v, fs.lookup "pattern" = some v → (∀ s, v ≠ .str s) →
      (((∃ l, v = .list l) ∨ ∃ g, v = .dict g) → Json.getPatternFromJson reg user (.text (.dict fs)) = .error .typeError) ∧
      ((∀ l, v ≠ .list l) → (∀ g, v ≠ .dict g) → ∃ msg, Json.getPatternFromJson reg user (.text (.dict fs)) = .error (.keyError msg)) ∧
      ∃ msg, Json.fromJson reg user b (.text (.dict fs)) = .error (.valueError msg)) ∧
    (fs.lookup "pattern" = none → Json.fromJson reg user b (.text (.dict fs)) = .error (.keyError "pattern")) := by
  refine ⟨fun v hv hs => ⟨?_, fun hl hg => ?_, ?_⟩, fun h => ?_⟩
  · rintro (⟨l, rfl⟩ | ⟨l, rfl⟩) <;> simp only [Json.getPatternFromJson, dispatch, hv]
  · simp only [Json.getPatternFromJson, dispatch, hv]
    cases v with
    | str s => exact absurd rfl (hs s)
    | list l => exact absurd rfl (hl l)
    | dict g => exact absurd rfl (hg g)
    | _ => exact ⟨_, rfl⟩
  · simp only [Json.fromJson, builtinFromJson, checkType, field, hv, bind, Except.bind]
    cases v with
    | str s => exact absurd rfl (hs s)
    | _ => exact ⟨_, rfl⟩
  · simp only [Json.fromJson, builtinFromJson, checkType, field, h, bind, Except.bind]

/-- The entries besides `pattern`. -/
theorem kw_lookup (fs : List (String × PyVal)) {k : String} (hk : k ≠ "pattern") : (fs.filter fun f => f.1 != "pattern").lookup k = fs.lookup k := by
  rw [lookup_filter fs (· != "pattern"), if_pos (by simpa using hk)]

/-- **C96, unknown and missing entries of leaf classes.**  The classes that inherit `from_json` (all leaf classes but the simplex) raise `TypeError` if
an entry is not an argument of the constructor, and if a required argument is missing. -/
theorem C96_leaf_entries {b : Builtin} (hb : inherits b = true) {fs : List (String × PyVal)} (hp : fs.lookup "pattern" = some (.str b.typename))
    (h : (∃ f ∈ fs, f.1 ≠ "pattern" ∧ f.1 ∉ entries b) ∨ ∃ k ∈ required b, fs.lookup k = none) :
    Json.fromJson reg user b (.text (.dict fs)) = .error .typeError := by
  simp only [Json.fromJson, builtinFromJson, checkType_ok hp, bind, Except.bind]
  have bad : ∀ ps : List String, (∃ f ∈ fs, f.1 ≠ "pattern" ∧ f.1 ∉ ps) →
      checkKw (fs.filter fun f => f.1 != "pattern") ps = .error .typeError := by
    rintro ps ⟨f, hf, h1, h2⟩
    rw [checkKw, if_neg]
    rw [List.all_eq_true]
    intro hall
    have := hall f (List.mem_filter.2 ⟨hf, by simpa using h1⟩)
    exact h2 (List.contains_iff_mem.1 this)
  have miss : ∀ k, k ≠ "pattern" → fs.lookup k = none → kwReq (fs.filter fun f => f.1 != "pattern") k = .error .typeError := by
    intro k hk h0
    rw [kwReq, kw_lookup fs hk, h0]
  have either : ∀ ps, checkKw (fs.filter fun f => f.1 != "pattern") ps = .ok () ∨
      checkKw (fs.filter fun f => f.1 != "pattern") ps = .error .typeError := by
    intro ps
    rw [checkKw]
    split_ifs
    · exact .inl rfl
    · exact .inr rfl
  cases b <;> first | (cases hb; done) | skip
  · rcases h with h | ⟨k, hk, h⟩
    · have e := bad (entries .numericArray) h
      simp only [entries] at e
      simp only [newNumericArray, e, bind, Except.bind]
    · obtain rfl : k = "shape" := by simpa [required] using hk
      rcases either ["shape", "lb", "ub", "default_validate", "free_default"] with e | e <;>
        simp only [newNumericArray, e, miss _ (by decide) h, bind, Except.bind]
  · rcases h with h | ⟨k, hk, h⟩
    · have e := bad (entries .numericVector) h
      simp only [entries] at e
      simp only [newNumericVector, e, bind, Except.bind]
    · obtain rfl : k = "length" := by simpa [required] using hk
      rcases either ["length", "lb", "ub", "default_validate", "free_default"] with e | e <;>
        simp only [newNumericVector, e, miss _ (by decide) h, bind, Except.bind]
  · rcases h with h | ⟨k, hk, h⟩
    · have e := bad (entries .numericScalar) h
      simp only [entries] at e
      simp only [newNumericScalar, e, bind, Except.bind]
    · simp [required] at hk
  · rcases h with h | ⟨k, hk, h⟩
    · have e := bad (entries .psd) h
      simp only [entries] at e
      simp only [newPSD, e, bind, Except.bind]
    · obtain rfl : k = "size" := by simpa [required] using hk
      rcases either ["size", "diag_lb", "default_validate", "free_default"] with e | e <;>
        simp only [newPSD, e, miss _ (by decide) h, bind, Except.bind]

/-- **C96, unknown entries of the other classes** are ignored. -/
theorem C96_ignored {b : Builtin} (hb : inherits b = false) {fs : List (String × PyVal)} (hn : (fs.map (·.1)).Nodup) {k : String} {v : PyVal}
    (hk : k ∉ fs.map (·.1)) (hk1 : k ≠ "pattern") (hk2 : k ∉ entries b) :
    Json.fromJson reg user b (.text (.dict (fs ++ [(k, v)]))) = Json.fromJson reg user b (.text (.dict fs)) := by
  have hl : ∀ j, j ≠ k → (fs ++ [(k, v)]).lookup j = fs.lookup j := by
    intro j hj
    rw [lookup_append]
    have : (j == k) = false := by simpa using hj
    simp [List.lookup_cons, this]
  have hn' : ((fs ++ [(k, v)]).map (·.1)).Nodup := by
    rw [List.map_append, List.nodup_append]
    refine ⟨hn, by simp, ?_⟩
    intro a ha c hc e
    subst e
    simp only [List.map_cons, List.map_nil, List.mem_singleton] at hc
    exact hk (hc ▸ ha)
  simp only [Json.fromJson]
  refine builtinFromJson_corr (fun h => absurd h (by simp [hb])) (corr_eq (hl _ (Ne.symm hk1)))
    (fun _ j hj => corr_eq (hl j fun e => hk2 (e ▸ hj))) (fun h => ?_) fun h => ?_
  · subst h
    rw [getEach_lookup, getEach_lookup, hl _ fun e => hk2 (e ▸ by simp [entries])]
  · subst h
    rw [getInner_lookup hn', getInner_lookup hn, hl _ fun e => hk2 (e ▸ by simp [entries])]
    cases members reg user (fs.lookup "contents") with
    | none => exact .inl ⟨rfl, rfl⟩
    | some C => exact .inr ⟨C, C, rfl, rfl, fun _ => rfl⟩

/-- A missing entry with a default. -/
theorem kwNum_app {fs : List (String × PyVal)} {k j : String} {v : PyVal} {d : PyNum} (h : j = k → fs.lookup k = none ∧ v = .num d) :
    kwNum (fs ++ [(k, v)]) j d = kwNum fs j d := by
  rw [kwNum, kwNum, lookup_append]
  by_cases hj : j = k
  · obtain ⟨h1, rfl⟩ := h hj
    subst hj
    simp [h1]
  · have : (j == k) = false := by simpa using hj
    simp [List.lookup_cons, this]

theorem kwBool_app {fs : List (String × PyVal)} {k j : String} {v : PyVal} {d : Bool} (h : j = k → fs.lookup k = none ∧ v = .bool d) :
    kwBool (fs ++ [(k, v)]) j d = kwBool fs j d := by
  rw [kwBool, kwBool, lookup_append]
  by_cases hj : j = k
  · obtain ⟨h1, rfl⟩ := h hj
    subst hj
    simp [h1]
  · have : (j == k) = false := by simpa using hj
    simp [List.lookup_cons, this]

theorem kwOptBool_app {fs : List (String × PyVal)} {k j : String} {v : PyVal} (h : j = k → fs.lookup k = none ∧ v = .none) :
    kwOptBool (fs ++ [(k, v)]) j = kwOptBool fs j := by
  rw [kwOptBool, kwOptBool, lookup_append]
  by_cases hj : j = k
  · obtain ⟨h1, rfl⟩ := h hj
    subst hj
    simp [h1]
  · have : (j == k) = false := by simpa using hj
    simp [List.lookup_cons, this]

theorem kwReq_app {fs : List (String × PyVal)} {k j : String} {v : PyVal} (h : j ≠ k) : kwReq (fs ++ [(k, v)]) j = kwReq fs j := by
  rw [kwReq, kwReq, lookup_append]
  have : (j == k) = false := by simpa using h
  simp [List.lookup_cons, this]

theorem checkKw_app {fs : List (String × PyVal)} {k : String} {v : PyVal} {ps : List String} (h : k ∈ ps) : checkKw (fs ++ [(k, v)]) ps = checkKw fs ps := by
  have : ps.contains k = true := List.contains_iff_mem.2 h
  simp only [checkKw, List.all_append, List.all_cons, List.all_nil, this, Bool.and_true]

/-- **C96, defaults.**  A missing entry of a leaf class other than the simplex that is not required counts as the default of the constructor: no bounds,
validation by default, no default for `free`. -/
theorem C96_default {b : Builtin} (hb : inherits b = true) {fs : List (String × PyVal)} {k : String} (hk : k ∈ entries b) {d : PyVal}
    (hd : default? k = some d) (h0 : fs.lookup k = none) :
    Json.fromJson reg user b (.text (.dict fs)) = Json.fromJson reg user b (.text (.dict (fs ++ [(k, d)]))) := by
  have hkp : k ≠ "pattern" := by rintro rfl; cases b <;> simp [entries] at hk
  have hf : (fs ++ [(k, d)]).filter (fun f => f.1 != "pattern") = (fs.filter fun f => f.1 != "pattern") ++ [(k, d)] := by
    rw [List.filter_append]
    congr 1
    simp [hkp]
  have hp : (fs ++ [(k, d)]).lookup "pattern" = fs.lookup "pattern" := by
    rw [lookup_append]
    have : ("pattern" == k) = false := by simpa using Ne.symm hkp
    simp [List.lookup_cons, this]
  have h0' : (fs.filter fun f => f.1 != "pattern").lookup k = none := by rw [kw_lookup fs hkp, h0]
  simp only [Json.fromJson, builtinFromJson, checkType_corr (corr_eq hp), hf]
  generalize (fs.filter fun f => f.1 != "pattern") = gs at h0'
  congr 1; funext _
  cases b <;> first | (cases hb; done) | skip
  all_goals
    simp only [entries, List.mem_cons, List.not_mem_nil, or_false] at hk
    simp only [newNumericArray, newNumericVector, newNumericScalar, newPSD]
  · rcases hk with rfl | rfl | rfl | rfl | rfl
    · cases hd
    all_goals
      cases hd
      rw [checkKw_app (by simp), kwReq_app (by decide), kwNum_app (j := "lb"), kwNum_app (j := "ub"), kwBool_app (j := "default_validate"),
        kwOptBool_app (j := "free_default")] <;> intro h <;> first | exact absurd h (by decide) | exact ⟨h0', rfl⟩
  · rcases hk with rfl | rfl | rfl | rfl | rfl
    · cases hd
    all_goals
      cases hd
      rw [checkKw_app (by simp), kwReq_app (by decide), kwNum_app (j := "lb"), kwNum_app (j := "ub"), kwBool_app (j := "default_validate"),
        kwOptBool_app (j := "free_default")] <;> intro h <;> first | exact absurd h (by decide) | exact ⟨h0', rfl⟩
  · rcases hk with rfl | rfl | rfl | rfl
    all_goals
      cases hd
      rw [checkKw_app (by simp), kwNum_app (j := "lb"), kwNum_app (j := "ub"), kwBool_app (j := "default_validate"),
        kwOptBool_app (j := "free_default")] <;> intro h <;> first | exact absurd h (by decide) | exact ⟨h0', rfl⟩
  · rcases hk with rfl | rfl | rfl | rfl
    · cases hd
    all_goals
      cases hd
      rw [checkKw_app (by simp), kwReq_app (by decide), kwNum_app (j := "diag_lb"), kwBool_app (j := "default_validate"),
        kwOptBool_app (j := "free_default")] <;> intro h <;> first | exact absurd h (by decide) | exact ⟨h0', rfl⟩

/-- **C96, missing entries of the other classes.**  If an entry that is read is removed from the text of a simplex, an array of patterns or a dictionary,
reading it raises `KeyError`, except for the empty `contents` of an empty dictionary. -/
theorem C96_missing {p : Pattern} (hb : inherits p.cls = false) (hr : HasBuiltins reg) (hp : Built p) {fs : List (String × PyVal)} (hfs : p.toJson = .text (.dict fs))
    {k : String} (hk : k ∈ entries p.cls) (hne : k = "contents" → ∀ l fd, p ≠ .dict .nil l fd) :
    Json.fromJson reg user p.cls (.text (.dict (fs.filter fun f => f.1 != k))) = .error (.keyError k) := by
  cases p with
  | numeric c _ _ _ _ _ => cases c <;> simp [Pattern.cls, inherits] at hb
  | psd _ _ _ _ => simp [Pattern.cls, inherits] at hb
  | simplex n s dv fd =>
    simp only [toJson, PyVal.dumps, asDict, PyVal.norm, PyVal.normFields, normList_nats, norm_nat, PyVal.text.injEq, PyVal.dict.injEq] at hfs
    subst hfs
    simp only [Pattern.cls, entries, List.mem_cons, List.not_mem_nil, or_false] at hk
    rcases hk with rfl | rfl | rfl
    · rfl
    · rfl
    · simp [Json.fromJson, builtinFromJson, checkType, field, newSimplex, Pattern.cls, asNat_nat, asNats_nats, bind, Except.bind, List.filter,
        List.lookup]
  | array s base fd =>
    simp only [toJson, PyVal.dumps, asDict, PyVal.norm, PyVal.normFields, normList_nats, PyVal.text.injEq, PyVal.dict.injEq] at hfs
    subst hfs
    simp only [Pattern.cls, entries, List.mem_cons, List.not_mem_nil, or_false] at hk
    have hbase := decode (user := user) hr base (by have := hp.wf; simp only [Pattern.WF] at this; exact this.2.2)
    rcases hk with rfl | rfl
    · simp [Json.fromJson, builtinFromJson, checkType, field, Pattern.cls, bind, Except.bind, List.filter,
        List.lookup, getEach_lookup, hbase]
    · simp [Json.fromJson, builtinFromJson, checkType, field, Pattern.cls, bind, Except.bind, List.filter,
        List.lookup, getEach_lookup]
  | dict es l fd =>
    simp only [toJson, PyVal.dumps, asDict, PyVal.norm, PyVal.normFields, normList_strs, normFields_contents, PyVal.text.injEq, PyVal.dict.injEq] at hfs
    subst hfs
    simp only [Pattern.cls, entries, List.mem_cons, List.not_mem_nil, or_false] at hk
    rcases hk with rfl | rfl
    · rfl
    · have : es ≠ .nil := fun e => hne rfl l fd (e ▸ rfl)
      have hk : es.keys.isEmpty = false := by
        cases es with
        | nil => exact absurd rfl this
        | cons _ _ _ => rfl
      simp [Json.fromJson, builtinFromJson, checkType, field, Pattern.cls, bind, Except.bind, List.filter,
        List.lookup, getInner, hk]

/-- Non-vacuity of C96: a text with the entries in another order, one with an unknown entry, and one with a missing entry. -/
example (user : Nat → PyVal → Except Err Pattern) :
    let base : List (String × PyVal) := [("ub", .num (.int 2)), ("lb", .num (.int 1)), ("pattern", .str Builtin.numericScalar.typename)]
    Json.getPatternFromJson initialRegistry user (.text (.dict base)) = mkNumericScalar (.int 1) (.int 2) true none ∧
    Json.getPatternFromJson initialRegistry user (.text (.dict (("size", .nat 1) :: base))) = .error .typeError ∧
    Json.getPatternFromJson initialRegistry user (.text (.dict [("pattern", .str Builtin.array.typename), ("array_shape", .list [.nat 2])])) =
      .error (.keyError "base_pattern") := by
  have hr := initial_builtins
  refine ⟨?_, ?_, ?_⟩
  · rw [(C33_dispatch initialRegistry user _).2.2.2 _ .numericScalar rfl (hr _)]
    simp [Json.fromJson, builtinFromJson, checkType, field, bind, Except.bind, newNumericScalar, checkKw, kwNum, kwBool, kwOptBool, List.lookup]
  · rw [(C33_dispatch initialRegistry user _).2.2.2 _ .numericScalar rfl (hr _)]
    exact C96_leaf_entries rfl rfl (.inl ⟨("size", .nat 1), by simp, by decide, by simp [entries]⟩)
  · rw [(C33_dispatch initialRegistry user _).2.2.2 _ .array rfl (hr _)]
    simp [Json.fromJson, builtinFromJson, checkType, field, bind, Except.bind, List.lookup, getEach_lookup]

/-- Non-vacuity of the reordering: the text of a dictionary with two members, with the entries of the text and of `contents` reversed. -/
example {p q : Pattern} : SameJson (Pattern.dict (.cons "a" p (.cons "b" q .nil)) true none).toJson
    (.text (.dict [("contents", .dict [("b", .text q.asDict.norm), ("a", .text p.asDict.norm)]), ("keys", .list [.str "a", .str "b"]),
      ("pattern", .str Builtin.dict.typename)])) := by
  refine .text (.dict (by simp [PyVal.normFields]) (by simp) (fun k => ?_) fun k v w hv hw => ?_)
  · simp [PyVal.normFields]; tauto
  · simp only [PyVal.normFields, contents, PyVal.norm, Entries.keys, Entries.toList, List.map] at hv
    by_cases h1 : k = "pattern"
    · subst h1
      simp [List.lookup] at hv hw; subst hv hw; exact .refl _
    by_cases h2 : k = "keys"
    · subst h2
      simp [List.lookup] at hv hw; subst hv hw; exact .refl _
    by_cases h3 : k = "contents"
    · subst h3
      simp [List.lookup] at hv hw; subst hv hw
      exact sameJson_perm (by simp) (List.Perm.swap _ _ _)
    · have := (lookup_none_iff (β := PyVal) [("contents", .dict [("b", .text q.asDict.norm), ("a", .text p.asDict.norm)]), ("keys", .list [.str "a", .str "b"]),
        ("pattern", .str Builtin.dict.typename)] k).2 (by simp [h1, h2, h3])
      rw [this] at hw; cases hw

end Paragami
