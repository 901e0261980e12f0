import Verif.Proofs.JsonTextSize
import Verif.Proofs.JsonTextSound
import Verif.Props.JsonEdit

/-! # C101, C102: JSON texts character by character -/

namespace Paragami
open Spec
open Pattern hiding toJson
open JsonText hiding getPatternFromJson fromJson

variable {F : FloatText} {D : ℝ → Prop} {reg : Registry} {user : Nat → List Char → Except Err Pattern}

/-! ### C101 -/

/-- **C101, values.**  `json.loads(json.dumps(v))` is `v` with lists instead of tuples, whatever characters its strings hold, provided that its floats
are written so that they can be read back. -/
theorem C101_loads (hF : Faithful F D) {v : PyVal} (h : Printable D v) : loads F (dumps F v) = .ok (chars F v) := loads_dumps hF h

/-- **C101, layouts.**  `json.loads` returns a value exactly if the text is a way to write it: any white space between the tokens and around the
text, and characters of strings as they are or escaped.  Of several entries with the same key the last one counts. -/
theorem C101_layouts (t : List Char) (v : PyVal) : loads F t = .ok v ↔ ∃ w u w', t = w ++ (u ++ w') ∧ Ws w ∧ Ws w' ∧ Writes F v u := by
  constructor
  · exact loads_sound
  · rintro ⟨w, u, w', rfl, hw, hw', h⟩
    exact loads_writes h hw hw'

/-- **C101, texts that are not JSON.**  Any other text raises `ValueError` (namely `JSONDecodeError`), unless it has an escaped surrogate. -/
theorem C101_malformed {t : List Char} (h : ¬ ∃ v w u w', t = w ++ (u ++ w') ∧ Ws w ∧ Ws w' ∧ Writes F v u) (hs : ¬ SurrogateEscape t) (b : Builtin) :
    (∃ msg, loads F t = .error (.valueError msg)) ∧ (∃ msg, JsonText.getPatternFromJson F reg user t = .error (.valueError msg)) ∧
    ∃ msg, JsonText.fromJson F reg user b t = .error (.valueError msg) := by
  have hl : loads F t = .error (.valueError "JSONDecodeError") := by
    cases hv : loads F t with
    | ok v => exact absurd ⟨v, loads_sound hv⟩ h
    | error e =>
      rcases loads_err hv with rfl | ⟨-, h⟩
      · rfl
      · exact absurd h hs
  refine ⟨⟨_, hl⟩, ⟨"JSONDecodeError", ?_⟩, ⟨"JSONDecodeError", ?_⟩⟩
  · rw [get_unfold, hl]; rfl
  · rw [JsonText.fromJson, hl]; rfl

/-- **C101, characters.**  A JSON text has only printable ASCII characters, also if the keys of a dictionary have others. -/
theorem C101_ascii (hF : Faithful F D) {p : Pattern} (hp : Built p) (hb : FloatsIn D p) : ∀ c ∈ toJson F p, 32 ≤ c.toNat ∧ c.toNat ≤ 126 := by
  rw [toJson_eq]
  exact ascii_dumps hF (clean_printable (asDict_clean p hp.wf hb))

/-- **C101, reading a pattern.**  The text of a pattern is read as the pattern with what JSON forgets (C30) forgotten, by
`get_pattern_from_json` and by `from_json` of its class. -/
theorem C101_round_trip (hF : Faithful F D) (hr : HasBuiltins reg) (user : Nat → List Char → Except Err Pattern) {p : Pattern} (hp : Built p)
    (hb : FloatsIn D p) : JsonText.getPatternFromJson F reg user (toJson F p) = .ok (forget p) ∧
    JsonText.fromJson F reg user p.cls (toJson F p) = .ok (forget p) := by
  have h := get_toJson (user := user) hF hr hp.wf hb
  refine ⟨h, ?_⟩
  have hl := loads_dumps hF (clean_printable (asDict_clean p hp.wf hb))
  rw [← toJson_eq] at hl
  obtain ⟨fs, h1, h2⟩ := asDict_type p
  rw [get_unfold, hl, h1] at h
  rw [JsonText.fromJson, hl, h1]
  simp only [chars, bind, Except.bind] at h ⊢
  rwa [dispatch_builtin hr (b := p.cls) (by rw [chars_lookup, h2]; rfl)] at h

/-- **C101, reading a pattern in another layout.**  The same holds for every way to write the value, for example that of
`json.dumps(json.loads(text), indent=2)`. -/
theorem C101_reformatted (hF : Faithful F D) (hr : HasBuiltins reg) (user : Nat → List Char → Except Err Pattern) {p : Pattern} (hp : Built p)
    (hb : FloatsIn D p) {t w w' : List Char} (ht : Writes F (chars F p.asDict.norm) t) (hw : Ws w) (hw' : Ws w') :
    JsonText.getPatternFromJson F reg user (w ++ (t ++ w')) = .ok (forget p) := by
  have h := get_toJson (user := user) hF hr hp.wf hb
  have hl := loads_dumps hF (clean_printable (asDict_clean p hp.wf hb))
  rw [← toJson_eq] at hl
  obtain ⟨fs, h1, h2⟩ := asDict_type p
  have h3 : (charsFields F fs).lookup "pattern" = some (.str p.cls.typename) := by rw [chars_lookup, h2]; rfl
  rw [get_unfold, hl, h1] at h
  rw [get_unfold, loads_writes ht hw hw', h1]
  simp only [chars, bind, Except.bind] at h ⊢
  rw [dispatch_builtin hr h3] at h ⊢
  exact h

/-- **C101, equal texts.**  Two patterns have the same text exactly if JSON keeps the same of both. -/
theorem C101_equal (hF : Faithful F D) {p q : Pattern} (hp : Built p) (hq : Built q) (hbp : FloatsIn D p) (hbq : FloatsIn D q) :
    toJson F p = toJson F q ↔ forget p = forget q := by
  constructor
  · intro h
    have h1 := get_toJson (reg := initialRegistry) (user := fun _ _ => .error .unmodelled) hF initial_builtins hp.wf hbp
    have h2 := get_toJson (reg := initialRegistry) (user := fun _ _ => .error .unmodelled) hF initial_builtins hq.wf hbq
    rw [h, h2] at h1
    exact (Except.ok.inj h1).symm
  · intro h
    rw [toJson_eq, toJson_eq, (text_eq_iff hp.wf hq.wf).mpr h]

/-- **C101, texts cut off.**  A text of a pattern in any layout with at least one character missing at the end raises `ValueError` (namely
`JSONDecodeError`). -/
theorem C101_truncated {p : Pattern} {t w s x : List Char} (ht : Writes F (chars F p.asDict.norm) t) (hw : Ws w) (hs : s ++ x = t) (hx : x ≠ [])
    (b : Builtin) : (∃ msg, JsonText.getPatternFromJson F reg user (w ++ s) = .error (.valueError msg)) ∧
    ∃ msg, JsonText.fromJson F reg user b (w ++ s) = .error (.valueError msg) := by
  obtain ⟨fs, h1, -⟩ := asDict_type p
  have h := loads_cut ht (fun x => by rw [h1]; simp [chars]) hw hs hx
  refine ⟨⟨"JSONDecodeError", ?_⟩, ⟨"JSONDecodeError", ?_⟩⟩
  · rw [get_unfold, h]; rfl
  · rw [JsonText.fromJson, h]; rfl

/-- **C101, the text itself cut off.** -/
theorem C101_truncated_text (hF : Faithful F D) {p : Pattern} (hp : Built p) (hb : FloatsIn D p) {n : Nat} (hn : n < (toJson F p).length) (b : Builtin) :
    (∃ msg, JsonText.getPatternFromJson F reg user ((toJson F p).take n) = .error (.valueError msg)) ∧
    ∃ msg, JsonText.fromJson F reg user b ((toJson F p).take n) = .error (.valueError msg) := by
  have ht := dumps_writes hF (clean_printable (asDict_clean p hp.wf hb))
  rw [← toJson_eq] at ht
  have hx : (toJson F p).drop n ≠ [] := fun h => by rw [List.drop_eq_nil_iff] at h; omega
  exact C101_truncated (w := []) ht (fun _ h => by simp at h) (List.take_append_drop n _) hx b

/-- **C101, something after the text.**  A text of a pattern in any layout followed by anything but white space raises `ValueError`. -/
theorem C101_trailing {p : Pattern} {t w r : List Char} (ht : Writes F (chars F p.asDict.norm) t) (hw : Ws w) (hr : ¬ Ws r) (b : Builtin) :
    (∃ msg, JsonText.getPatternFromJson F reg user (w ++ (t ++ r)) = .error (.valueError msg)) ∧
    ∃ msg, JsonText.fromJson F reg user b (w ++ (t ++ r)) = .error (.valueError msg) := by
  obtain ⟨fs, h1, -⟩ := asDict_type p
  have h := loads_trailing ht (fun x => by rw [h1]; simp [chars]) hw hr
  refine ⟨⟨"JSONDecodeError", ?_⟩, ⟨"JSONDecodeError", ?_⟩⟩
  · rw [get_unfold, h]; rfl
  · rw [JsonText.fromJson, h]; rfl

/-- **C101, classes.**  A text that is not JSON raises what `json.loads` raises.  A text with the name of a shipped class is given to `from_json` of that
class, and a text with the name of a class registered by a user is given, character by character, to `from_json` of that class. -/
theorem C101_dispatch (t : List Char) :
    (∀ e b, loads F t = .error e → JsonText.getPatternFromJson F reg user t = .error e ∧ JsonText.fromJson F reg user b t = .error e) ∧
    ∀ fs n, loads F t = .ok (.dict fs) → fs.lookup "pattern" = some (.str n) →
      (∀ b, reg.lookup n = some (.builtin b) → JsonText.getPatternFromJson F reg user t = JsonText.fromJson F reg user b t) ∧
      ∀ m id, reg.lookup n = some (.user m id) → JsonText.getPatternFromJson F reg user t = user id t := by
  refine ⟨fun e b h => ?_, fun fs n h hn => ⟨fun b hb => ?_, fun m id hb => ?_⟩⟩
  · rw [get_unfold, JsonText.fromJson, h]; exact ⟨rfl, rfl⟩
  · rw [get_unfold, JsonText.fromJson, h]
    simp only [bind, Except.bind, Json.dispatch, hn, hb]
  · rw [get_unfold, h]
    simp only [bind, Except.bind, Json.dispatch, hn, hb]

/-- **C101, the model of texts by values.**  Reading the characters of a text gives what C29–C34, C81 and C96 say about reading it by the value it
encodes, whenever they say something (that is, unless the result there is `unmodelled`). -/
theorem C101_refines (hF : Faithful F D) {j : PyVal} (h : Clean D (.text j)) (b : Builtin) :
    (Json.getPatternFromJson reg (onValues F user) (.text j) ≠ .error .unmodelled →
      JsonText.getPatternFromJson F reg user (dumps F j) = Json.getPatternFromJson reg (onValues F user) (.text j)) ∧
    (Json.fromJson reg (onValues F user) b (.text j) ≠ .error .unmodelled →
      JsonText.fromJson F reg user b (dumps F j) = Json.fromJson reg (onValues F user) b (.text j)) := by
  refine ⟨fun hn => ?_, fun hn => ?_⟩
  · exact ((get_refines (reg := reg) (user := user) hF h).resolve_left hn).symm
  · exact ((fromJson_refines (reg := reg) (user := user) hF h b).resolve_left hn).symm

/-- Non-vacuity: there is a faithful way to write all finite decimal numbers, among them all doubles. -/
example : Faithful decimals Decimal ∧ ∀ m e : ℤ, Decimal (m * 2 ^ e) := ⟨decimals_faithful, decimal_dyadic⟩

set_option maxRecDepth 4000 in
/-- The text of a PSD pattern, and that of a dictionary pattern with this one under a key with a Greek letter and a quotation mark. -/
example :
    toJson F (.psd 2 (.int 1) true none) =
      "{\"pattern\": \"paragami.psdmatrix_patterns.PSDSymmetricMatrixPattern\", \"size\": 2, \"diag_lb\": 1, \"default_validate\": true}".toList ∧
    toJson F (.dict (.cons "β\"" (.psd 2 (.int 1) true none) .nil) true none) =
      "{\"pattern\": \"paragami.pattern_containers.PatternDict\", \"keys\": [\"\\u03b2\\\"\"], \"contents\": {\"\\u03b2\\\"\": \"{\\\"pattern\\\": \\\"paragami.psdmatrix_patterns.PSDSymmetricMatrixPattern\\\", \\\"size\\\": 2, \\\"diag_lb\\\": 1, \\\"default_validate\\\": true}\"}}".toList := by
  have h1 : intText 1 = ['1'] := rfl
  have h2 : intText 2 = ['2'] := rfl
  constructor
  · simp [toJson, asDict, Builtin.typename, dumps, dumpsFields, dumpsFieldsTail, quote, esc, numText, PyVal.nat, h1, h2]
  · simp [toJson, asDict, contents, Entries.keys, Entries.toList, PyVal.norm, PyVal.normFields, Builtin.typename, dumps, dumpsItems,
      dumpsItemsTail, dumpsFields, dumpsFieldsTail, quote, esc, u4, numText, PyVal.nat, h1, h2]

/-- A text in another layout, with an entry that counts for nothing because a later one has the same key. -/
example : loads F " {\"a\" : [1 ,\n2],\"b\":null, \"a\":true}\n".toList = .ok (.dict [("a", .bool true), ("b", .none)]) := by
  have h := (C101_layouts (F := F) _ (.dict [("a", .bool true), ("b", .none)])).mpr ⟨[' '], _, ['\n'], rfl, by simp [Ws], by simp [Ws],
    .dict (w := []) (by simp [Ws]) (.cons (k := ['a']) (s := ['a']) (w1 := [' ']) (w2 := [' ']) (w3 := []) (w4 := [])
      (.plain (by decide) (by decide) (by decide) .nil) (by simp [Ws]) (by simp [Ws])
      (.list (w := []) (by simp [Ws]) (.cons (w := [' ']) (w' := ['\n']) (.int 1) (by simp [Ws]) (by simp [Ws])
        (.last (w := []) (.int 2) (by simp [Ws])))) (by simp [Ws]) (by simp [Ws])
      (.cons (k := ['b']) (s := ['b']) (w1 := []) (w2 := []) (w3 := []) (w4 := [' '])
        (.plain (by decide) (by decide) (by decide) .nil) (by simp [Ws]) (by simp [Ws]) .null (by simp [Ws]) (by simp [Ws])
        (.last (k := ['a']) (s := ['a']) (w1 := []) (w2 := []) (w3 := []) (.plain (by decide) (by decide) (by decide) .nil)
          (by simp [Ws]) (by simp [Ws]) .true (by simp [Ws])))) (updated_pyDict _)⟩
  have h1 : (Int.repr 1).toList = ['1'] := rfl
  have h2 : (Int.repr 2).toList = ['2'] := rfl
  simpa [h1, h2] using h

/-- A string written with escapes that `json.dumps` would not use, among them a surrogate pair in upper case. -/
example : loads F "\"\\u0061\\/\\uD834\\uDD1E\"".toList = .ok (.str "a/𝄞") := by
  refine (C101_layouts _ _).mpr ⟨[], "\"\\u0061\\/\\uD834\\uDD1E\"".toList, [], by simp, by simp [Ws], by simp [Ws], ?_⟩
  have hx : ∀ n, n < 16 → HexDigit (Nat.digitChar n).toUpper n := fun n h => ⟨h, .inr rfl⟩
  refine .str (s := ['a', '/', '𝄞']) (.code (h := "0061".toList) ?_ (.short (d := '/') (by simp [shorts]) (.pair (h := "D834".toList) (h' := "DD1E".toList)
    (a := 0x34) (b := 0x11E) ?_ ?_ (by decide) (by decide) (by decide) .nil)))
  · exact ⟨_, _, _, _, 0, 0, 6, 1, rfl, hx 0 (by decide), hx 0 (by decide), hx 6 (by decide), hx 1 (by decide), rfl⟩
  · exact ⟨_, _, _, _, 13, 8, 3, 4, rfl, hx 13 (by decide), hx 8 (by decide), hx 3 (by decide), hx 4 (by decide), rfl⟩
  · exact ⟨_, _, _, _, 13, 13, 1, 14, rfl, hx 13 (by decide), hx 13 (by decide), hx 1 (by decide), hx 14 (by decide), rfl⟩

/-- Texts that are not JSON: a comma before the bracket, single quotation marks, a number with a superfluous zero. -/
example : ∀ t ∈ ["[1,]".toList, "{'a': 1}".toList, "01".toList], ¬ ∃ v w u w', t = w ++ (u ++ w') ∧ Ws w ∧ Ws w' ∧ Writes F v u := by
  intro t ht h
  obtain ⟨v, h⟩ := h
  have hl := (C101_layouts t v).mpr h
  simp only [List.mem_cons, List.not_mem_nil, or_false] at ht
  rcases ht with rfl | rfl | rfl
  · simp [loads, skip, isWs, value, items, scalar, number, intPart, natPart, fracPart, expPart, constants, lit, bad, bind, Except.bind] at hl
  · simp [loads, skip, isWs, value, members, bad, bind, Except.bind] at hl
  · simp [loads, skip, isWs, value, scalar, number, intPart, natPart, fracPart, expPart, bad, bind, Except.bind] at hl

/-- Patterns to which C101 applies: one with a bound that is a double, nested twice, with any characters in its keys. -/
example : ∃ p, Built p ∧ FloatsIn Decimal p ∧ forget p ≠ p ∧ ∀ F : FloatText, 0 < (toJson F p).length := by
  refine ⟨.dict (.cons "β\"\\\n" (.array [2] (.numeric .vector [3] (.flt (.fin (1 / 4))) (.flt .pinf) true none) (some true)) .nil) true none,
    WF.built _ (by simp [Pattern.WF, WFEs, lock, isDict, Entries.keys, Entries.toList, PyNum.toFlt, Flt.NotNaN, Flt.lt]), ?_, ?_, fun F => ?_⟩
  · simp only [FloatsIn, FloatsInEs, NumIn, and_true]
    exact ⟨25, 2, by norm_num⟩
  · simp [forget]
  · simp [toJson, asDict, dumps]

/-! ### C102 -/

/-- **C102.**  Every level of containers at least doubles the quotation marks and backslashes of the text, so the text of a pattern nested `d` levels
deep has at least `2 ^ (d + 3)` characters. -/
theorem C102_size (F : FloatText) (p : Pattern) : 2 ^ (depth p + 3) ≤ (toJson F p).length :=
  (marks_toJson F p).trans List.countP_le_length

/-- Non-vacuity: dictionaries can be nested as deep as one likes. -/
example (d : Nat) : ∃ p, Built p ∧ depth p = d := by
  obtain ⟨p, h1, h2, -⟩ : ∃ p : Pattern, p.WF ∧ depth p = d ∧ p.lock = p := by
    induction d with
    | zero => exact ⟨(mkDict none).lock, by simp [Pattern.WF, WFEs, mkDict, lock, Entries.keys, Entries.toList], rfl, rfl⟩
    | succ d ih =>
      obtain ⟨p, h1, h2, h3⟩ := ih
      exact ⟨.dict (.cons "a" p .nil) true none, by simp [Pattern.WF, WFEs, Entries.keys, Entries.toList, h1, h3],
        by simp [depth, depthEs, h2], rfl⟩
  exact ⟨p, WF.built _ h1, h2⟩

end Paragami
