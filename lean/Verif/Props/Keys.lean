import Verif.Proofs.KeysJson
import Verif.Props.RoundTrip
import Mathlib.Tactic.DeriveEncodable

/-! # C103: dictionaries with any keys -/

namespace Paragami
open Spec Keys
open Pattern hiding toJson
open JsonText hiding getPatternFromJson fromJson

variable {ν : Key → String} {fmt : Flt → String} {shw : Key → String} {t : KPattern}

theorem resolve_cases (t : KPattern) (free : Option Bool) : (∃ e, freeWithDefault t.freeDefault free = .error e) ∨
    ∃ b, freeWithDefault t.freeDefault free = .ok b ∧ t.flatLength free = .ok (t.flatLen b) := by
  cases h : freeWithDefault t.freeDefault free with
  | error e => exact .inl ⟨e, rfl⟩
  | ok b => exact .inr ⟨b, rfl, by rw [KPattern.flatLength, h]; rfl⟩

/-! ### The same as with strings -/

/-- **C103, building.**  With different names for different keys, the renamed pattern can be built in the same way: assigning and deleting members do
the same, and what is built is again obtainable through the API, so that C01–C102 are about it. -/
theorem C103_built (hν : Names ν) : (∀ t, KBuilt t → Built (rename ν t)) ∧
    (∀ d p k, KBuilt d → KBuilt p → SameOutcome (fun a b => rename ν a = b) (d.setItem k p) ((rename ν d).setItem (ν k) (rename ν p))) ∧
    (∀ shw d k, KBuilt d → SameOutcome (fun a b => rename ν a = b) (d.delItem shw k) ((rename ν d).delItem (ν k))) ∧
    ∀ t free, t.flatLength free = (rename ν t).flatLength free := by
  refine ⟨fun t h => WF.built _ ((KBuilt.kwf h).rename (injIn_all hν) (keysIn_all t)), fun d p k hd hp => ?_, fun shw d k hd => ?_, fun t free => ?_⟩
  · exact setItem_rename hν (KBuilt.kwf hd).leafWF (KBuilt.kwf hp).leafWF k
  · exact delItem_rename hν shw (KBuilt.kwf hd).leafWF k
  · rw [KPattern.flatLength, Pattern.flatLength, freeDefault_rename]
    simp only [flatLen_rename ν]

/-- The general form of the theorems about `fold`. -/
theorem fold_agree {E : Prop} {S : Key → Prop} (hν : InjIn S ν) (hE : E → ∀ k, S k → shw k = ν k) (ht : LeafWF t) (hs : KeysIn S t) (x : NDArray Flt)
    (free vv : Option Bool) (h : KeysIn IsStr t ∨ ∀ n, t.flatLength free = .ok n → x.atleast1d.size = n) :
    AgreeE E (FRel S ν) (t.fold fmt shw x free vv) ((rename ν t).fold x free vv) := by
  rw [KPattern.fold, Pattern.fold, freeDefault_rename]
  rcases resolve_cases t free with ⟨e, he⟩ | ⟨b, hb, hl⟩
  · rw [he]; exact .error (SameKind.refl e) fun _ => rfl
  · rw [hb]
    have hsz : SizeOk t x (t.flatLen b) := h.elim .inr fun h => .inl (h _ hl)
    cases b with
    | true => exact foldFree_rename ν t x ht hs hsz
    | false => exact foldNF_rename hν hE t x vv ht hs hsz

/-- The general form of the theorems about `flatten`. -/
theorem flatten_agree {E : Prop} {S : Key → Prop} (hν : InjIn S ν) (hE : E → ∀ k, S k → shw k = ν k) (ht : LeafWF t) (hs : KeysIn S t) {v : KVal Flt}
    (hv : ValKeysIn S v) (free vv : Option Bool) :
    AgreeE E (fun a b => a = b) (t.flatten shw v free vv) ((rename ν t).flatten (renameVal ν v) free vv) := by
  rw [KPattern.flatten, Pattern.flatten, freeDefault_rename]
  rcases resolve_cases t free with ⟨e, he⟩ | ⟨b, hb, hl⟩
  · rw [he]; exact .error (SameKind.refl e) fun _ => rfl
  · rw [hb]
    cases b with
    | true => exact flattenFree_rename hν hE t v vv ht hs hv
    | false => exact flattenNF_rename hν hE t v vv ht hs hv

/-- The general form of the theorems about `flat_indices`. -/
theorem indices_agree {E : Prop} {S : Key → Prop} (hν : InjIn S ν) (hE : E → ∀ k, S k → shw k = ν k) (ht : LeafWF t) (hs : KeysIn S t) {v : KVal Bool}
    (hv : ValKeysIn S v) (free : Option Bool) (hd : ∀ p vs, t = .leaf p → v = .dict vs → ∃ b, freeWithDefault t.freeDefault free = .ok b) :
    AgreeE E (fun a b => a = b) (t.flatIndices shw v free) ((rename ν t).flatIndices (renameVal ν v) free) := by
  cases t with
  | leaf p =>
    cases v with
    | arr a => exact .same fun _ => rfl
    | dict vs =>
      obtain ⟨b, hb⟩ := hd p vs rfl rfl
      have h1 : KPattern.flatIndices shw (.leaf p) (.dict vs) free = .error .typeError := rfl
      have h2 : p.flatIndices (.dict (renameVals ν vs)) free = .error .typeError := by
        rcases flatIndices_dict_err (p := p) ht (renameVals ν vs) free with h | ⟨s, q, fd, rfl⟩
        · exact h
        · simp only [Pattern.flatIndices]
          simp only [KPattern.freeDefault] at hb
          rw [hb]
          exact flatIdx_dict_err ht (renameVals ν vs) b
      rw [h1, rename, renameVal, h2]
      exact .error rfl fun _ => rfl
  | dict es l fd =>
    simp only [KPattern.flatIndices, rename, Pattern.flatIndices, Pattern.freeDefault]
    cases freeWithDefault fd free with
    | error e => exact .error (SameKind.refl e) fun _ => rfl
    | ok b => exact flatIdx_rename hν hE (.dict es l fd) v b ht hs hv

/-- **C103, `fold`.**  Given a vector of the right length, `fold` returns the same values, under the same keys and in the same order, as with the keys
renamed, or raises an exception of the same class. -/
theorem C103_fold (hν : Names ν) (ht : KBuilt t) (x : NDArray Flt) (free vv : Option Bool)
    (h : ∀ n, t.flatLength free = .ok n → x.atleast1d.size = n) :
    SameOutcome (fun v w => renameVal ν v = w) (t.fold fmt shw x free vv) ((rename ν t).fold x free vv) :=
  ((fold_agree (E := False) (injIn_all hν) (fun h => h.elim) (KBuilt.kwf ht).leafWF (keysIn_all t) x free vv (.inr h)).mono fun _ _ h => h.1).agree

/-- **C103, `flatten`.** -/
theorem C103_flatten (hν : Names ν) (ht : KBuilt t) (v : KVal Flt) (free vv : Option Bool) :
    SameOutcome (fun x y => x = y) (t.flatten shw v free vv) ((rename ν t).flatten (renameVal ν v) free vv) :=
  (flatten_agree (E := False) (injIn_all hν) (fun h => h.elim) (KBuilt.kwf ht).leafWF (keysIn_all t) (valKeysIn_all v) free vv).agree

/-- **C103, other methods.**  `validate_folded`, `empty`, `empty_bool`, `random` (of a vector of the right length) and `flat_indices`. -/
theorem C103_others (hν : Names ν) (ht : KBuilt t) :
    (∀ (v : KVal Flt) vv, SameOutcome (fun a b => a.1 = b.1) (t.validate shw v vv) ((rename ν t).validate (renameVal ν v) vv)) ∧
    SameOutcome (fun v w => renameVal ν v = w) t.empty (rename ν t).empty ∧
    (∀ b, SameOutcome (fun v w => renameVal ν v = w) (t.emptyBool fmt shw b) ((rename ν t).emptyBool b)) ∧
    (∀ draw : List Flt, draw.length = t.flatLen true → SameOutcome (fun v w => renameVal ν v = w) (t.random fmt draw) ((rename ν t).random draw)) ∧
    ∀ (v : KVal Bool) b, SameOutcome (fun i j => i = j) (t.flatIndices shw v (some b)) ((rename ν t).flatIndices (renameVal ν v) (some b)) := by
  have hl := (KBuilt.kwf ht).leafWF
  refine ⟨fun v vv => ?_, ?_, fun b => ?_, fun draw hdraw => ?_, fun v b => ?_⟩
  · exact ((validate_rename (E := False) (injIn_all hν) (fun h => h.elim) t v vv hl (keysIn_all t) (valKeysIn_all v)).mono fun _ _ h => h.1).agree
  · exact ((empty_rename (E := False) (S := fun _ => True) ν t hl (keysIn_all t)).mono fun _ _ h => h.1).agree
  · rw [KPattern.emptyBool, Pattern.emptyBool, flatLen_rename ν]
    refine ((foldNF_rename (E := False) (injIn_all hν) (fun h => h.elim) t _ (some false) hl (keysIn_all t) (.inl ?_)).mono fun _ _ h => h.1).agree
    simp [NDArray.atleast1d, NDArray.vec, NDArray.size, flatLen_rename ν]
  · refine ((foldFree_rename (E := False) (S := fun _ => True) ν t _ hl (keysIn_all t) (.inl ?_)).mono fun _ _ h => h.1).agree
    simp [NDArray.atleast1d, NDArray.vec, NDArray.size, hdraw]
  · exact (indices_agree (E := False) (injIn_all hν) (fun h => h.elim) hl (keysIn_all t) (valKeysIn_all v) (some b) fun _ _ _ _ => ⟨b, rfl⟩).agree

theorem agree_ok {A B : Type} {R : A → B → Prop} {r : Except Err A} {s : Except Err B} {a : A} (h : SameOutcome R r s) (hr : r = .ok a) :
    ∃ b, s = .ok b ∧ R a b := by
  subst hr
  cases s with
  | ok b => exact ⟨b, rfl, h⟩
  | error e => exact h.elim

theorem agree_ok' {A B : Type} {R : A → B → Prop} {r : Except Err A} {s : Except Err B} {b : B} (h : SameOutcome R r s) (hs : s = .ok b) :
    ∃ a, r = .ok a ∧ R a b := by
  subst hs
  cases r with
  | ok a => exact ⟨a, rfl, h⟩
  | error e => exact h.elim

/-- **C103, round trip.**  For example, C05 holds for any keys: flattening what a vector folds to gives the vector. -/
theorem C103_round_trip (hν : Names ν) (ht : KBuilt t) (hne : (rename ν t).NoEmpty) {l : List Flt} (hl : l.length = t.flatLen false)
    {vv : Option Bool} {v : KVal Flt} (h : t.fold fmt shw (NDArray.vec l) (some false) vv = .ok v) :
    t.flatten shw v (some false) vv = .ok (NDArray.vec l) := by
  have h1 := C103_fold (fmt := fmt) (shw := shw) hν ht (NDArray.vec l) (some false) vv (by
    intro n hn
    cases hn
    exact hl)
  obtain ⟨w, h2, rfl⟩ := agree_ok h1 h
  have h3 := C05_nonfree_vector ((C103_built hν).1 t ht) hne h2
  obtain ⟨x, h4, h5⟩ := agree_ok' (C103_flatten (shw := shw) hν ht v (some false) vv) h3
  rw [h4, h5]

/-! ### What needs strings -/

/-- **C103, wrong length.**  If some key is not a string, `fold` of a vector of the wrong length raises `TypeError`, not `ValueError`, because the
message cannot be written. -/
theorem C103_wrong_length (hs : ¬ KeysIn IsStr t) (x : NDArray Flt) (hx : x.atleast1d.ndim = 1) (free vv : Option Bool) {n : Nat}
    (hn : t.flatLength free = .ok n) (h : x.atleast1d.size ≠ n) : t.fold fmt shw x free vv = .error .typeError := by
  rcases resolve_cases t free with ⟨e, he⟩ | ⟨b, hb, hl⟩
  · rw [KPattern.flatLength, he] at hn; cases hn
  · rw [hl] at hn
    cases hn
    rw [KPattern.fold, hb]
    cases t with
    | leaf p => exact absurd trivial hs
    | dict es l fd =>
      have := (fold_wrong (fmt := fmt) (.dict es l fd) x (KPattern.flatLenEs es b) hx h).2 hs
      cases b with
      | true =>
        simp only [bind, Except.bind, if_true, KPattern.foldFree]
        rw [this]
      | false =>
        simp only [bind, Except.bind, Bool.false_eq_true, if_false, KPattern.foldNF]
        rw [this]

/-- **C103, `str`.**  `str` works exactly if all keys are strings; otherwise it raises `TypeError`. -/
theorem C103_str (fmt : Flt → String) (t : KPattern) :
    (KeysIn IsStr t → ∃ s, t.str fmt = .ok s) ∧ (¬ KeysIn IsStr t → t.str fmt = .error .typeError) := by
  rcases str_cases fmt t with ⟨h, s, hs⟩ | ⟨h, hs⟩
  · exact ⟨fun _ => ⟨s, hs⟩, fun h' => absurd h h'⟩
  · exact ⟨fun h' => absurd h' h, fun _ => hs⟩

/-- **C103, `flat_names`.**  In a pattern without empty dictionaries, `flat_names` raises `TypeError` exactly if a member that has entries has a key
which is not a string; otherwise there are as many names as entries, and the keys that are not strings do not occur in them. -/
theorem C103_names (hν : ∀ s, ν (.str s) = s) (ht : KBuilt t) (hne : NoEmptyDict t) (free : Bool) (delim : String) :
    (KeysNamed free t → ∃ names, t.flatNames (some free) delim = .ok names ∧ (rename ν t).flatNames (some free) delim = .ok names ∧
      names.length = t.flatLen free) ∧
    (¬ KeysNamed free t → t.flatNames (some free) delim = .error .typeError) := by
  rcases names_cases hν free t delim (KBuilt.kwf ht).leafWF hne with ⟨h, hs⟩ | ⟨h, hs⟩
  · exact ⟨fun _ => hs, fun h' => absurd h h'⟩
  · exact ⟨fun h' => absurd h' h, fun _ => hs⟩

mutual
theorem names_empty (free : Bool) : ∀ (t : KPattern) (delim : String), LeafWF t → ¬ NoEmptyDict t →
    t.flatNames (some free) delim = .error .indexError ∨ t.flatNames (some free) delim = .error .typeError
  | .leaf p, delim, _, h => absurd trivial h
  | .dict es l fd, delim, hl, h => by
    by_cases hn : es = .nil
    · subst hn; exact .inl rfl
    · rcases namesEs_empty free es delim hl (fun h' => h ⟨hn, h'⟩) with h1 | h1
      · exact .inl (by rw [KPattern.flatNames, h1]; rfl)
      · exact .inr (by rw [KPattern.flatNames, h1]; rfl)
theorem namesEs_empty (free : Bool) : ∀ (es : KEntries) (delim : String), LeafWFEs es → ¬ NoEmptyDictEs es →
    KPattern.flatNamesEs es (some free) delim = .error .indexError ∨ KPattern.flatNamesEs es (some free) delim = .error .typeError
  | .nil, _, _, h => absurd trivial h
  | .cons k p r, delim, hl, h => by
    by_cases hp : NoEmptyDict p
    · rcases names_cases (ν := fun k => match k with | .str s => s | _ => "") (fun _ => rfl) free p "_" hl.1 hp with ⟨_, names, h2, _⟩ | ⟨_, h2⟩
      · have hr := namesEs_empty free r delim hl.2 fun h' => h ⟨hp, h'⟩
        rw [KPattern.flatNamesEs, h2]
        by_cases hk : IsStr k
        · obtain ⟨s, rfl⟩ := hk
          rcases hr with hr | hr <;> simp [bind, Except.bind, prefix_str, hr]
        · simp only [bind, Except.bind, prefix_other hk]
          by_cases hz : names.length = 0
          · rcases hr with hr | hr <;> simp [hz, hr]
          · simp [hz]
      · exact .inr (by rw [KPattern.flatNamesEs, h2]; rfl)
    · rcases names_empty free p "_" hl.1 hp with h1 | h1
      · exact .inl (by rw [KPattern.flatNamesEs, h1]; rfl)
      · exact .inr (by rw [KPattern.flatNamesEs, h1]; rfl)
end

mutual
theorem names_str (free : Bool) : ∀ (t : KPattern), KeysIn IsStr t → KeysNamed free t
  | .leaf _, _ => trivial
  | .dict es _ _, h => namesEs_str free es h
theorem namesEs_str (free : Bool) : ∀ (es : KEntries), KeysInEs IsStr es → KeysNamedEs free es
  | .nil, _ => trivial
  | .cons _ p r, h => ⟨names_str free p h.2.1, fun _ => h.1, namesEs_str free r h.2.2⟩
end

mutual
theorem names_empty_str (free : Bool) : ∀ (t : KPattern) (delim : String), LeafWF t → KeysIn IsStr t → ¬ NoEmptyDict t →
    t.flatNames (some free) delim = .error .indexError
  | .leaf p, delim, _, _, h => absurd trivial h
  | .dict es l fd, delim, hl, hs, h => by
    by_cases hn : es = .nil
    · subst hn; rfl
    · rw [KPattern.flatNames, namesEs_empty_str free es delim hl hs (fun h' => h ⟨hn, h'⟩)]; rfl
theorem namesEs_empty_str (free : Bool) : ∀ (es : KEntries) (delim : String), LeafWFEs es → KeysInEs IsStr es → ¬ NoEmptyDictEs es →
    KPattern.flatNamesEs es (some free) delim = .error .indexError
  | .nil, _, _, _, h => absurd trivial h
  | .cons k p r, delim, hl, hs, h => by
    by_cases hp : NoEmptyDict p
    · rcases names_cases (ν := fun k => match k with | .str s => s | _ => "") (fun _ => rfl) free p "_" hl.1 hp with ⟨_, names, h2, _⟩ | ⟨h1, _⟩
      · obtain ⟨⟨s, rfl⟩, _, hs'⟩ := hs
        rw [KPattern.flatNamesEs, h2]
        simp [bind, Except.bind, prefix_str, namesEs_empty_str free r delim hl.2 hs' fun h' => h ⟨hp, h'⟩]
      · exact absurd (names_str free p hs.2.1) h1
    · rw [KPattern.flatNamesEs, names_empty_str free p "_" hl.1 hs.2.1 hp]; rfl
end

/-- **C103, `flat_names` with empty dictionaries.**  An empty dictionary anywhere in the pattern makes `flat_names` raise, an `IndexError` if every
key is a string. -/
theorem C103_names_empty (ht : KBuilt t) (hne : ¬ NoEmptyDict t) (free : Bool) (delim : String) :
    (∃ e, t.flatNames (some free) delim = .error e ∧ (e = .indexError ∨ e = .typeError)) ∧
    (KeysIn IsStr t → t.flatNames (some free) delim = .error .indexError) := by
  refine ⟨?_, fun hs => ?_⟩
  · rcases names_empty free t delim (KBuilt.kwf ht).leafWF hne with h | h
    · exact ⟨_, h, .inl rfl⟩
    · exact ⟨_, h, .inr rfl⟩
  · exact names_empty_str free t delim (KBuilt.kwf ht).leafWF hs hne

variable {F : FloatText} {D : ℝ → Prop} {reg : Registry}

/-- **C103, writing JSON.**  `to_json` works exactly if no key is a tuple; otherwise it raises `TypeError`. -/
theorem C103_to_json (F : FloatText) (t : KPattern) :
    (KeysIn (fun k => ¬ IsTuple k) t → ∃ x, toJsonK F t = .ok x) ∧ (¬ KeysIn (fun k => ¬ IsTuple k) t → toJsonK F t = .error .typeError) := by
  rcases toJson_cases F t with ⟨h, hs⟩ | ⟨h, hs⟩
  · exact ⟨fun _ => hs, fun h' => absurd h h'⟩
  · exact ⟨fun h' => absurd h' h, fun _ => hs⟩

/-- **C103, reading JSON.**  If some key is not a string, the text can still be written (unless a key is a tuple) but not read back:
`get_pattern_from_json` raises `KeyError`. -/
theorem C103_from_json (hF : Faithful F D) (hr : HasBuiltins reg) (user : Nat → List Char → Except Err Pattern) (ht : KBuilt t)
    (hb : FloatsIn D (rename ν t)) (hk : KeysIn (FloatKeyIn D) t) {x : List Char} (hx : toJsonK F t = .ok x) (hs : ¬ KeysIn IsStr t) :
    ∃ m, JsonText.getPatternFromJson F reg user x = .error (.keyError m) :=
  read_back hF hr user (KBuilt.kwf ht) hb hk hx hs

theorem contents_members : ∀ {es : KEntries} {fs : List (Key × PyVal)}, contentsK F es = .ok fs →
    List.Forall₂ (fun m f => f.1 = m.1 ∧ ∃ y, toJsonK F m.2 = .ok y ∧ f.2 = .str (String.ofList y)) (memberList es) fs
  | .nil, fs, h => by rw [contentsK] at h; cases h; exact .nil
  | .cons k p r, fs, h => by
    rw [contentsK] at h
    obtain ⟨y, hy, h⟩ := bind_ok h
    obtain ⟨gs, hg, h⟩ := bind_ok h
    cases h
    exact .cons ⟨rfl, y, hy, rfl⟩ (contents_members hg)

theorem entries_written : ∀ {fs : List (Key × PyVal)} {cs : List (String × PyVal)}, mapE (entryText F) fs = .ok cs →
    cs = fs.map fun f => (jsonKey F.repr f.1, f.2)
  | [], cs, h => by cases h; rfl
  | f :: fs, cs, h => by
    rw [mapE] at h
    cases he : entryText F f with
    | error e => rw [he] at h; cases h
    | ok g =>
      rw [he] at h
      cases hm : mapE (entryText F) fs with
      | error e => rw [hm] at h; cases h
      | ok cs' =>
        rw [hm] at h
        cases h
        rw [List.map_cons, ← entries_written hm]
        congr 1
        rw [entryText] at he
        obtain ⟨k, hk, he⟩ := bind_ok he
        cases he
        obtain ⟨k', v⟩ := f
        cases k' with
        | tuple l => cases hk
        | bool b => cases b <;> cases hk <;> rfl
        | int i => cases hk; rw [jsonKey, intText_eq, String.ofList_toList]
        | _ => cases hk; rfl

theorem keys_value : ∀ ks : List Key, (∀ k ∈ ks, ¬ IsTuple k) → charsList F (ks.map keyVal) = ks.map jsonValue
  | [], _ => rfl
  | k :: ks, h => by
    rw [List.map_cons, charsList, keys_value ks fun k hk => h k (List.mem_cons_of_mem _ hk), List.map_cons]
    cases k with
    | tuple l => exact absurd ⟨l, rfl⟩ (h _ List.mem_cons_self)
    | _ => rfl

/-- **C103, what is written.**  `json.loads` of the text of a dictionary gives an object with three entries: the name of the class, the list of the keys
(as strings, numbers, Booleans and `None`), and the contents, where each member's text stands under its key written as a string: `true`, `false`, `null`
or the number.  Of several keys which are written in the same way (such as `1` and `"1"`) only the last one's member remains. -/
theorem C103_written (hF : Faithful F D) {es : KEntries} {l : Bool} {fd : Option Bool} (hk : ∀ m ∈ memberList es, FloatKeyIn D m.1) {x : List Char}
    (hx : toJsonK F (.dict es l fd) = .ok x) :
    ∃ (texts : List (List Char)) (cs : List (String × PyVal)), List.Forall₂ (fun m y => toJsonK F m.2 = .ok y) (memberList es) texts ∧
      loads F x = .ok (.dict [("pattern", .str "paragami.pattern_containers.PatternDict"), ("keys", .list ((memberList es).map fun m : Key × KPattern => jsonValue m.1)),
        ("contents", .dict cs)]) ∧
      ∀ s, cs.lookup s = ((((memberList es).map fun m : Key × KPattern => jsonKey F.repr m.1).zip texts).reverse.lookup s).map fun y => .str (String.ofList y) := by
  have hkeys : ∀ es : KEntries, es.keys = (memberList es).map (·.1) := by
    intro es
    induction es using KEntries.rec (motive_1 := fun _ => True) with
    | nil => rfl
    | cons k p r _ ih => rw [KEntries.keys, memberList, List.map_cons, ih]
    | _ => trivial
  have htup : KeysIn (fun k => ¬ IsTuple k) (.dict es l fd) := by
    rcases toJson_cases F (.dict es l fd) with ⟨h, _⟩ | ⟨_, h⟩
    · exact h
    · rw [h] at hx; cases hx
  have htk := keysInEs_mem (S := fun k => ¬ IsTuple k) htup
  rw [toJsonK_dict] at hx
  obtain ⟨fs, h1, hx⟩ := bind_ok hx
  obtain ⟨cs, h2, hx⟩ := bind_ok hx
  simp only [pure, Except.pure, Except.ok.injEq] at hx
  subst hx
  have hm := contents_members h1
  have hw := entries_written h2
  obtain ⟨texts, ht1, ht2⟩ : ∃ texts : List (List Char), List.Forall₂ (fun m y => toJsonK F m.2 = .ok y) (memberList es) texts ∧
      cs = (((memberList es).map fun m : Key × KPattern => jsonKey F.repr m.1).zip texts).map fun c => (c.1, .str (String.ofList c.2)) := by
    rw [hw]
    revert hm
    generalize memberList es = M
    clear * -
    intro hm
    induction hm with
    | nil => exact ⟨[], .nil, rfl⟩
    | cons h _ ih =>
      obtain ⟨texts, i1, i2⟩ := ih
      obtain ⟨e1, y, hy, e2⟩ := h
      exact ⟨y :: texts, .cons hy i1, by simp [i2, e1, e2]⟩
  have hstr : ∀ v ∈ cs.map (·.2), ∃ s, v = .str s := by
    intro v hv
    rw [ht2, List.map_map, List.mem_map] at hv
    obtain ⟨c, _, rfl⟩ := hv
    exact ⟨_, rfl⟩
  obtain ⟨hpf, hcf⟩ := printable_strs (D := D) (F := F) hstr
  refine ⟨texts, pyDict cs, ht1, ?_, fun s => ?_⟩
  · rw [loads_text hF (printable_keys _ htk (by rw [hkeys]; intro k hk'; obtain ⟨m, hm', rfl⟩ := List.mem_map.mp hk'; exact hk m hm')) hpf, hcf,
      keys_value _ htk, hkeys, List.map_map]
    rfl
  · rw [(updated_pyDict cs).2 s, ht2, ← List.map_reverse]
    generalize (((memberList es).map fun m : Key × KPattern => jsonKey F.repr m.1).zip texts).reverse = L
    induction L with
    | nil => rfl
    | cons c L ih =>
      rw [List.map_cons, List.lookup_cons, List.lookup_cons]
      cases h : s == c.1
      · exact ih
      · rfl

/-! ### Strings -/

mutual
theorem rename_withKeys : ∀ p : Pattern, rename strName (withKeys p) = p
  | .numeric .. => rfl
  | .simplex .. => rfl
  | .psd .. => rfl
  | .array .. => rfl
  | .dict es l fd => by rw [withKeys, rename, renameEs_withKeys es]
theorem renameEs_withKeys : ∀ es : Entries, renameEs strName (withKeysEs es) = es
  | .nil => rfl
  | .cons k p r => by rw [withKeysEs, renameEs, rename_withKeys p, renameEs_withKeys r]; rfl
end

mutual
theorem withKeys_str : ∀ p : Pattern, LeafWF (withKeys p) ∧ KeysIn IsStr (withKeys p)
  | .numeric .. => ⟨rfl, trivial⟩
  | .simplex .. => ⟨rfl, trivial⟩
  | .psd .. => ⟨rfl, trivial⟩
  | .array .. => ⟨rfl, trivial⟩
  | .dict es _ _ => withKeysEs_str es
theorem withKeysEs_str : ∀ es : Entries, LeafWFEs (withKeysEs es) ∧ KeysInEs IsStr (withKeysEs es)
  | .nil => ⟨trivial, trivial⟩
  | .cons k p r => ⟨⟨(withKeys_str p).1, (withKeysEs_str r).1⟩, ⟨k, rfl⟩, (withKeys_str p).2, (withKeysEs_str r).2⟩
end

mutual
theorem val_withKeys {α : Type} : ∀ v : Val α, renameVal strName (valWithKeys v) = v ∧ ValKeysIn IsStr (valWithKeys v)
  | .arr _ => ⟨rfl, trivial⟩
  | .dict vs => by
    have h := vals_withKeys vs
    exact ⟨by rw [valWithKeys, renameVal, h.1], h.2⟩
theorem vals_withKeys {α : Type} : ∀ vs : List (String × Val α), renameVals strName (valsWithKeys vs) = vs ∧ ValsKeysIn IsStr (valsWithKeys vs)
  | [] => ⟨rfl, trivial⟩
  | (k, v) :: vs => by
    have h1 := val_withKeys v
    have h2 := vals_withKeys vs
    exact ⟨by rw [valsWithKeys, renameVals, h1.1, h2.1]; rfl, ⟨k, rfl⟩, h1.2, h2.2⟩
end

mutual
theorem val_back {α : Type} : ∀ {v : KVal α}, ValKeysIn IsStr v → valWithKeys (renameVal strName v) = v
  | .arr _, _ => rfl
  | .dict vs, h => by rw [renameVal, valWithKeys, vals_back (vs := vs) h]
theorem vals_back {α : Type} : ∀ {vs : List (Key × KVal α)}, ValsKeysIn IsStr vs → valsWithKeys (renameVals strName vs) = vs
  | [], _ => rfl
  | (k, v) :: vs, h => by
    obtain ⟨⟨s, rfl⟩, h1, h2⟩ := h
    rw [renameVals, valsWithKeys, val_back h1, vals_back h2]; rfl
end

theorem agree_vals {α : Type} {r : Except Err (KVal α)} {s : Except Err (Val α)} (h : AgreeE True (FRel IsStr strName) r s) :
    r = s.map valWithKeys := by
  cases h with
  | ok h =>
    obtain ⟨rfl, h2⟩ := h
    simp only [Except.map, val_back h2]
  | error _ h => rw [h trivial]; rfl

theorem agree_eq {α : Type} {r s : Except Err α} (h : AgreeE True (fun a b => a = b) r s) : r = s := by
  cases h with
  | ok h => rw [h]
  | error _ h => rw [h trivial]

mutual
theorem str_withKeys (fmt : Flt → String) : ∀ p : Pattern, (withKeys p).str fmt = .ok (p.str fmt)
  | .numeric .. => rfl
  | .simplex .. => rfl
  | .psd .. => rfl
  | .array .. => rfl
  | .dict es l fd => by rw [withKeys, KPattern.str, strEs_withKeys fmt es]; rfl
theorem strEs_withKeys (fmt : Flt → String) : ∀ es : Entries, KPattern.strEs fmt (withKeysEs es) = .ok (strEs fmt es)
  | .nil => rfl
  | .cons k p r => by rw [withKeysEs, KPattern.strEs, str_withKeys fmt p, strEs_withKeys fmt r]; rfl
end

mutual
theorem names_withKeys (free : Option Bool) : ∀ (p : Pattern) (delim : String), (withKeys p).flatNames free delim = p.flatNames free delim
  | .numeric .., _ => rfl
  | .simplex .., _ => rfl
  | .psd .., _ => rfl
  | .array .., _ => rfl
  | .dict es l fd, delim => by
    rw [withKeys, KPattern.flatNames, Pattern.flatNames, namesEs_withKeys free es]
    rcases Pattern.flatNamesEs es free delim with e | _ | ⟨a, parts⟩ <;> rfl
theorem namesEs_withKeys (free : Option Bool) : ∀ (es : Entries) (delim : String),
    KPattern.flatNamesEs (withKeysEs es) free delim = Pattern.flatNamesEs es free delim
  | .nil, _ => rfl
  | .cons k p r, delim => by
    rw [withKeysEs, KPattern.flatNamesEs, Pattern.flatNamesEs, names_withKeys free p, namesEs_withKeys free r]
    cases p.flatNames free "_" with
    | error e => rfl
    | ok names => simp only [bind, Except.bind, prefix_str]
end

/-- **C103, strings.**  With strings as keys nothing is different from the patterns that C01–C102 are about, not even the messages. -/
theorem C103_strings (hshw : ∀ s, shw (.str s) = s) (p : Pattern) :
    (∀ x free vv, (withKeys p).fold fmt shw x free vv = (p.fold x free vv).map valWithKeys) ∧
    (∀ v free vv, (withKeys p).flatten shw (valWithKeys v) free vv = p.flatten v free vv) ∧
    (∀ v b, (withKeys p).flatIndices shw (valWithKeys v) (some b) = p.flatIndices v (some b)) ∧
    (∀ free delim, (withKeys p).flatNames free delim = p.flatNames free delim) ∧
    (withKeys p).str fmt = .ok (p.str fmt) ∧ toJsonK F (withKeys p) = .ok (toJson F p) := by
  obtain ⟨hl, hk⟩ := withKeys_str p
  have hE : True → ∀ k, IsStr k → shw k = strName k := by
    rintro - k ⟨s, rfl⟩
    exact hshw s
  refine ⟨fun x free vv => ?_, fun v free vv => ?_, fun v b => ?_, fun free delim => names_withKeys free p delim, str_withKeys fmt p, ?_⟩
  · have := agree_vals (fold_agree (fmt := fmt) strName_inj hE hl hk x free vv (.inl hk))
    rwa [rename_withKeys] at this
  · have := agree_eq (flatten_agree strName_inj hE hl hk (val_withKeys v).2 free vv)
    rwa [rename_withKeys, (val_withKeys v).1] at this
  · have := agree_eq (indices_agree strName_inj hE hl hk (val_withKeys v).2 (some b) fun _ _ _ _ => ⟨b, rfl⟩)
    rwa [rename_withKeys, (val_withKeys v).1] at this
  · rw [toJson_strings (ν := strName) (fun _ => rfl) hk, rename_withKeys]

/-! ### Examples -/

instance : Encodable Char := Encodable.ofLeftInjection Char.toNat (fun n => some (Char.ofNat n)) fun c => by rw [Char.ofNat_toNat]
instance : Encodable String := Encodable.ofLeftInjection String.toList (fun l => some (String.ofList l)) fun s => by rw [String.ofList_toList]
deriving instance Encodable for AtomValue
deriving instance Encodable for KeyValue

/-- Non-vacuity: keys can be given different names. -/
theorem names_exist : ∃ ν : Key → String, Names ν := by
  refine ⟨fun k => String.ofList (List.replicate (Encodable.encode k.value) 'a'), fun a b => ?_⟩
  rw [equal_iff]
  refine ⟨fun h => ?_, fun h => by simp only [h]⟩
  have := congrArg (fun s => s.toList.length) h
  simpa using this

/-- A dictionary with an integer, `None` and the string `"1"` as keys, built by assignments. -/
noncomputable def exKeys : KPattern :=
  .dict (.cons (.int 1) (.leaf (.numeric .vector [2] (.int 0) (.flt .pinf) true none))
    (.cons .none (.leaf (.simplex 3 [] true none)) (.cons (.str "1") (.dict (.cons (.str "a") (.leaf (.psd 2 (.int 0) true none)) .nil) true none) .nil)))
    false none

theorem exKeys_built : KBuilt exKeys := by
  have h1 : KBuilt (.leaf (.numeric .vector [2] (.int 0) (.flt .pinf) true none)) :=
    .leaf (WF.built _ (by simp [Pattern.WF, PyNum.toFlt, Flt.NotNaN, Flt.lt])) rfl
  have h2 : KBuilt (.leaf (.simplex 3 [] true none)) := .leaf (WF.built _ (by simp [Pattern.WF])) rfl
  have h3 : KBuilt (.leaf (.psd 2 (.int 0) true none)) := .leaf (WF.built _ (by simp [Pattern.WF, PyNum.toFlt, Flt.lt])) rfl
  have h4 := KBuilt.set (KBuilt.dict none) h3 (k := .str "a") rfl
  exact KBuilt.set (KBuilt.set (KBuilt.set (KBuilt.dict none) h1 (k := .int 1) rfl) h2 (k := .none) rfl) h4 (k := .str "1") rfl

/-- `C103_names_empty` is not vacuous: an empty dictionary can be a member. -/
example : KBuilt (.dict (.cons (.int 1) (.dict .nil true none) .nil) false none) ∧
    ¬ NoEmptyDict (.dict (.cons (.int 1) (.dict .nil true none) .nil) false none) :=
  ⟨KBuilt.set (KBuilt.dict none) (KBuilt.dict none) (k := .int 1) rfl, fun h => h.2.1.1 rfl⟩

/-- C103 is not vacuous: the example has keys that are not strings, none of them a tuple, and no empty container. -/
example : KBuilt exKeys ∧ ¬ KeysIn IsStr exKeys ∧ KeysIn (fun k => ¬ IsTuple k) exKeys ∧ NoEmptyDict exKeys ∧ (∀ ν, (rename ν exKeys).NoEmpty) ∧
    (∀ ν, FloatsIn (fun _ => False) (rename ν exKeys)) ∧ ¬ KeysNamed true exKeys ∧ exKeys.flatLength (some true) = .ok 7 := by
  refine ⟨exKeys_built, ?_, ?_, ?_, ?_, ?_, ?_, ?_⟩
  · rintro ⟨⟨s, h⟩, _⟩
    cases h
  · simp [exKeys, KeysIn, KeysInEs, IsTuple]
  · simp [exKeys, NoEmptyDict, NoEmptyDictEs]
  · simp [exKeys, rename, renameEs, NoEmpty, NoEmptyEs]
  · simp [exKeys, rename, renameEs, FloatsIn, FloatsInEs, NumIn]
  · rintro ⟨_, h, _⟩
    obtain ⟨s, h⟩ := h (by simp [KPattern.flatLen, flatLen])
    cases h
  · simp [exKeys, KPattern.flatLength, freeWithDefault, KPattern.flatLen, KPattern.flatLenEs, flatLen, bind, Except.bind, pure, Except.pure]

/-- The text of a dictionary whose only key is the integer 1 can be written; it has `"1"` as a key, but `[1]` as the list of the keys. -/
example : toJsonK F (.dict (.cons (.int 1) (.leaf (.dict .nil true none)) .nil) false none) =
    .ok (dumps F (.dict [("pattern", .str Builtin.dict.typename), ("keys", .list [.num (.int 1)]),
      ("contents", .dict [("1", .str (String.ofList (toJson F (.dict .nil true none))))])])) := by
  rw [toJsonK_dict]
  have h : String.ofList (intText 1) = "1" := rfl
  simp [contentsK, toJsonK, mapE, entryText, keyString, KEntries.keys, keyVal, h, bind, Except.bind, pure, Except.pure]

/-- C103_written: the keys `True`, `"true"` and `None` give a text in which the first member is lost. -/
example (p q r : Pattern) : KeysIn (fun k => ¬ IsTuple k) (.dict (.cons (.bool true) (.leaf p) (.cons (.str "true") (.leaf q) (.cons .none (.leaf r) .nil))) false none) ∧
    memberList (.cons (.bool true) (.leaf p) (.cons (.str "true") (.leaf q) (.cons .none (.leaf r) .nil))) =
      [(.bool true, .leaf p), (.str "true", .leaf q), (.none, .leaf r)] ∧
    ((["true", "true", "null"].zip [toJson F p, toJson F q, toJson F r]).reverse.lookup "true") = some (toJson F q) := by
  refine ⟨by simp [KeysIn, KeysInEs, IsTuple], rfl, rfl⟩

/-- A tuple as a key cannot be written. -/
example : toJsonK F (.dict (.cons (.tuple [.str "a", .int 1]) exKeys .nil) false none) = .error .typeError :=
  (C103_to_json F _).2 fun h => h.1 ⟨_, rfl⟩

end Paragami
