import Verif.Proofs.KeysBuilt
import Verif.Proofs.JsonTextPattern

/-! # JSON texts of dictionaries with any keys -/

namespace Paragami
namespace Keys
open Spec
open Pattern hiding toJson
open JsonText hiding getPatternFromJson fromJson

variable {F : FloatText} {D : ℝ → Prop} {reg : Registry} {user : Nat → List Char → Except Err Pattern} {ν : Key → String}

/-! ### Writing -/

/-- The text for one entry of `contents`. -/
noncomputable def entryText (F : FloatText) (f : Key × PyVal) : Except Err (String × PyVal) := do
  let k ← keyString F f.1
  return (k, f.2)

theorem toJsonK_dict (es : KEntries) (l : Bool) (fd : Option Bool) : toJsonK F (.dict es l fd) = (do
    let contents ← contentsK F es
    let contents ← mapE (entryText F) contents
    return dumps F (.dict [("pattern", .str Builtin.dict.typename), ("keys", .list (es.keys.map keyVal)), ("contents", .dict contents)])) := by
  rw [toJsonK]; rfl

theorem keyString_cases (k : Key) : (¬ IsTuple k ∧ ∃ s, keyString F k = .ok s) ∨ (IsTuple k ∧ keyString F k = .error .typeError) := by
  cases k with
  | tuple l => exact .inr ⟨⟨l, rfl⟩, rfl⟩
  | _ => exact .inl ⟨(fun h => nomatch h), _, rfl⟩

theorem entries_cases : ∀ fs : List (Key × PyVal), ((∀ f ∈ fs, ¬ IsTuple f.1) ∧ ∃ cs, mapE (entryText F) fs = .ok cs) ∨
    ((∃ f ∈ fs, IsTuple f.1) ∧ mapE (entryText F) fs = .error .typeError)
  | [] => .inl ⟨by simp, [], rfl⟩
  | f :: fs => by
    rcases keyString_cases (F := F) f.1 with ⟨h1, s, h2⟩ | ⟨h1, h2⟩
    · have he : entryText F f = .ok (s, f.2) := by rw [entryText, h2]; rfl
      rcases entries_cases fs with ⟨h3, cs, h4⟩ | ⟨⟨g, hg, h3⟩, h4⟩
      · refine .inl ⟨?_, (s, f.2) :: cs, by rw [mapE, he, h4]⟩
        intro g hg
        rcases List.mem_cons.mp hg with rfl | hg
        · exact h1
        · exact h3 g hg
      · exact .inr ⟨⟨g, List.mem_cons_of_mem _ hg, h3⟩, by rw [mapE, he, h4]⟩
    · have he : entryText F f = .error .typeError := by rw [entryText, h2]; rfl
      exact .inr ⟨⟨f, List.mem_cons_self, h1⟩, by rw [mapE, he]⟩

theorem contents_keys : ∀ {es : KEntries} {fs : List (Key × PyVal)}, contentsK F es = .ok fs → fs.map (·.1) = es.keys
  | .nil, fs, h => by rw [contentsK] at h; cases h; rfl
  | .cons k p r, fs, h => by
    rw [contentsK] at h
    obtain ⟨t, _, h⟩ := bind_ok h
    obtain ⟨gs, hg, h⟩ := bind_ok h
    cases h
    rw [List.map_cons, contents_keys hg, KEntries.keys]

mutual
theorem toJson_cases (F : FloatText) : ∀ t : KPattern, (KeysIn (fun k => ¬ IsTuple k) t ∧ ∃ x, toJsonK F t = .ok x) ∨
    (¬ KeysIn (fun k => ¬ IsTuple k) t ∧ toJsonK F t = .error .typeError)
  | .leaf p => .inl ⟨trivial, _, rfl⟩
  | .dict es l fd => by
    rw [toJsonK_dict]
    rcases contents_cases F es with ⟨h1, h2⟩ | ⟨fs, h1, h2⟩
    · exact .inr ⟨h1, by rw [h2]; rfl⟩
    · have hk := contents_keys h1
      rcases entries_cases (F := F) fs with ⟨h3, cs, h4⟩ | ⟨⟨f, hf, h3⟩, h4⟩
      · refine .inl ⟨(h2 ?_), _, by rw [h1]; simp only [bind, Except.bind, h4]; rfl⟩
        intro k hk'
        rw [← hk, List.mem_map] at hk'
        obtain ⟨f, hf, rfl⟩ := hk'
        exact h3 f hf
      · refine .inr ⟨fun h => ?_, by rw [h1]; simp only [bind, Except.bind, h4]⟩
        have := keysInEs_mem (S := fun k => ¬ IsTuple k) h f.1 (by rw [← hk]; exact List.mem_map_of_mem hf)
        exact this h3
theorem contents_cases (F : FloatText) : ∀ es : KEntries, (¬ KeysInEs (fun k => ¬ IsTuple k) es ∧ contentsK F es = .error .typeError) ∨
    ∃ fs, contentsK F es = .ok fs ∧ ((∀ k ∈ es.keys, ¬ IsTuple k) → KeysInEs (fun k => ¬ IsTuple k) es)
  | .nil => .inr ⟨[], rfl, fun _ => trivial⟩
  | .cons k p r => by
    rcases toJson_cases F p with ⟨h1, x, h2⟩ | ⟨h1, h2⟩
    · rcases contents_cases F r with ⟨h3, h4⟩ | ⟨fs, h3, h4⟩
      · exact .inl ⟨fun h => h3 h.2.2, by rw [contentsK, h2, h4]; rfl⟩
      · refine .inr ⟨_, by rw [contentsK, h2, h3]; rfl, fun h => ⟨h k (by simp [KEntries.keys]), h1, h4 fun k' hk' => h k' ?_⟩⟩
        simp [KEntries.keys, hk']
    · exact .inl ⟨fun h => h1 h.2.1, by rw [contentsK, h2]; rfl⟩
end

/-! ### Strings as keys -/

mutual
theorem dumps_chars : ∀ v : PyVal, dumps F (chars F v) = dumps F v
  | .none => rfl
  | .bool _ => rfl
  | .num _ => rfl
  | .str _ => rfl
  | .text j => by simp [chars, dumps, String.toList_ofList]
  | .list l => by simp only [chars, dumps, (dumpsList_chars l).1]
  | .tuple l => by simp only [chars, dumps, (dumpsList_chars l).1]
  | .dict fs => by simp only [chars, dumps, (dumpsFields_chars fs).1]
theorem dumpsList_chars : ∀ l : List PyVal, dumpsItems F (charsList F l) = dumpsItems F l ∧ dumpsItemsTail F (charsList F l) = dumpsItemsTail F l
  | [] => ⟨rfl, rfl⟩
  | v :: l => by
    have h := dumpsList_chars l
    constructor
    · simp only [charsList, dumpsItems, h.2, dumps_chars v]
    · simp only [charsList, dumpsItemsTail, h.2, dumps_chars v]
theorem dumpsFields_chars : ∀ fs : List (String × PyVal), dumpsFields F (charsFields F fs) = dumpsFields F fs ∧
    dumpsFieldsTail F (charsFields F fs) = dumpsFieldsTail F fs
  | [] => ⟨rfl, rfl⟩
  | (k, v) :: fs => by
    have h := dumpsFields_chars fs
    constructor
    · simp only [charsFields, dumpsFields, h.2, dumps_chars v]
    · simp only [charsFields, dumpsFieldsTail, h.2, dumps_chars v]
end

theorem keyVals_strings (hν : ∀ s, ν (.str s) = s) {es : KEntries} (h : KeysInEs IsStr es) : es.keys.map keyVal = (renameEs ν es).keys.map .str := by
  rw [keys_rename, List.map_map]
  refine List.map_congr_left fun k hk => ?_
  obtain ⟨s, rfl⟩ := keysInEs_mem h k hk
  simp [keyVal, hν]

mutual
theorem toJson_strings (hν : ∀ s, ν (.str s) = s) : ∀ {t : KPattern}, KeysIn IsStr t → toJsonK F t = .ok (toJson F (rename ν t))
  | .leaf p, _ => rfl
  | .dict es l fd, h => by
    obtain ⟨fs, h1, h2⟩ := contents_strings hν (es := es) h
    have h1' := h1
    rw [toJsonK_dict, h1]
    simp only [bind, Except.bind, h2, pure, Except.pure, JsonText.toJson, rename, asDict, keyVals_strings hν h]
    have := (dumpsFields_chars (F := F) (contents (renameEs ν es))).1
    simp only [dumps, dumpsFields, dumpsFieldsTail, this]
theorem contents_strings (hν : ∀ s, ν (.str s) = s) : ∀ {es : KEntries}, KeysInEs IsStr es → ∃ fs, contentsK F es = .ok fs ∧
    mapE (entryText F) fs = .ok (charsFields F (contents (renameEs ν es)))
  | .nil, _ => ⟨[], rfl, rfl⟩
  | .cons k p r, h => by
    obtain ⟨⟨s, rfl⟩, h1, h2⟩ := h
    have hp := toJson_strings hν h1
    obtain ⟨fs, h3, h4⟩ := contents_strings hν h2
    refine ⟨(.str s, .str (String.ofList (toJson F (rename ν p)))) :: fs, by rw [contentsK, hp, h3]; rfl, ?_⟩
    have he : entryText F (Key.str s, PyVal.str (String.ofList (toJson F (rename ν p)))) = .ok (s, .str (String.ofList (toJson F (rename ν p)))) := rfl
    rw [mapE, he, h4, renameEs, contents, charsFields, chars, hν, toJson_eq]
end

/-! ### Other keys -/

mutual
theorem floatsIn_rename (ν ν' : Key → String) : ∀ t : KPattern, FloatsIn D (rename ν t) → FloatsIn D (rename ν' t)
  | .leaf _, h => h
  | .dict es _ _, h => floatsInEs_rename ν ν' es h
theorem floatsInEs_rename (ν ν' : Key → String) : ∀ es : KEntries, FloatsInEs D (renameEs ν es) → FloatsInEs D (renameEs ν' es)
  | .nil, _ => trivial
  | .cons _ p r, h => ⟨floatsIn_rename ν ν' p h.1, floatsInEs_rename ν ν' r h.2⟩
end

/-- The name of a string is the string. -/
def strName : Key → String
  | .str s => s
  | _ => ""

theorem strName_inj : InjIn IsStr strName := by
  rintro a b ⟨s, rfl⟩ ⟨t, rfl⟩
  simp [strName, Key.value]

theorem get_strings (hF : Faithful F D) (hr : HasBuiltins reg) {t : KPattern} (hw : KWF t) (hs : KeysIn IsStr t) (hb : FloatsIn D (rename ν t)) :
    ∃ x, toJsonK F t = .ok x ∧ JsonText.getPatternFromJson F reg user x = .ok (forget (rename strName t)) :=
  ⟨_, toJson_strings (fun _ => rfl) hs, get_toJson hF hr (hw.rename strName_inj hs) (floatsIn_rename ν strName t hb)⟩

theorem writes_dict (hF : Faithful F D) {cs : List (String × PyVal)} (h : PrintableFields D cs) :
    Writes F (.dict (pyDict (charsFields F cs))) (dumps F (.dict cs)) := by
  cases cs with
  | nil => exact .emptyDict ws_nil
  | cons f cs =>
    obtain ⟨k, v⟩ := f
    exact .dict (w := []) ws_nil (fields_dumps hF (dumps_writes hF h.1) h.2) (updated_pyDict _)

theorem loads_text (hF : Faithful F D) {ks : List PyVal} {cs : List (String × PyVal)} (h1 : PrintableList D ks) (h2 : PrintableFields D cs) (n : String) :
    loads F (dumps F (.dict [("pattern", .str n), ("keys", .list ks), ("contents", .dict cs)])) =
      .ok (.dict [("pattern", .str n), ("keys", .list (charsList F ks)), ("contents", .dict (pyDict (charsFields F cs)))]) := by
  have hp := dumps_writes hF (D := D) (v := .str n) trivial
  have hk := dumps_writes hF (D := D) (v := .list ks) h1
  have hc := writes_dict hF h2
  have w := Writes.dict (F := F) (w := []) ws_nil (WritesFields.cons (k := "pattern".toList) (writesStr_esc _) ws_nil ws_blank hp ws_nil ws_blank
    (WritesFields.cons (k := "keys".toList) (writesStr_esc _) ws_nil ws_blank hk ws_nil ws_blank
      (WritesFields.last (k := "contents".toList) (writesStr_esc _) ws_nil ws_blank hc ws_nil))) (updated_pyDict _)
  have := loads_writes w ws_nil ws_nil
  rw [pyDict_nodup (by simp)] at this
  simpa only [List.nil_append, List.append_nil, dumps, dumpsFields, dumpsFieldsTail, quote, List.cons_append, List.append_assoc, chars,
    String.ofList_toList] using this

/-- A key that is not a string, or whose pattern cannot be read because of one. -/
def BadKey (C : List (String × Except Err Pattern)) (k : Key) : Prop :=
  ¬ IsStr k ∨ ∃ s m, k = .str s ∧ C.lookup s = some (.error (.keyError m))

theorem fill_bad {C : List (String × Except Err Pattern)} (hC : ∀ s r, C.lookup s = some r → (∃ p, r = .ok p) ∨ ∃ m, r = .error (.keyError m)) :
    ∀ (ks : List Key) (acc : Entries), (∀ k ∈ ks, ¬ IsTuple k) → (∃ k ∈ ks, BadKey C k) →
    ∃ m, Json.fillDict C (.dict acc false none) (charsList F (ks.map keyVal)) = .error (.keyError m)
  | [], _, _, h => by obtain ⟨k, hk, _⟩ := h; simp at hk
  | k :: ks, acc, ht, h => by
    cases k with
    | tuple l => exact absurd ⟨l, rfl⟩ (ht _ List.mem_cons_self)
    | bool b => exact ⟨_, rfl⟩
    | int i => exact ⟨_, rfl⟩
    | float q => exact ⟨_, rfl⟩
    | none => exact ⟨_, rfl⟩
    | str s =>
      simp only [List.map_cons, keyVal, charsList, chars, Json.fillDict]
      cases hl : C.lookup s with
      | none => exact ⟨_, rfl⟩
      | some r =>
        rcases hC s r hl with ⟨p, rfl⟩ | ⟨m, rfl⟩
        · simp only [bind, Except.bind, Pattern.setItem, Bool.false_eq_true, if_false]
          refine fill_bad hC ks _ (fun k hk => ht k (List.mem_cons_of_mem _ hk)) ?_
          obtain ⟨k, hk, hb⟩ := h
          rcases List.mem_cons.mp hk with rfl | hk
          · rcases hb with hb | ⟨s', m, hs', hb⟩
            · exact absurd ⟨s, rfl⟩ hb
            · cases hs'
              rw [hl] at hb; cases hb
          · exact ⟨k, hk, hb⟩
        · exact ⟨m, rfl⟩

/-- What reading an entry gives. -/
def EntryOk (F : FloatText) (reg : Registry) (user : Nat → List Char → Except Err Pattern) (v : PyVal) (bad : Prop) : Prop :=
  ∃ x, v = .str (String.ofList x) ∧ ((¬ bad ∧ ∃ p, JsonText.getPatternFromJson F reg user x = .ok p) ∨
    (bad ∧ ∃ m, JsonText.getPatternFromJson F reg user x = .error (.keyError m)))

theorem ofField_entry {v : PyVal} {bad : Prop} (h : EntryOk F reg user v bad) :
    (¬ bad ∧ ∃ p, ofField F reg user v = .ok p) ∨ (bad ∧ ∃ m, ofField F reg user v = .error (.keyError m)) := by
  obtain ⟨x, rfl, h⟩ := h
  simpa only [ofField, String.toList_ofList] using h

theorem mapE_entries : ∀ {fs : List (Key × PyVal)} {cs : List (String × PyVal)}, mapE (entryText F) fs = .ok cs →
    cs.map (·.2) = fs.map (·.2) ∧ ∀ s v, (Key.str s, v) ∈ fs → (s, v) ∈ cs
  | [], cs, h => by cases h; exact ⟨rfl, by simp⟩
  | f :: fs, cs, h => by
    rw [mapE] at h
    cases he : entryText F f with
    | error e => rw [he] at h; cases h
    | ok g =>
      rw [he] at h
      cases hm : mapE (entryText F) fs with
      | error e => rw [hm] at h; cases h
      | ok cs' =>
        rw [hm] at h
        cases h
        obtain ⟨h1, h2⟩ := mapE_entries hm
        rw [entryText] at he
        obtain ⟨k, hk, he⟩ := bind_ok he
        cases he
        refine ⟨by simp [h1], fun s v hs => ?_⟩
        rcases List.mem_cons.mp hs with rfl | hs
        · simp only [keyString, Except.ok.injEq] at hk
          subst hk
          exact List.mem_cons_self
        · exact List.mem_cons_of_mem _ (h2 s v hs)

theorem mapE_strings : ∀ {fs : List (Key × PyVal)} {cs : List (String × PyVal)}, mapE (entryText F) fs = .ok cs → (∀ f ∈ fs, IsStr f.1) →
    cs.map (fun f => Key.str f.1) = fs.map (·.1)
  | [], cs, h, _ => by cases h; rfl
  | f :: fs, cs, h, hs => by
    rw [mapE] at h
    cases he : entryText F f with
    | error e => rw [he] at h; cases h
    | ok g =>
      rw [he] at h
      cases hm : mapE (entryText F) fs with
      | error e => rw [hm] at h; cases h
      | ok cs' =>
        rw [hm] at h
        cases h
        obtain ⟨s, hk⟩ := hs f List.mem_cons_self
        rw [List.map_cons, List.map_cons, mapE_strings hm fun f hf => hs f (List.mem_cons_of_mem _ hf), hk]
        rw [entryText, hk] at he
        cases he
        rfl

theorem lookup_of_mem {β : Type} : ∀ {l : List (String × β)} {k : String} {v : β}, (l.map (·.1)).Nodup → (k, v) ∈ l → l.lookup k = some v
  | [], _, _, _, h => by simp at h
  | (k', w) :: l, k, v, hn, h => by
    rw [List.map_cons, List.nodup_cons] at hn
    rw [List.lookup_cons]
    rcases List.mem_cons.mp h with h | h
    · cases h; simp
    · have : k ≠ k' := fun e => hn.1 (e ▸ List.mem_map.mpr ⟨_, h, rfl⟩)
      rw [beq_false_of_ne this]
      exact lookup_of_mem hn.2 h

theorem printable_strs : ∀ {cs : List (String × PyVal)}, (∀ v ∈ cs.map (·.2), ∃ s, v = .str s) → PrintableFields D cs ∧ charsFields F cs = cs
  | [], _ => ⟨trivial, rfl⟩
  | (k, v) :: cs, h => by
    obtain ⟨s, hs⟩ := h v (by simp)
    subst hs
    obtain ⟨h1, h2⟩ := printable_strs (cs := cs) fun v hv => h v (by simp only [List.map_cons, List.mem_cons]; exact .inr hv)
    exact ⟨⟨trivial, h1⟩, by rw [charsFields, h2]; rfl⟩

theorem printable_keys : ∀ ks : List Key, (∀ k ∈ ks, ¬ IsTuple k) → (∀ k ∈ ks, FloatKeyIn D k) → PrintableList D (ks.map keyVal)
  | [], _, _ => trivial
  | k :: ks, h, hd => by
    refine ⟨?_, printable_keys ks (fun k hk => h k (List.mem_cons_of_mem _ hk)) fun k hk => hd k (List.mem_cons_of_mem _ hk)⟩
    cases k with
    | tuple l => exact absurd ⟨l, rfl⟩ (h _ List.mem_cons_self)
    | float q => exact hd _ List.mem_cons_self q rfl
    | _ => trivial

mutual
theorem read_back (hF : Faithful F D) (hr : HasBuiltins reg) (user : Nat → List Char → Except Err Pattern) : ∀ {t : KPattern}, KWF t →
    FloatsIn D (rename ν t) → KeysIn (FloatKeyIn D) t → ∀ {x : List Char}, toJsonK F t = .ok x → ¬ KeysIn IsStr t →
    ∃ m, JsonText.getPatternFromJson F reg user x = .error (.keyError m)
  | .leaf p, _, _, _, x, _, hs => absurd trivial hs
  | .dict es l fd, hw, hb, hq, x, hx, hs => by
    have htup : KeysIn (fun k => ¬ IsTuple k) (.dict es l fd) := by
      rcases toJson_cases F (.dict es l fd) with ⟨h, _⟩ | ⟨_, h⟩
      · exact h
      · rw [h] at hx; cases hx
    have htk := keysInEs_mem (S := fun k => ¬ IsTuple k) htup
    rw [toJsonK_dict] at hx
    obtain ⟨fs, h1, hx⟩ := bind_ok hx
    obtain ⟨cs, h2, hx⟩ := bind_ok hx
    obtain ⟨h3, h4⟩ := entries_read hF hr user hw.2 hb hq h1
    obtain ⟨h5, h6⟩ := mapE_entries h2
    have hkeys := contents_keys h1
    have hstr : ∀ v ∈ cs.map (·.2), ∃ bad, EntryOk F reg user v bad := by
      intro v hv
      rw [h5, List.mem_map] at hv
      obtain ⟨f, hf, rfl⟩ := hv
      exact h3 f hf
    obtain ⟨hpf, hcf⟩ := printable_strs (D := D) (F := F) (cs := cs) fun v hv => by
      obtain ⟨_, y, hy, _⟩ := hstr v hv
      exact ⟨_, hy⟩
    simp only [pure, Except.pure, Except.ok.injEq] at hx
    subst hx
    rw [get_unfold, loads_text hF (printable_keys _ htk (keysInEs_mem (S := FloatKeyIn D) hq)) hpf, hcf]
    simp only [bind, Except.bind]
    rw [dispatch_builtin hr (b := .dict) (by simp)]
    simp only [Json.builtinFromJson, Json.checkType, Json.field, List.lookup, bind, Except.bind, if_true, beq_self_eq_true]
    have e1 : ("keys" == "pattern") = false := by decide
    have e2 : ("contents" == "pattern") = false := by decide
    have e3 : ("contents" == "keys") = false := by decide
    simp only [e1, innerWith, List.filterMap_cons, List.filterMap_nil, List.lookup_cons, beq_self_eq_true]
    have hlk : ∀ s, (eachWith (JsonText.getPatternFromJson F reg user) (pyDict cs)).lookup s = (cs.reverse.lookup s).map (ofField F reg user) := by
      intro s
      rw [eachWith_lookup, (updated_pyDict cs).2 s]
    refine fill_bad ?_ es.keys .nil htk ?_
    · intro s r hl
      rw [hlk] at hl
      cases hv : cs.reverse.lookup s with
      | none => rw [hv] at hl; cases hl
      | some v =>
        rw [hv] at hl
        cases hl
        have hm := JsonText.mem_of_lookup hv
        rw [List.mem_reverse] at hm
        obtain ⟨bad, hb⟩ := hstr v (List.mem_map.mpr ⟨_, hm, rfl⟩)
        rcases ofField_entry hb with ⟨_, h⟩ | ⟨_, h⟩
        · exact .inl h
        · exact .inr h
    · by_cases hall : ∀ k ∈ es.keys, IsStr k
      · obtain ⟨f, hf, hbad⟩ := h4 hall hs
        obtain ⟨s, hks⟩ := hall f.1 (by rw [← hkeys]; exact List.mem_map_of_mem hf)
        have hm := h6 s f.2 (by rw [← hks]; exact hf)
        refine ⟨f.1, by rw [← hkeys]; exact List.mem_map_of_mem hf, .inr ?_⟩
        have hnd : (cs.reverse.map (·.1)).Nodup := by
          rw [List.map_reverse, List.nodup_reverse]
          have := mapE_strings h2 fun f hf => hall f.1 (by rw [← hkeys]; exact List.mem_map_of_mem hf)
          rw [hkeys] at this
          have hn := hw.1.of_map
          rw [← this] at hn
          have e : (fun f : String × PyVal => Key.str f.1) = Key.str ∘ (·.1) := rfl
          rw [e, ← List.map_map] at hn
          exact List.Nodup.of_map _ hn
        rcases ofField_entry hbad with ⟨h, _⟩ | ⟨_, m, h⟩
        · exact absurd trivial h
        · exact ⟨s, m, hks, by rw [hlk, lookup_of_mem hnd (List.mem_reverse.mpr hm), Option.map_some, h]⟩
      · push Not at hall
        obtain ⟨k, hk, hks⟩ := hall
        exact ⟨k, hk, .inl hks⟩
theorem entries_read (hF : Faithful F D) (hr : HasBuiltins reg) (user : Nat → List Char → Except Err Pattern) : ∀ {es : KEntries}, KWFEs es →
    FloatsInEs D (renameEs ν es) → KeysInEs (FloatKeyIn D) es → ∀ {fs : List (Key × PyVal)}, contentsK F es = .ok fs →
    (∀ f ∈ fs, ∃ bad, EntryOk F reg user f.2 bad) ∧
    ((∀ k ∈ es.keys, IsStr k) → ¬ KeysInEs IsStr es → ∃ f ∈ fs, EntryOk F reg user f.2 True)
  | .nil, _, _, _, fs, h => by
    rw [contentsK] at h
    cases h
    exact ⟨by simp, fun _ h => absurd trivial h⟩
  | .cons k p r, hw, hb, hq, fs, h => by
    rw [contentsK] at h
    obtain ⟨x, hx, h⟩ := bind_ok h
    obtain ⟨gs, hg, h⟩ := bind_ok h
    cases h
    obtain ⟨h1, h2⟩ := entries_read hF hr user hw.2.2 hb.2 hq.2.2 hg
    by_cases hp : KeysIn IsStr p
    · obtain ⟨x', hx', hget⟩ := get_strings (user := user) hF hr hw.1 hp hb.1
      rw [hx] at hx'
      cases hx'
      refine ⟨?_, fun hk hs => ?_⟩
      · intro f hf
        rcases List.mem_cons.mp hf with rfl | hf
        · exact ⟨False, x, rfl, .inl ⟨id, _, hget⟩⟩
        · exact h1 f hf
      · obtain ⟨f, hf, hfb⟩ := h2 (fun k hk' => hk k (by simp [KEntries.keys, hk']))
          (fun h => hs ⟨hk k (by simp [KEntries.keys]), hp, h⟩)
        exact ⟨f, List.mem_cons_of_mem _ hf, hfb⟩
    · have hbad := read_back hF hr user hw.1 hb.1 hq.2.1 hx hp
      refine ⟨?_, fun _ _ => ⟨_, List.mem_cons_self, x, rfl, .inr ⟨trivial, hbad⟩⟩⟩
      intro f hf
      rcases List.mem_cons.mp hf with rfl | hf
      · exact ⟨True, x, rfl, .inr ⟨trivial, hbad⟩⟩
      · exact h1 f hf
end

end Keys
end Paragami
