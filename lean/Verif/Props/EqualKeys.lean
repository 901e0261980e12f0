import Verif.Props.Keys
import Verif.Props.Json

/-! # C123: `True`, `1` and `1.0` as keys -/

namespace Paragami
open Spec Keys
open Pattern hiding toJson
open JsonText hiding getPatternFromJson fromJson

variable {fmt : Flt → String} {shw : Key → String} {t : KPattern} {α : Type} [Elem α]

/-! ### Which key is kept -/

mutual
theorem spelled_foldNF : ∀ (t : KPattern) (x : NDArray α) (vv : Option Bool) {v : KVal α}, t.foldNF fmt shw x vv = .ok v → Spelled t v
  | .leaf p, x, vv, v, h => by
    rw [KPattern.foldNF] at h
    obtain ⟨_, _, h⟩ := bind_ok h
    obtain ⟨a, _, h⟩ := bind_ok h
    cases h
    exact ⟨a, rfl⟩
  | .dict es l fd, x, vv, v, h => by
    rw [KPattern.foldNF] at h
    obtain ⟨_, _, h⟩ := bind_ok h
    obtain ⟨vs, h1, h⟩ := bind_ok h
    obtain ⟨_, _, h⟩ := bind_ok h
    cases h
    exact spelledEs_foldNF es _ vv 0 h1
theorem spelledEs_foldNF : ∀ (es : KEntries) (x : NDArray α) (vv : Option Bool) (o : Nat) {vs : List (Key × KVal α)},
    KPattern.foldNFEs fmt shw es x vv o = .ok vs → SpelledEs es vs
  | .nil, x, vv, o, vs, h => by
    rw [KPattern.foldNFEs] at h
    cases h
    exact trivial
  | .cons k p r, x, vv, o, vs, h => by
    rw [KPattern.foldNFEs] at h
    obtain ⟨v, h1, h⟩ := bind_ok h
    obtain ⟨ws, h2, h⟩ := bind_ok h
    cases h
    exact ⟨rfl, spelled_foldNF p _ vv h1, spelledEs_foldNF r _ vv _ h2⟩
end

mutual
theorem spelled_foldFree : ∀ (t : KPattern) (x : NDArray Flt) {v : KVal Flt}, t.foldFree fmt x = .ok v → Spelled t v
  | .leaf p, x, v, h => by
    rw [KPattern.foldFree] at h
    obtain ⟨_, _, h⟩ := bind_ok h
    obtain ⟨a, _, h⟩ := bind_ok h
    cases h
    exact ⟨a, rfl⟩
  | .dict es l fd, x, v, h => by
    rw [KPattern.foldFree] at h
    obtain ⟨_, _, h⟩ := bind_ok h
    obtain ⟨vs, h1, h⟩ := bind_ok h
    cases h
    exact spelledEs_foldFree es _ 0 h1
theorem spelledEs_foldFree : ∀ (es : KEntries) (x : NDArray Flt) (o : Nat) {vs : List (Key × KVal Flt)},
    KPattern.foldFreeEs fmt es x o = .ok vs → SpelledEs es vs
  | .nil, x, o, vs, h => by
    rw [KPattern.foldFreeEs] at h
    cases h
    exact trivial
  | .cons k p r, x, o, vs, h => by
    rw [KPattern.foldFreeEs] at h
    obtain ⟨v, h1, h⟩ := bind_ok h
    obtain ⟨ws, h2, h⟩ := bind_ok h
    cases h
    exact ⟨rfl, spelled_foldFree p _ h1, spelledEs_foldFree r _ _ h2⟩
end

mutual
theorem spelled_empty : ∀ (t : KPattern) {v : KVal Flt}, t.empty = .ok v → Spelled t v
  | .leaf p, v, h => by
    rw [KPattern.empty] at h
    obtain ⟨_, _, h⟩ := bind_ok h
    obtain ⟨a, _, h⟩ := bind_ok h
    cases h
    exact ⟨a, rfl⟩
  | .dict es l fd, v, h => by
    rw [KPattern.empty] at h
    obtain ⟨vs, h1, h⟩ := bind_ok h
    cases h
    exact spelledEs_empty es h1
theorem spelledEs_empty : ∀ (es : KEntries) {vs : List (Key × KVal Flt)}, KPattern.emptyEs es = .ok vs → SpelledEs es vs
  | .nil, vs, h => by
    rw [KPattern.emptyEs] at h
    cases h
    exact trivial
  | .cons k p r, vs, h => by
    rw [KPattern.emptyEs] at h
    obtain ⟨v, h1, h⟩ := bind_ok h
    obtain ⟨ws, h2, h⟩ := bind_ok h
    cases h
    exact ⟨rfl, spelled_empty p h1, spelledEs_empty r h2⟩
end

/-- **C123, folded values.**  What `fold`, `empty`, `empty_bool` and `random` return has the keys of the pattern, of the same types. -/
theorem C123_spelling :
    (∀ x free vv v, t.fold fmt shw x free vv = .ok v → Spelled t v) ∧ (∀ v, t.empty = .ok v → Spelled t v) ∧
    (∀ b v, t.emptyBool fmt shw b = .ok v → Spelled t v) ∧ ∀ draw v, t.random fmt draw = .ok v → Spelled t v := by
  refine ⟨fun x free vv v h => ?_, fun v h => spelled_empty t h, fun b v h => spelled_foldNF t _ _ h, fun draw v h => spelled_foldFree t _ h⟩
  rw [KPattern.fold] at h
  obtain ⟨b, _, h⟩ := bind_ok h
  cases b with
  | true => exact spelled_foldFree t _ h
  | false => exact spelled_foldNF t _ _ h

open Classical in
/-- **C123, assigning and deleting.**  Assigning under a key equal to an old one leaves all keys as they are, also the type of the old key; otherwise
the new key comes last.  Deleting removes the one key that is equal to the given one, and raises `KeyError` if there is none. -/
theorem C123_update {es : KEntries} {fd : Option Bool} (ht : KBuilt (.dict es false fd)) (k : Key) :
    (∀ p, ∃ es', (KPattern.dict es false fd).setItem k p = .ok (.dict es' false fd) ∧
      ((∃ k' ∈ es.keys, Equal k' k) → es'.keys = es.keys) ∧ ((¬ ∃ k' ∈ es.keys, Equal k' k) → es'.keys = es.keys ++ [k])) ∧
    ((∃ k' ∈ es.keys, Equal k' k) → ∃ es', (KPattern.dict es false fd).delItem shw k = .ok (.dict es' false fd) ∧
      es'.keys = es.keys.filter (fun k' => decide (¬ Equal k' k)) ∧ es'.keys.length + 1 = es.keys.length) ∧
    ((¬ ∃ k' ∈ es.keys, Equal k' k) → (KPattern.dict es false fd).delItem shw k = .error (.keyError (shw k))) := by
  have hn := (KBuilt.kwf ht).1
  have hget : ∀ {es : KEntries}, es.get? k = none ↔ ¬ ∃ k' ∈ es.keys, Equal k' k := by
    intro es
    induction es using KEntries.rec (motive_1 := fun _ => True) with
    | nil => simp [KEntries.get?, KEntries.keys]
    | cons k0 p0 r _ ih =>
      rw [KEntries.get?, KEntries.keys]
      by_cases hk : k0.value = k.value
      · simp only [hk, if_true, reduceCtorEq, false_iff, not_not]
        exact ⟨k0, List.mem_cons_self, equal_iff.mpr hk⟩
      · simp [hk, ih, equal_iff]
    | _ => trivial
  have hex : (∃ k' ∈ es.keys, k'.value = k.value) ↔ ∃ k' ∈ es.keys, Equal k' k := by simp only [equal_iff]
  refine ⟨fun p => ⟨es.set k p.lock, rfl, fun h => ?_, fun h => ?_⟩, fun h => ?_, fun h => ?_⟩
  · rw [keys_set, if_pos (hex.mpr h)]
  · rw [keys_set, if_neg fun h' => h (hex.mp h')]
  · cases hg : es.get? k with
    | none => exact absurd h (hget.mp hg)
    | some q =>
      refine ⟨es.erase k, by simp [KPattern.delItem, hg], ?_, ?_⟩
      · rw [keys_erase hn]
        refine List.filter_congr fun k' _ => ?_
        simp only [ne_eq, equal_iff]
      · clear hget hex hn ht h
        induction es using KEntries.rec (motive_1 := fun _ => True) with
        | nil => simp [KEntries.get?] at hg
        | cons k0 p0 r _ ih =>
          rw [KEntries.get?] at hg
          rw [KEntries.erase]
          split
          · simp [KEntries.keys]
          · rename_i hk
            rw [if_neg hk] at hg
            have := ih hg
            simp only [KEntries.keys, List.length_cons]
            omega
        | _ => trivial
  · simp [KPattern.delItem, hget.mpr h]

/-! ### `==` -/

variable {F : FloatText} {D : ℝ → Prop} {ν : Key → String}

theorem quote_inj {s s' r r' : List Char} (h : quote s ++ r = quote s' ++ r') : s = s' ∧ r = r' := by
  simp only [quote, List.cons_append, List.append_assoc, List.nil_append, List.cons.injEq, true_and] at h
  have h1 := scan_str (r := r) (writesStr_esc s)
  rw [h, scan_str (writesStr_esc s')] at h1
  simp only [Except.ok.injEq, Prod.mk.injEq] at h1
  exact ⟨h1.1.symm, h1.2.symm⟩

theorem tail_inj : ∀ {cs cs' : List (String × PyVal)} {r r' : List Char}, (∀ v ∈ cs.map (·.2), ∃ s, v = .str s) →
    (∀ v ∈ cs'.map (·.2), ∃ s, v = .str s) → dumpsFieldsTail F cs ++ '}' :: r = dumpsFieldsTail F cs' ++ '}' :: r' → cs = cs'
  | [], [], _, _, _, _, _ => rfl
  | [], (k, v) :: cs', _, _, _, _, h => by simp [dumpsFieldsTail] at h
  | (k, v) :: cs, [], _, _, _, _, h => by simp [dumpsFieldsTail] at h
  | (k, v) :: cs, (k', v') :: cs', r, r', h1, h2, h => by
    obtain ⟨s, rfl⟩ := h1 v (by simp)
    obtain ⟨s', rfl⟩ := h2 v' (by simp)
    simp only [dumpsFieldsTail, dumps, List.cons_append, List.append_assoc, List.cons.injEq, true_and] at h
    obtain ⟨e1, h⟩ := quote_inj h
    simp only [List.cons.injEq, true_and] at h
    obtain ⟨e2, h⟩ := quote_inj h
    have e3 := tail_inj (fun v hv => h1 v (List.mem_cons_of_mem _ hv)) (fun v hv => h2 v (List.mem_cons_of_mem _ hv)) h
    rw [e3, String.toList_injective e1, String.toList_injective e2]

theorem fields_inj {cs cs' : List (String × PyVal)} {r r' : List Char} (h1 : ∀ v ∈ cs.map (·.2), ∃ s, v = .str s)
    (h2 : ∀ v ∈ cs'.map (·.2), ∃ s, v = .str s) (h : dumpsFields F cs ++ '}' :: r = dumpsFields F cs' ++ '}' :: r') : cs = cs' := by
  rcases cs with _ | ⟨⟨k, v⟩, cs⟩ <;> rcases cs' with _ | ⟨⟨k', v'⟩, cs'⟩
  · rfl
  · simp [dumpsFields, quote] at h
  · simp [dumpsFields, quote] at h
  · refine tail_inj (F := F) (r := r) (r' := r') h1 h2 ?_
    simp only [dumpsFields, List.append_assoc, List.cons_append] at h
    simp only [dumpsFieldsTail, List.append_assoc, List.cons_append, h]

theorem keyVals_inj : ∀ {ks ks' : List Key}, (∀ k ∈ ks, ¬ IsTuple k) → (∀ k ∈ ks', ¬ IsTuple k) →
    charsList F (ks.map keyVal) = charsList F (ks'.map keyVal) → ks = ks'
  | [], [], _, _, _ => rfl
  | [], _ :: _, _, _, h => by simp [charsList] at h
  | _ :: _, [], _, _, h => by simp [charsList] at h
  | k :: ks, k' :: ks', h1, h2, h => by
    simp only [List.map_cons, charsList, List.cons.injEq] at h
    have e := keyVals_inj (fun k hk => h1 k (List.mem_cons_of_mem _ hk)) (fun k hk => h2 k (List.mem_cons_of_mem _ hk)) h.2
    have a := h1 k List.mem_cons_self
    have b := h2 k' List.mem_cons_self
    have h := h.1
    rw [e]
    cases k <;> cases k' <;> simp_all [keyVal, chars, IsTuple]

theorem contents_str : ∀ {es : KEntries} {fs : List (Key × PyVal)}, contentsK F es = .ok fs → ∀ v ∈ fs.map (·.2), ∃ s, v = .str s
  | .nil, fs, h => by
    rw [contentsK] at h
    cases h
    simp
  | .cons k p r, fs, h => by
    rw [contentsK] at h
    obtain ⟨x, _, h⟩ := bind_ok h
    obtain ⟨gs, hg, h⟩ := bind_ok h
    cases h
    intro v hv
    rcases List.mem_cons.mp hv with rfl | hv
    · exact ⟨_, rfl⟩
    · exact contents_str hg v hv

theorem text_not_tuple {x : List Char} (h : toJsonK F t = .ok x) : KeysIn (fun k => ¬ IsTuple k) t := by
  rcases toJson_cases F t with ⟨h', _⟩ | ⟨_, h'⟩
  · exact h'
  · rw [h'] at h; cases h

theorem leaf_ne_dict (hF : Faithful F D) {p : Pattern} {u : KPattern} (hp : p.WF) (hd : p.isDict = false) (hb : FloatsIn D p) {es : KEntries}
    {l : Bool} {fd : Option Bool} (hu : u = .dict es l fd) (hw : KWF u) (hbu : FloatsIn D (rename ν u)) (hq : KeysIn (FloatKeyIn D) u)
    {x : List Char} (h : toJsonK F u = .ok x) : toJson F p ≠ x := by
  intro e
  have h1 := get_toJson (user := fun _ _ => .error .typeError) hF initial_builtins hp hb
  rw [e] at h1
  by_cases hs : KeysIn IsStr u
  · obtain ⟨y, h2, h3⟩ := get_strings (user := fun _ _ => .error .typeError) hF initial_builtins hw hs hbu
    rw [h] at h2
    cases h2
    rw [h1] at h3
    subst hu
    have h4 := congrArg Pattern.cls (Except.ok.inj h3)
    rw [cls_forget, cls_forget] at h4
    cases p with
    | numeric c => cases c <;> simp [rename, cls] at h4
    | dict => simp [isDict] at hd
    | _ => simp [rename, cls] at h4
  · obtain ⟨m, h2⟩ := read_back hF initial_builtins (fun _ _ => .error .typeError) hw hbu hq h hs
    rw [h1] at h2
    cases h2

mutual
theorem text_alike (hF : Faithful F D) : ∀ {t u : KPattern} {x : List Char}, KWF t → KWF u → FloatsIn D (rename ν t) → FloatsIn D (rename ν u) →
    KeysIn (FloatKeyIn D) t → KeysIn (FloatKeyIn D) u → toJsonK F t = .ok x → toJsonK F u = .ok x → SameText t u
  | .leaf p, .leaf q, x, hp, hq, bp, bq, _, _, h, h' => by
    rw [toJsonK] at h h'
    cases h
    have h1 := get_toJson (user := fun _ _ => .error .typeError) hF initial_builtins hp.1 bp
    rw [← Except.ok.inj h', get_toJson (user := fun _ _ => .error .typeError) hF initial_builtins hq.1 bq] at h1
    exact (Except.ok.inj h1).symm
  | .leaf p, .dict es l fd, x, hp, hq, bp, bq, _, kq, h, h' => by
    rw [toJsonK] at h
    exact absurd (Except.ok.inj h) (leaf_ne_dict hF hp.1 hp.2 bp rfl hq bq kq h')
  | .dict es l fd, .leaf q, x, hp, hq, bp, bq, kp, _, h, h' => by
    rw [toJsonK] at h'
    exact absurd (Except.ok.inj h') (leaf_ne_dict hF hq.1 hq.2 bq rfl hp bp kp h)
  | .dict es l fd, .dict es' l' fd', x, hp, hq, bp, bq, kp, kq, h, h' => by
    have t1 := keysInEs_mem (S := fun k => ¬ IsTuple k) (text_not_tuple h)
    have t2 := keysInEs_mem (S := fun k => ¬ IsTuple k) (text_not_tuple h')
    rw [toJsonK_dict] at h h'
    obtain ⟨fs, h1, h⟩ := bind_ok h
    obtain ⟨cs, h2, h⟩ := bind_ok h
    obtain ⟨fs', h1', h'⟩ := bind_ok h'
    obtain ⟨cs', h2', h'⟩ := bind_ok h'
    have hc := (mapE_entries h2).1
    have hc' := (mapE_entries h2').1
    have s1 : ∀ v ∈ cs.map (·.2), ∃ s, v = .str s := by rw [hc]; exact contents_str h1
    have s2 : ∀ v ∈ cs'.map (·.2), ∃ s, v = .str s := by rw [hc']; exact contents_str h1'
    simp only [pure, Except.pure, Except.ok.injEq] at h h'
    have e := h.trans h'.symm
    have ek : es.keys = es'.keys := by
      have l1 := loads_text hF (printable_keys _ t1 (keysInEs_mem (S := FloatKeyIn D) kp)) (printable_strs (D := D) (F := F) s1).1
        Builtin.dict.typename
      have l2 := loads_text hF (printable_keys _ t2 (keysInEs_mem (S := FloatKeyIn D) kq)) (printable_strs (D := D) (F := F) s2).1
        Builtin.dict.typename
      rw [e, l2] at l1
      simp only [Except.ok.injEq, PyVal.dict.injEq, List.cons.injEq, Prod.mk.injEq, PyVal.list.injEq, true_and] at l1
      exact (keyVals_inj t2 t1 l1.1).symm
    have ev : cs = cs' := by
      rw [ek] at e
      simp only [dumps, dumpsFields, dumpsFieldsTail, List.append_assoc, List.cons_append, List.append_cancel_left_eq, List.cons.injEq, true_and,
        List.nil_append] at e
      exact fields_inj s1 s2 e
    exact contents_alike hF hp.2 hq.2 bp bq kp kq ek h1 h1' (by rw [← hc, ← hc', ev])
theorem contents_alike (hF : Faithful F D) : ∀ {es es' : KEntries} {fs fs' : List (Key × PyVal)}, KWFEs es → KWFEs es' →
    FloatsInEs D (renameEs ν es) → FloatsInEs D (renameEs ν es') → KeysInEs (FloatKeyIn D) es → KeysInEs (FloatKeyIn D) es' → es.keys = es'.keys →
    contentsK F es = .ok fs → contentsK F es' = .ok fs' → fs.map (·.2) = fs'.map (·.2) → SameTextEs es es'
  | .nil, .nil, _, _, _, _, _, _, _, _, _, _, _, _ => trivial
  | .nil, .cons .., _, _, _, _, _, _, _, _, h, _, _, _ => by simp [KEntries.keys] at h
  | .cons .., .nil, _, _, _, _, _, _, _, _, h, _, _, _ => by simp [KEntries.keys] at h
  | .cons k p r, .cons k' p' r', fs, fs', hp, hq, bp, bq, kp, kq, hk, h, h', he => by
    rw [contentsK] at h h'
    obtain ⟨x, h1, h⟩ := bind_ok h
    obtain ⟨gs, h2, h⟩ := bind_ok h
    obtain ⟨x', h1', h'⟩ := bind_ok h'
    obtain ⟨gs', h2', h'⟩ := bind_ok h'
    cases h
    cases h'
    simp only [KEntries.keys, List.cons.injEq] at hk
    simp only [List.map_cons, List.cons.injEq, PyVal.str.injEq] at he
    obtain rfl : x = x' := by simpa using congrArg String.toList he.1
    exact ⟨hk.1, text_alike hF hp.1 hq.1 bp.1 bq.1 kp.2.1 kq.2.1 h1 h1', contents_alike hF hp.2.2 hq.2.2 bp.2 bq.2 kp.2.2 kq.2.2 hk.2 h2 h2' he.2⟩
end

mutual
theorem alike_text : ∀ {t u : KPattern}, SameText t u → toJsonK F t = toJsonK F u
  | .leaf p, .leaf q, h => by
    simp only [SameText] at h
    simp only [toJsonK, JsonText.toJson]
    rw [← asDict_forget p, h, asDict_forget]
  | .dict es l fd, .dict es' l' fd', h => by
    obtain ⟨h1, h2⟩ := alike_contents (es := es) (es' := es') h
    simp only [toJsonK, h1, h2]
  | .leaf _, .dict .., h => h.elim
  | .dict .., .leaf _, h => h.elim
theorem alike_contents : ∀ {es es' : KEntries}, SameTextEs es es' → contentsK F es = contentsK F es' ∧ es.keys = es'.keys
  | .nil, .nil, _ => ⟨rfl, rfl⟩
  | .cons k p r, .cons k' p' r', h => by
    obtain ⟨rfl, h1, h2⟩ := h
    obtain ⟨h3, h4⟩ := alike_contents h2
    exact ⟨by rw [contentsK, contentsK, alike_text h1, h3], by simp only [KEntries.keys, h4]⟩
  | .nil, .cons .., h => h.elim
  | .cons .., .nil, h => h.elim
end

theorem members_cases (F : FloatText) : ∀ es : KEntries, (MembersIn (fun k => ¬ IsTuple k) es ∧ ∃ c, contentsK F es = .ok c) ∨
    (¬ MembersIn (fun k => ¬ IsTuple k) es ∧ contentsK F es = .error .typeError)
  | .nil => .inl ⟨trivial, _, rfl⟩
  | .cons k p r => by
    rcases toJson_cases F p with ⟨h1, x, h2⟩ | ⟨h1, h2⟩
    · rcases members_cases F r with ⟨h3, c, h4⟩ | ⟨h3, h4⟩
      · exact .inl ⟨⟨h1, h3⟩, _, by rw [contentsK, h2, h4]; rfl⟩
      · exact .inr ⟨fun h => h3 h.2, by rw [contentsK, h2, h4]; rfl⟩
    · exact .inr ⟨fun h => h1 h.1, by rw [contentsK, h2]; rfl⟩

/-- Pointwise comparison of `contents`. -/
theorem pointwise : ∀ {c d : List (Key × PyVal)}, c.map (·.1.value) = d.map (·.1.value) → (c.map (·.1.value)).Nodup →
    ((∀ f ∈ c, ∃ g ∈ d, g.1.value = f.1.value ∧ g.2 = f.2) ↔ c.map (·.2) = d.map (·.2))
  | [], [], _, _ => by simp
  | [], _ :: _, h, _ => by simp at h
  | _ :: _, [], h, _ => by simp at h
  | a :: c, b :: d, h, hn => by
    simp only [List.map_cons, List.cons.injEq, List.nodup_cons] at h hn
    rw [List.map_cons, List.map_cons, List.cons.injEq, ← pointwise h.2 hn.2]
    constructor
    · intro H
      constructor
      · obtain ⟨g, hg, h1, h2⟩ := H a List.mem_cons_self
        rcases List.mem_cons.mp hg with rfl | hg
        · exact h2.symm
        · refine absurd ?_ hn.1
          rw [h.2, ← h1]
          exact List.mem_map_of_mem (f := fun f : Key × PyVal => f.1.value) hg
      · intro f hf
        obtain ⟨g, hg, h1, h2⟩ := H f (List.mem_cons_of_mem _ hf)
        rcases List.mem_cons.mp hg with rfl | hg
        · refine absurd ?_ hn.1
          rw [h.1, h1]
          exact List.mem_map_of_mem (f := fun f : Key × PyVal => f.1.value) hf
        · exact ⟨g, hg, h1, h2⟩
    · rintro ⟨h1, H⟩ f hf
      rcases List.mem_cons.mp hf with rfl | hf
      · exact ⟨b, List.mem_cons_self, h.1.symm, h1.symm⟩
      · obtain ⟨g, hg, h1, h2⟩ := H f hf
        exact ⟨g, List.mem_cons_of_mem _ hg, h1, h2⟩

theorem entries_iff (hF : Faithful F D) : ∀ {es es' : KEntries} {c c' : List (Key × PyVal)}, KWFEs es → KWFEs es' →
    FloatsInEs D (renameEs ν es) → FloatsInEs D (renameEs ν es') → KeysInEs (FloatKeyIn D) es → KeysInEs (FloatKeyIn D) es' →
    contentsK F es = .ok c → contentsK F es' = .ok c' →
    ((es.keys.map Key.value = es'.keys.map Key.value ∧ c.map (·.2) = c'.map (·.2)) ↔ EqualEntries es es')
  | .nil, .nil, c, c', _, _, _, _, _, _, h, h' => by
    rw [contentsK] at h h'
    cases h
    cases h'
    simp [EqualEntries]
  | .nil, .cons .., _, _, _, _, _, _, _, _, _, _ => by simp [KEntries.keys, EqualEntries]
  | .cons .., .nil, _, _, _, _, _, _, _, _, _, _ => by simp [KEntries.keys, EqualEntries]
  | .cons k p r, .cons k' p' r', c, c', hp, hq, bp, bq, kp, kq, h, h' => by
    rw [contentsK] at h h'
    obtain ⟨x, h1, h⟩ := bind_ok h
    obtain ⟨gs, h2, h⟩ := bind_ok h
    obtain ⟨x', h1', h'⟩ := bind_ok h'
    obtain ⟨gs', h2', h'⟩ := bind_ok h'
    cases h
    cases h'
    have ih := entries_iff hF hp.2.2 hq.2.2 bp.2 bq.2 kp.2.2 kq.2.2 h2 h2'
    have hx : SameText p p' ↔ x = x' := by
      refine ⟨fun ha => ?_, fun e => ?_⟩
      · have := alike_text (F := F) ha
        rw [h1, h1'] at this
        exact Except.ok.inj this
      · subst e
        exact text_alike hF hp.1 hq.1 bp.1 bq.1 kp.2.1 kq.2.1 h1 h1'
    have hs : String.ofList x = String.ofList x' ↔ x = x' := ⟨fun h => by simpa using congrArg String.toList h, fun h => by rw [h]⟩
    simp only [KEntries.keys, List.map_cons, List.cons.injEq, PyVal.str.injEq, EqualEntries, ← ih, equal_iff, hx, hs]
    tauto

/-- **C123, `==`.**  Two dictionaries are equal exactly if they have equal keys (in the same order; `True`, `1` and `1.0` are equal) with members that
have the same JSON texts, which means that in the members, keys must be of the same types.  If in a member of either there is a tuple as a key, the
comparison raises `TypeError`. -/
theorem C123_eq (hF : Faithful F D) {es es' : KEntries} {l l' : Bool} {fd fd' : Option Bool} (ht : KBuilt (.dict es l fd))
    (hu : KBuilt (.dict es' l' fd')) (bt : FloatsInEs D (renameEs ν es)) (bu : FloatsInEs D (renameEs ν es')) (kt : KeysInEs (FloatKeyIn D) es)
    (ku : KeysInEs (FloatKeyIn D) es') :
    (MembersIn (fun k => ¬ IsTuple k) es ∧ MembersIn (fun k => ¬ IsTuple k) es' →
      ∃ b, eqPy F (.dict es l fd) (.dict es' l' fd') = .ok b ∧ (b = true ↔ EqualEntries es es')) ∧
    (¬ (MembersIn (fun k => ¬ IsTuple k) es ∧ MembersIn (fun k => ¬ IsTuple k) es') →
      eqPy F (.dict es l fd) (.dict es' l' fd') = .error .typeError) := by
  have hw := KBuilt.kwf ht
  have hw' := KBuilt.kwf hu
  rcases members_cases F es with ⟨m1, c, hc⟩ | ⟨m1, hc⟩
  · rcases members_cases F es' with ⟨m2, c', hc'⟩ | ⟨m2, hc'⟩
    · refine ⟨fun _ => ⟨_, by rw [eqPy, hc, hc']; rfl, ?_⟩, fun h => absurd ⟨m1, m2⟩ h⟩
      classical
      rw [decide_eq_true_iff, ← entries_iff hF hw.2 hw'.2 bt bu kt ku hc hc']
      have e1 : c.map (·.1.value) = es.keys.map Key.value := by rw [← contents_keys hc, List.map_map]; rfl
      have e2 : c'.map (·.1.value) = es'.keys.map Key.value := by rw [← contents_keys hc', List.map_map]; rfl
      refine and_congr_right fun hk => ?_
      rw [← e1, ← e2] at hk
      rw [pointwise hk (e1 ▸ hw.1)]
      exact ⟨fun h => h.2, fun h => ⟨by simpa using congrArg List.length hk, h⟩⟩
    · exact ⟨fun h => absurd h.2 m2, fun _ => by rw [eqPy, hc, hc']; rfl⟩
  · exact ⟨fun h => absurd h.1 m1, fun _ => by rw [eqPy, hc]; rfl⟩

mutual
theorem alike_rename (ν : Key → String) : ∀ {t u : KPattern}, SameText t u → forget (rename ν t) = forget (rename ν u)
  | .leaf _, .leaf _, h => h
  | .dict es l fd, .dict es' l' fd', h => by rw [rename, rename, forget, forget, alikeEs_rename ν h]
  | .leaf _, .dict .., h => h.elim
  | .dict .., .leaf _, h => h.elim
theorem alikeEs_rename (ν : Key → String) : ∀ {es es' : KEntries}, SameTextEs es es' → forgetEs (renameEs ν es) = forgetEs (renameEs ν es')
  | .nil, .nil, _ => rfl
  | .cons k p r, .cons k' p' r', h => by
    obtain ⟨rfl, h1, h2⟩ := h
    rw [renameEs, renameEs, forgetEs, forgetEs, alike_rename ν h1, alikeEs_rename ν h2]
  | .nil, .cons .., h => h.elim
  | .cons .., .nil, h => h.elim
end

theorem equalEntries_rename (hν : Names ν) : ∀ {es es' : KEntries}, EqualEntries es es' → forgetEs (renameEs ν es) = forgetEs (renameEs ν es')
  | .nil, .nil, _ => rfl
  | .cons k p r, .cons k' p' r', h => by
    obtain ⟨h0, h1, h2⟩ := h
    rw [renameEs, renameEs, forgetEs, forgetEs, alike_rename ν h1, equalEntries_rename hν h2, (hν _ _).mpr h0]
  | .nil, .cons .., h => h.elim
  | .cons .., .nil, h => h.elim

/-- **C123, equal dictionaries behave alike.**  If two dictionaries are equal, then, with equal keys under one name, they fold, flatten and validate in
the same way when `free` is given. -/
theorem C123_eq_sound (hF : Faithful F D) (hν : Names ν) {es es' : KEntries} {l l' : Bool} {fd fd' : Option Bool} (ht : KBuilt (.dict es l fd))
    (hu : KBuilt (.dict es' l' fd')) (bt : FloatsInEs D (renameEs ν es)) (bu : FloatsInEs D (renameEs ν es')) (kt : KeysInEs (FloatKeyIn D) es)
    (ku : KeysInEs (FloatKeyIn D) es') (h : eqPy F (.dict es l fd) (.dict es' l' fd') = .ok true) :
    SameBehaviour (rename ν (.dict es l fd)) (rename ν (.dict es' l' fd')) := by
  obtain ⟨h1, h2⟩ := C123_eq hF ht hu bt bu kt ku
  by_cases hm : MembersIn (fun k => ¬ IsTuple k) es ∧ MembersIn (fun k => ¬ IsTuple k) es'
  · obtain ⟨b, h3, h4⟩ := h1 hm
    rw [h] at h3
    have := equalEntries_rename hν (h4.mp (Except.ok.inj h3).symm)
    have e : forget (rename ν (.dict es l fd)) = forget (rename ν (.dict es' l' fd')) := by rw [rename, rename, forget, forget, this]
    exact (same_forget _ ((C103_built hν).1 _ ht).wf).trans (e ▸ (same_forget _ ((C103_built hν).1 _ hu).wf).symm)
  · rw [h2 hm] at h; cases h

/-! ### Examples -/

/-- **C123, `==` of other patterns.**  A dictionary is not equal to a pattern of another class, and two patterns that are not dictionaries are equal
exactly if they have the same class and the same data. -/
theorem C123_eq_kinds (F : FloatText) {p : Pattern} (hp : KBuilt (.leaf p)) :
    (∀ es l fd, eqPy F (.leaf p) (.dict es l fd) = .ok false ∧ eqPy F (.dict es l fd) (.leaf p) = .ok false) ∧
    ∀ q, KBuilt (.leaf q) → ∃ b, eqPy F (.leaf p) (.leaf q) = .ok b ∧ (b = true ↔ Spec.Same p q) := by
  refine ⟨fun es l fd => ⟨rfl, rfl⟩, fun q hq => ⟨_, rfl, ?_⟩⟩
  classical
  rw [decide_eq_true_iff]
  exact eqPy_iff (KBuilt.kwf hp).1 (KBuilt.kwf hq).1

/-- A dictionary with one key. -/
noncomputable def oneKey (k : Key) (p : KPattern) : KPattern := .dict (.cons k p.lock .nil) false none

theorem oneKey_built (k : Key) {p : KPattern} (hp : KBuilt p) : KBuilt (oneKey k p) := KBuilt.set (KBuilt.dict none) hp (k := k) rfl

/-- A pattern to put under a key. -/
def member : KPattern := .leaf (.simplex 3 [] true none)

theorem member_built : KBuilt member := .leaf (WF.built _ (by simp [Pattern.WF])) rfl

/-- `{True: p}` and `{1: p}` are equal, and so are `{1.0: p}` and `{1: p}`, but `{'a': {True: p}}` and `{'a': {1: p}}` are not. -/
example (hF : Faithful F D) (h1 : D (1 : ℚ)) :
    eqPy F (oneKey (.bool true) member) (oneKey (.int 1) member) = .ok true ∧
    eqPy F (oneKey (.float 1) member) (oneKey (.int 1) member) = .ok true ∧
    eqPy F (oneKey (.str "a") (oneKey (.bool true) member)) (oneKey (.str "a") (oneKey (.int 1) member)) = .ok false := by
  have hk : ∀ k, k = Key.bool true ∨ k = Key.float 1 ∨ k = Key.int 1 ∨ k = Key.str "a" → FloatKeyIn D k := by
    rintro k (rfl | rfl | rfl | rfl) q hq <;> cases hq
    exact h1
  refine ⟨?_, ?_, ?_⟩
  · obtain ⟨b, h2, h3⟩ := (C123_eq (ν := fun _ => "") hF (oneKey_built (.bool true) member_built) (oneKey_built (.int 1) member_built)
      ⟨trivial, trivial⟩ ⟨trivial, trivial⟩ ⟨hk _ (by simp), trivial, trivial⟩ ⟨hk _ (by simp), trivial, trivial⟩).1
      ⟨⟨trivial, trivial⟩, ⟨trivial, trivial⟩⟩
    rw [oneKey, oneKey, h2, h3.mpr ⟨.inr (.inl ⟨1, rfl, rfl⟩), rfl, trivial⟩]
  · obtain ⟨b, h2, h3⟩ := (C123_eq (ν := fun _ => "") hF (oneKey_built (.float 1) member_built) (oneKey_built (.int 1) member_built)
      ⟨trivial, trivial⟩ ⟨trivial, trivial⟩ ⟨hk _ (by simp), trivial, trivial⟩ ⟨hk _ (by simp), trivial, trivial⟩).1
      ⟨⟨trivial, trivial⟩, ⟨trivial, trivial⟩⟩
    rw [oneKey, oneKey, h2, h3.mpr ⟨.inr (.inl ⟨1, rfl, rfl⟩), rfl, trivial⟩]
  · obtain ⟨b, h2, h3⟩ := (C123_eq (ν := fun _ => "") hF (oneKey_built (.str "a") (oneKey_built (.bool true) member_built))
      (oneKey_built (.str "a") (oneKey_built (.int 1) member_built)) ⟨⟨trivial, trivial⟩, trivial⟩ ⟨⟨trivial, trivial⟩, trivial⟩
      ⟨hk _ (by simp), ⟨hk _ (by simp), trivial, trivial⟩, trivial⟩ ⟨hk _ (by simp), ⟨hk _ (by simp), trivial, trivial⟩, trivial⟩).1
      ⟨⟨⟨(fun h => nomatch h), trivial, trivial⟩, trivial⟩, ⟨⟨(fun h => nomatch h), trivial, trivial⟩, trivial⟩⟩
    refine h2.trans ?_
    cases b with
    | false => rfl
    | true => exact absurd (h3.mp rfl).2.1.1 (by simp)

/-- Assigning to `d[True]` when `d` has the key `1` replaces the member and keeps the key `1`. -/
example : ∃ es', (oneKey (.int 1) member).setItem (.bool true) (.leaf (.psd 2 (.int 0) true none)) = .ok (.dict es' false none) ∧
    es'.keys = [.int 1] := by
  obtain ⟨es', h1, h2, _⟩ := (C123_update (shw := fun _ => "") (oneKey_built (.int 1) member_built) (.bool true)).1 (.leaf (.psd 2 (.int 0) true none))
  exact ⟨es', h1, h2 ⟨.int 1, by simp [KEntries.keys], .inr (.inl ⟨1, rfl, rfl⟩)⟩⟩

/-- A tuple as a key of a member cannot be compared. -/
example : eqPy F (oneKey (.str "a") (oneKey (.tuple []) member)) (oneKey (.str "a") member) = .error .typeError := by
  rcases members_cases F (.cons (.str "a") (oneKey (.tuple []) member).lock .nil) with ⟨h, _⟩ | ⟨_, h⟩
  · exact absurd ⟨[], rfl⟩ h.1.1
  · exact (by rw [eqPy, h]; rfl : eqPy F (.dict (.cons (.str "a") (oneKey (.tuple []) member).lock .nil) false none)
      (.dict (.cons (.str "a") member.lock .nil) false none) = .error .typeError)

/-- Non-vacuity of `C123_eq_kinds`: a simplex pattern equals itself, but no dictionary and no matrix pattern. -/
example : eqPy F member member = .ok true ∧ eqPy F member (oneKey (.int 1) member) = .ok false ∧
    eqPy F member (.leaf (.psd 2 (.int 0) true none)) = .ok false := by
  obtain ⟨h1, h2⟩ := C123_eq_kinds F member_built
  refine ⟨?_, (h1 _ _ _).1, ?_⟩
  · obtain ⟨b, h3, h4⟩ := h2 _ member_built
    rw [member, h3, h4.mpr ⟨rfl, rfl, rfl⟩]
  · obtain ⟨b, h3, h4⟩ := h2 (.psd 2 (.int 0) true none) (.leaf (WF.built _ (by simp [Pattern.WF, PyNum.toFlt, Flt.lt])) rfl)
    rw [member, h3]
    cases b with
    | false => rfl
    | true => exact (h4.mp rfl).elim

end Paragami
