import Verif.Spec.LeafNames
import Verif.Props.Names

/-! # C106: the names of the coordinates, for every tree and every value of `free` -/

namespace Paragami
open Pattern NDArray Spec

theorem fullName_eq (path : List String) (t : String) : fullName "_" path t = path.foldr (fun k t => k ++ "_" ++ t) t := by
  cases path <;> rfl

theorem leaf_contributes {q : Pattern} (hd : q.isDict = false) {free : Option Bool} {delim : String} {names : List String} :
    q.flatNames free delim = .ok names ↔ ∃ parts, List.Forall₂ (Contributes free delim) [([], q)] parts ∧ names = parts.flatten := by
  have hsome : ∀ b, ∃ ns, q.flatNames (some b) "_" = .ok ns ∧ q.flatNames (some b) delim = .ok ns := fun b =>
    ⟨_, names_leaf hd, names_leaf hd⟩
  have hkey : q.flatNames free delim = .ok names ↔ ∃ b, NamedIn free q b ∧ q.flatNames (some b) "_" = .ok names := by
    cases free with
    | some b =>
      obtain ⟨ns, h1, h2⟩ := hsome b
      constructor
      · intro h; exact ⟨b, .inl rfl, by rw [h1, ← h2, h]⟩
      · rintro ⟨b', h3 | h3 | h3, h4⟩
        · cases h3; rw [h2, ← h1, h4]
        · cases h3.1
        · cases q with
          | numeric => simpa [flatNames] using h4
          | _ => exact h3.elim
    | none =>
      cases q with
      | dict => simp [isDict] at hd
      | numeric c s lb ub dv fd =>
        constructor
        · intro h; exact ⟨true, .inr (.inr trivial), by simpa [flatNames] using h⟩
        · rintro ⟨b, _, h⟩; simpa [flatNames] using h
      | simplex k s dv fd =>
        cases fd with
        | none => simp [flatNames, freeWithDefault, bind, Except.bind, NamedIn, freeDefault, IsNumeric]
        | some b => simp [flatNames, freeWithDefault, bind, Except.bind, NamedIn, freeDefault, IsNumeric]
      | psd n lb dv fd =>
        cases fd with
        | none => simp [flatNames, freeWithDefault, bind, Except.bind, NamedIn, freeDefault, IsNumeric]
        | some b => simp [flatNames, freeWithDefault, bind, Except.bind, NamedIn, freeDefault, IsNumeric]
      | array s base fd =>
        cases fd with
        | none => simp [flatNames, freeWithDefault, bind, Except.bind, NamedIn, freeDefault, IsNumeric]
        | some b => simp [flatNames, freeWithDefault, bind, Except.bind, NamedIn, freeDefault, IsNumeric]
  rw [hkey]
  have hid : ∀ ns : List String, ns.map (fullName delim []) = ns := fun ns => by
    have : fullName delim [] = id := rfl
    rw [this, List.map_id]
  constructor
  · rintro ⟨b, h1, h2⟩
    exact ⟨[names], .cons ⟨b, names, h1, h2, (hid names).symm⟩ .nil, by simp⟩
  · rintro ⟨parts, h, rfl⟩
    cases h with
    | cons h h' =>
      cases h'
      obtain ⟨b, ns, h1, h2, rfl⟩ := h
      exact ⟨b, h1, by simpa [hid] using h2⟩

theorem contributes_cons {free : Option Bool} {delim k : String} {l : List String × Pattern} {part : List String} :
    Contributes free delim (k :: l.1, l.2) part ↔ ∃ part', Contributes free "_" l part' ∧ part = part'.map (k ++ delim ++ ·) := by
  have e : ∀ ns : List String, ns.map (fullName delim (k :: l.1)) = (ns.map (fullName "_" l.1)).map (k ++ delim ++ ·) := by
    intro ns
    rw [List.map_map]
    apply List.map_congr_left
    intro t _
    simp only [Function.comp, fullName_eq]
    rfl
  constructor
  · rintro ⟨b, ns, h1, h2, rfl⟩
    exact ⟨_, ⟨b, ns, h1, h2, rfl⟩, e ns⟩
  · rintro ⟨_, ⟨b, ns, h1, h2, rfl⟩, rfl⟩
    exact ⟨b, ns, h1, h2, (e ns).symm⟩

theorem contributes_map {free : Option Bool} {delim k : String} : ∀ {ls : List (List String × Pattern)} {parts : List (List String)},
    List.Forall₂ (Contributes free delim) (ls.map fun l => (k :: l.1, l.2)) parts ↔
      ∃ parts', List.Forall₂ (Contributes free "_") ls parts' ∧ parts = parts'.map (List.map (k ++ delim ++ ·))
  | [], parts => by
    simp only [List.map_nil, List.forall₂_nil_left_iff]
    constructor
    · rintro rfl; exact ⟨[], rfl, rfl⟩
    · rintro ⟨_, rfl, rfl⟩; rfl
  | l :: ls, parts => by
    rw [List.map_cons, List.forall₂_cons_left_iff]
    constructor
    · rintro ⟨part, parts, h1, h2, rfl⟩
      obtain ⟨part', h3, rfl⟩ := contributes_cons.mp h1
      obtain ⟨parts', h4, rfl⟩ := contributes_map.mp h2
      exact ⟨part' :: parts', .cons h3 h4, rfl⟩
    · rintro ⟨parts', h, rfl⟩
      cases h with
      | cons h h' => exact ⟨_, _, contributes_cons.mpr ⟨_, h, rfl⟩, contributes_map.mpr ⟨_, h', rfl⟩, rfl⟩

theorem names_leaves (free : Option Bool) (p : Pattern) : ∀ delim names, p.flatNames free delim = .ok names ↔
    Populated p ∧ ∃ parts, List.Forall₂ (Contributes free delim) (nameLeaves p) parts ∧ names = parts.flatten := by
  induction p using Pattern.ind
    (Q := fun es => ∀ delim,
      (∀ ps, flatNamesEs es free delim = .ok ps → PopulatedEs es ∧
        ∃ parts, List.Forall₂ (Contributes free delim) (nameLeavesEs es) parts ∧ ps.flatten = parts.flatten) ∧
      (∀ parts, PopulatedEs es → List.Forall₂ (Contributes free delim) (nameLeavesEs es) parts →
        ∃ ps, flatNamesEs es free delim = .ok ps ∧ ps.flatten = parts.flatten)) with
  | hnum => intro delim names; simp only [nameLeaves, Populated, true_and]; exact leaf_contributes rfl
  | hsim => intro delim names; simp only [nameLeaves, Populated, true_and]; exact leaf_contributes rfl
  | hpsd => intro delim names; simp only [nameLeaves, Populated, true_and]; exact leaf_contributes rfl
  | harr => intro delim names; simp only [nameLeaves, Populated, true_and]; exact leaf_contributes rfl
  | hdict es l fd ih =>
    intro delim names
    rw [names_dict]
    simp only [nameLeaves, Populated]
    constructor
    · rintro ⟨hne, ps, h1, rfl⟩
      obtain ⟨h2, parts, h3, h4⟩ := (ih delim).1 ps h1
      exact ⟨⟨hne, h2⟩, parts, h3, h4⟩
    · rintro ⟨⟨hne, h2⟩, parts, h3, rfl⟩
      obtain ⟨ps, h4, h5⟩ := (ih delim).2 parts h2 h3
      exact ⟨hne, ps, h4, h5.symm⟩
  | hnil delim =>
    constructor
    · intro ps h
      simp only [flatNamesEs, Except.ok.injEq] at h
      subst h
      exact ⟨trivial, [], .nil, rfl⟩
    · intro parts _ h
      cases h
      exact ⟨[], rfl, rfl⟩
  | hcons k p r ihp ihr delim =>
    constructor
    · intro ps h
      rw [flatNamesEs] at h
      obtain ⟨a, h1, h⟩ := bind_ok h
      obtain ⟨b, h2, h⟩ := bind_ok h
      simp only [pure, Except.pure, Except.ok.injEq] at h
      subst h
      obtain ⟨q1, parts1, q2, rfl⟩ := (ihp "_" a).mp h1
      obtain ⟨q3, parts2, q4, q5⟩ := (ihr delim).1 b h2
      refine ⟨⟨q1, q3⟩, parts1.map (List.map (k ++ delim ++ ·)) ++ parts2, ?_, ?_⟩
      · exact List.rel_append (contributes_map.mpr ⟨_, q2, rfl⟩) q4
      · rw [List.flatten_cons, q5, List.flatten_append, List.map_flatten]
    · rintro parts ⟨h1, h2⟩ h3
      rw [nameLeavesEs] at h3
      obtain ⟨parts1, parts2, q1, q2, rfl⟩ : ∃ p1 p2, List.Forall₂ (Contributes free delim) ((nameLeaves p).map fun l => (k :: l.1, l.2)) p1 ∧
          List.Forall₂ (Contributes free delim) (nameLeavesEs r) p2 ∧ parts = p1 ++ p2 := by
        have := List.forall₂_iff_zip.mp h3
        refine ⟨parts.take ((nameLeaves p).map fun l => (k :: l.1, l.2)).length, parts.drop ((nameLeaves p).map fun l => (k :: l.1, l.2)).length,
          ?_, ?_, (List.take_append_drop _ _).symm⟩
        · have := List.forall₂_take ((nameLeaves p).map fun l => (k :: l.1, l.2)).length h3
          rwa [List.take_left] at this
        · have := List.forall₂_drop ((nameLeaves p).map fun l => (k :: l.1, l.2)).length h3
          rwa [List.drop_left] at this
      obtain ⟨parts', q3, rfl⟩ := contributes_map.mp q1
      have q4 := (ihp "_" _).mpr ⟨h1, parts', q3, rfl⟩
      obtain ⟨ps, q5, q6⟩ := (ihr delim).2 parts2 h2 q2
      refine ⟨_, by rw [flatNamesEs, q4, q5]; rfl, ?_⟩
      rw [List.flatten_cons, q6, List.flatten_append, List.map_flatten]

theorem names_error (free : Option Bool) (p : Pattern) : Populated p → ∀ delim e, p.flatNames free delim = .error e →
    e = .valueError "If ``free_default`` is ``None``, ``free`` must be specified." := by
  have hfw : ∀ {fd : Option Bool} {e}, freeWithDefault fd free = .error e →
      e = .valueError "If ``free_default`` is ``None``, ``free`` must be specified." := by
    intro fd e h
    cases free <;> cases fd <;> simp [freeWithDefault] at h
    exact h.symm
  have hb : ∀ {fd : Option Bool} {f : Bool → List String} {e}, (freeWithDefault fd free >>= fun b => pure (f b)) = Except.error e →
      freeWithDefault fd free = .error e := by
    intro fd f e h
    cases h' : freeWithDefault fd free with
    | error e' => rw [h'] at h; cases h; rfl
    | ok b => rw [h'] at h; cases h
  induction p using Pattern.ind
    (Q := fun es => PopulatedEs es → ∀ delim, (∀ e, flatNamesEs es free delim = .error e →
      e = .valueError "If ``free_default`` is ``None``, ``free`` must be specified.") ∧
      ∀ ps, flatNamesEs es free delim = .ok ps → es ≠ .nil → ps ≠ []) with
  | hnum => intro _ delim e h; simp [flatNames] at h
  | hsim => intro _ delim e h; rw [flatNames] at h; exact hfw (hb h)
  | hpsd => intro _ delim e h; rw [flatNames] at h; exact hfw (hb h)
  | harr => intro _ delim e h; rw [flatNames] at h; exact hfw (hb h)
  | hdict es l fd ih =>
    intro hp delim e h
    obtain ⟨h1, h2⟩ := ih hp.2 delim
    rw [flatNames] at h
    cases h' : flatNamesEs es free delim with
    | error e' =>
      rw [h'] at h
      cases h
      exact h1 _ h'
    | ok ps =>
      rw [h'] at h
      have := h2 ps h' hp.1
      cases ps with
      | nil => exact absurd rfl this
      | cons => cases h
  | hnil _ delim => exact ⟨fun e h => by simp [flatNamesEs] at h, fun _ _ h => absurd rfl h⟩
  | hcons k p r ihp ihr hp delim =>
    constructor
    · intro e h
      rw [flatNamesEs] at h
      cases h1 : p.flatNames free "_" with
      | error e' => rw [h1] at h; cases h; exact ihp hp.1 _ _ h1
      | ok a =>
        rw [h1] at h
        cases h2 : flatNamesEs r free delim with
        | error e' =>
          simp only [h2, bind, Except.bind] at h
          cases h; exact (ihr hp.2 delim).1 _ h2
        | ok b =>
          simp only [h2, bind, Except.bind] at h
          cases h
    · intro ps h _
      rw [flatNamesEs] at h
      obtain ⟨a, h1, h⟩ := bind_ok h
      obtain ⟨b, h2, h⟩ := bind_ok h
      simp only [pure, Except.pure, Except.ok.injEq] at h
      subst h
      simp

theorem leaves_notDict (p : Pattern) : ∀ l ∈ nameLeaves p, l.2.isDict = false := by
  induction p using Pattern.ind (Q := fun es => ∀ l ∈ nameLeavesEs es, l.2.isDict = false) with
  | hnum => simp [nameLeaves, isDict]
  | hsim => simp [nameLeaves, isDict]
  | hpsd => simp [nameLeaves, isDict]
  | harr => simp [nameLeaves, isDict]
  | hdict es l fd ih => exact ih
  | hnil l hl => simp [nameLeavesEs] at hl
  | hcons k p r ihp ihr l hl =>
    rw [nameLeavesEs, List.mem_append] at hl
    rcases hl with hl | hl
    · obtain ⟨l', hl', rfl⟩ := List.mem_map.mp hl
      exact ihp l' hl'
    · exact ihr l hl

theorem flatLen_leaves (b : Bool) (p : Pattern) : p.flatLen b = ((nameLeaves p).map fun l => l.2.flatLen b).sum := by
  induction p using Pattern.ind (Q := fun es => flatLenEs es b = ((nameLeavesEs es).map fun l => l.2.flatLen b).sum) with
  | hnum => simp [nameLeaves]
  | hsim => simp [nameLeaves]
  | hpsd => simp [nameLeaves]
  | harr => simp [nameLeaves]
  | hdict es l fd ih => rw [flatLen, ih]; rfl
  | hnil => simp [nameLeavesEs, flatLenEs]
  | hcons k p r ihp ihr =>
    rw [flatLenEs, nameLeavesEs, List.map_append, List.sum_append, ihp, ihr, List.map_map]
    rfl

theorem flatLen_le (p : Pattern) : p.flatLen true ≤ p.flatLen false := by
  induction p using Pattern.ind (Q := fun es => flatLenEs es true ≤ flatLenEs es false) with
  | hnum => simp [flatLen]
  | hsim k s dv fd =>
    simp only [flatLen, if_true, List.prod_append, Bool.false_eq_true, if_false, List.prod_cons, List.prod_nil, mul_one]
    exact Nat.mul_le_mul_left _ (by omega)
  | hpsd n lb dv fd =>
    simp only [flatLen, if_true, Bool.false_eq_true, if_false]
    rcases Nat.eq_zero_or_pos n with rfl | hn
    · simp
    · rw [sq]
      apply Nat.div_le_of_le_mul
      nlinarith
  | harr s b fd ih => exact Nat.mul_le_mul_left _ ih
  | hdict es l fd ih => exact ih
  | hnil => simp [flatLenEs]
  | hcons k p r ihp ihr => exact Nat.add_le_add ihp ihr

/-- **C106.**  For every pattern, every `free` (given or not) and every delimiter: `flat_names` returns exactly when no dictionary above the leaves is
empty and every leaf can be named, that is, `free` is given or the leaf has a default of its own or is numeric; the names are those of the leaves,
each in the mode given or its own default mode, in order, with the keys in front.  The defaults of the dictionaries play no part. -/
theorem C106_names (p : Pattern) (free : Option Bool) (delim : String) (names : List String) : p.flatNames free delim = .ok names ↔
    Populated p ∧ ∃ parts, List.Forall₂ (Contributes free delim) (nameLeaves p) parts ∧ names = parts.flatten :=
  names_leaves free p delim names

/-- **C106, leaves without a default.**  Without `free`, one leaf that is not numeric and has no default makes `flat_names` raise a ValueError, whatever
the defaults of the dictionaries around it; and this is the only way it can fail. -/
theorem C106_missing {p : Pattern} (hp : Populated p) (delim : String) :
    (∃ l ∈ nameLeaves p, l.2.freeDefault = none ∧ ¬ IsNumeric l.2) ↔
      p.flatNames none delim = .error (.valueError "If ``free_default`` is ``None``, ``free`` must be specified.") := by
  constructor
  · rintro ⟨l, hl, h1, h2⟩
    cases h : p.flatNames none delim with
    | error e => rw [names_error none p hp delim e h]
    | ok names =>
      obtain ⟨_, parts, h3, _⟩ := (names_leaves none p delim names).mp h
      have h4 : ∃ part, Contributes none delim l part := by
        obtain ⟨i, hi, rfl⟩ := List.mem_iff_getElem.mp hl
        exact ⟨_, h3.get hi (by rw [← h3.length_eq]; exact hi)⟩
      obtain ⟨part, b, ns, h5, _⟩ := h4
      rcases h5 with h5 | ⟨_, h5⟩ | h5
      · cases h5
      · rw [h1] at h5; cases h5
      · exact absurd h5 h2
  · intro h
    by_contra hc
    push Not at hc
    have : ∃ parts, List.Forall₂ (Contributes none delim) (nameLeaves p) parts := by
      have hall : ∀ l ∈ nameLeaves p, ∃ part, Contributes none delim l part := by
        intro l hl
        have hnd := leaves_notDict p l hl
        cases hfd : l.2.freeDefault with
        | some b => exact ⟨_, b, _, .inr (.inl ⟨rfl, hfd⟩), names_leaf hnd, rfl⟩
        | none => exact ⟨_, true, _, .inr (.inr (hc l hl hfd)), names_leaf hnd, rfl⟩
      generalize nameLeaves p = ls at hall
      induction ls with
      | nil => exact ⟨[], .nil⟩
      | cons l ls ih =>
        obtain ⟨part, h1⟩ := hall l (by simp)
        obtain ⟨parts, h2⟩ := ih fun l hl => hall l (by simp [hl])
        exact ⟨part :: parts, .cons h1 h2⟩
    obtain ⟨parts, h1⟩ := this
    rw [(names_leaves none p delim _).mpr ⟨hp, parts, h1, rfl⟩] at h
    cases h

/-- **C106, the number of names.**  For a pattern with `free_default = b` for which `flat_names(None)` returns: there are as many names as
`flat_length(None)` says exactly when every leaf has the same length in the mode it is named in as in mode `b`. -/
theorem C106_count {p : Pattern} {b : Bool} (hb : p.freeDefault = some b) {delim : String} {names : List String}
    (h : p.flatNames none delim = .ok names) :
    p.flatLength none = .ok names.length ↔ ∀ l ∈ nameLeaves p, ∀ b', NamedIn none l.2 b' → l.2.flatLength (some b') = l.2.flatLength (some b) := by
  obtain ⟨_, parts, h1, rfl⟩ := (names_leaves none p delim names).mp h
  have hlen : p.flatLength none = .ok (p.flatLen b) := by simp [flatLength, hb, freeWithDefault, bind, Except.bind, pure, Except.pure]
  rw [hlen, flatLen_leaves b p]
  simp only [flatLength_some, Except.ok.injEq]
  have hnum : ∀ q : Pattern, IsNumeric q → ∀ c d : Bool, q.flatLen c = q.flatLen d := by
    intro q hq c d
    cases q with
    | numeric => simp [flatLen]
    | _ => exact hq.elim
  have hmode : ∀ (q : Pattern) (c d : Bool), NamedIn none q c → NamedIn none q d → q.flatLen c = q.flatLen d := by
    rintro q c d (h1 | h1 | h1) h2
    · cases h1
    · rcases h2 with h2 | h2 | h2
      · cases h2
      · rw [h1.2] at h2; cases h2.2; rfl
      · exact hnum q h2 c d
    · exact hnum q h1 c d
  have hkey : ∀ (ls : List (List String × Pattern)) (parts : List (List String)), List.Forall₂ (Contributes none delim) ls parts →
      ((b = true → (ls.map fun l => l.2.flatLen b).sum ≤ parts.flatten.length) ∧ (b = false → parts.flatten.length ≤ (ls.map fun l => l.2.flatLen b).sum)) ∧
      ((ls.map fun l => l.2.flatLen b).sum = parts.flatten.length ↔ ∀ l ∈ ls, ∀ b', NamedIn none l.2 b' → l.2.flatLen b' = l.2.flatLen b) := by
    intro ls parts h
    induction h with
    | nil => simp
    | @cons l part ls parts hl hls ih =>
      obtain ⟨c, ns, h2, h3, rfl⟩ := hl
      have h4 := names_length c l.2 "_" ns h3
      have hle := flatLen_le l.2
      simp only [List.map_cons, List.sum_cons, List.flatten_cons, List.length_append, List.length_map, h4, List.forall_mem_cons]
      have e : (∀ b', NamedIn none l.2 b' → l.2.flatLen b' = l.2.flatLen b) ↔ l.2.flatLen c = l.2.flatLen b :=
        ⟨fun h => h c h2, fun h b' hb' => by rw [hmode l.2 b' c hb' h2, h]⟩
      rw [e, ← ih.2]
      cases b with
      | true =>
        have i1 := ih.1.1 rfl
        have i2 : l.2.flatLen true ≤ l.2.flatLen c := by cases c; exacts [hle, le_rfl]
        refine ⟨⟨fun _ => by omega, fun h => by cases h⟩, by omega⟩
      | false =>
        have i1 := ih.1.2 rfl
        have i2 : l.2.flatLen c ≤ l.2.flatLen false := by cases c; exacts [le_rfl, hle]
        refine ⟨⟨fun h => (by cases h), fun _ => by omega⟩, by omega⟩
  exact (hkey _ _ h1).2

/-- **C106, agreeing defaults.**  If all leaves that are not numeric have the default `b`, then `flat_names(None)` and `flat_names(b)` are the same. -/
theorem C106_agree {p : Pattern} {b : Bool} (h : ∀ l ∈ nameLeaves p, l.2.freeDefault = some b ∨ IsNumeric l.2) (delim : String) :
    p.flatNames none delim = p.flatNames (some b) delim := by
  revert h delim
  have hleaf : ∀ q : Pattern, q.isDict = false → q.freeDefault = some b ∨ IsNumeric q → ∀ delim, q.flatNames none delim = q.flatNames (some b) delim := by
    intro q hd h delim
    cases q with
    | dict => simp [isDict] at hd
    | numeric => simp [flatNames]
    | _ =>
      rcases h with h | h
      · simp only [freeDefault] at h
        subst h
        simp [flatNames, freeWithDefault]
      · exact h.elim
  induction p using Pattern.ind
    (Q := fun es => (∀ l ∈ nameLeavesEs es, l.2.freeDefault = some b ∨ IsNumeric l.2) → ∀ delim, flatNamesEs es none delim = flatNamesEs es (some b) delim) with
  | hnum => intro h; exact hleaf _ rfl (h ([], _) (by simp [nameLeaves]))
  | hsim => intro h; exact hleaf _ rfl (h ([], _) (by simp [nameLeaves]))
  | hpsd => intro h; exact hleaf _ rfl (h ([], _) (by simp [nameLeaves]))
  | harr => intro h; exact hleaf _ rfl (h ([], _) (by simp [nameLeaves]))
  | hdict es l fd ih => intro h delim; rw [flatNames, flatNames, ih h]
  | hnil => rfl
  | hcons k p r ihp ihr h delim =>
    rw [flatNamesEs, flatNamesEs, ihp fun l hl => ?_, ihr fun l hl => ?_]
    · exact h l (by rw [nameLeavesEs, List.mem_append]; exact .inr hl)
    · exact h (k :: l.1, l.2) (by rw [nameLeavesEs, List.mem_append]; exact .inl (List.mem_map.mpr ⟨l, hl, rfl⟩))

/-! ### Examples -/

/-- A dictionary in a dictionary. -/
noncomputable def exNames : Pattern :=
  .dict (.cons "a" (.simplex 3 [] true (some false)) (.cons "d" (.dict (.cons "m" (.psd 2 (.int 0) true (some true))
    (.cons "x" (.numeric .scalar [1] (.int 0) (.flt .pinf) true none) .nil)) true (some false)) .nil)) false (some true)

theorem exNames_leaves : nameLeaves exNames = [(["a"], .simplex 3 [] true (some false)), (["d", "m"], .psd 2 (.int 0) true (some true)),
    (["d", "x"], .numeric .scalar [1] (.int 0) (.flt .pinf) true none)] := by
  simp [exNames, nameLeaves, nameLeavesEs]

/-- C106 is not vacuous: three names for the simplex (its own default), three for the matrix (free), one for the number. -/
example : exNames.flatNames none "." = .ok ["a.0", "a.1", "a.2", "d.m_0", "d.m_1", "d.m_2", "d.x_[0]"] := by
  have e1 : (List.range ((Pattern.simplex 3 [] true (some false)).flatLen false)).map toString = ["0", "1", "2"] := by
    simp only [flatLen]; rfl
  have e2 : (List.range ((Pattern.psd 2 (.int 0) true (some true)).flatLen true)).map toString = ["0", "1", "2"] := by
    simp only [flatLen]; rfl
  have e3 : Numeric.flatNames [1] = ["[0]"] := by rfl
  simp only [exNames, flatNames, flatNamesEs, freeWithDefault, bind, Except.bind, pure, Except.pure, e1, e2, e3]
  rfl

/-- C106_count: the simplex is named in the other mode, so the number of names is wrong. -/
example : Populated exNames ∧ exNames.freeDefault = some true ∧ exNames.flatLength none = .ok 6 ∧
    NamedIn none (.simplex 3 [] true (some false)) false ∧
    (Pattern.simplex 3 [] true (some false)).flatLength (some false) ≠ (Pattern.simplex 3 [] true (some false)).flatLength (some true) := by
  refine ⟨by simp [exNames, Populated, PopulatedEs], rfl, ?_, .inr (.inl ⟨rfl, rfl⟩), by simp [flatLength_some, flatLen]⟩
  simp [exNames, flatLength, freeWithDefault, freeDefault, flatLen, flatLenEs, bind, Except.bind, pure, Except.pure]

/-- C106_agree: defaults that agree, with a dictionary default that does not. -/
example : ∀ l ∈ nameLeaves (.dict (.cons "a" (.simplex 3 [] true (some false)) (.cons "x" (.numeric .scalar [1] (.int 0) (.flt .pinf) true none) .nil))
    false (some true)), l.2.freeDefault = some false ∨ IsNumeric l.2 := by
  simp [nameLeaves, nameLeavesEs, freeDefault, IsNumeric]

/-- C106_missing: no default on the simplex. -/
example : ∃ l ∈ nameLeaves (.dict (.cons "a" (.simplex 3 [] true none) .nil) false (some true)), l.2.freeDefault = none ∧ ¬ IsNumeric l.2 := by
  simp [nameLeaves, nameLeavesEs, freeDefault, IsNumeric]

end Paragami
