import Verif.Props.Containers
import Verif.Spec.Names

/-! # C39, C40, C69: `flat_names` -/

set_option linter.unusedSimpArgs false

namespace Paragami
open Pattern NDArray

/-! ### Decimal numerals and index names -/

theorem toList_toString (n : Nat) : (toString n).toList = Nat.toDigits 10 n := by
  rw [Nat.toString_eq_repr, Nat.toList_repr]

theorem toString_inj {m n : Nat} (h : toString m = toString n) : m = n := by
  have := congrArg String.toList h
  rw [toList_toString, toList_toString] at this
  rw [← Nat.ofDigitChars_ten_toDigits (n := m), this, Nat.ofDigitChars_ten_toDigits]

theorem digit_of_mem {n : Nat} {c : Char} (h : c ∈ (toString n).toList) : c.isDigit = true := by
  rw [toList_toString] at h
  exact Nat.isDigit_of_mem_toDigits (by omega) (by omega) h

theorem nameChar_toString {n : Nat} {c : Char} (h : c ∈ (toString n).toList) : Spec.nameChar c := Or.inl (digit_of_mem h)

theorem mem_intercalate {α : Type} {x : α} {sep : List α} : ∀ {l : List (List α)}, x ∈ sep.intercalate l →
    x ∈ sep ∨ ∃ y ∈ l, x ∈ y
  | [], h => by simp at h
  | [a], h => by simp at h; exact Or.inr ⟨a, by simp, h⟩
  | a :: b :: l, h => by
    rw [List.intercalate_cons_cons, List.mem_append, List.mem_append] at h
    rcases h with (h | h) | h
    · exact Or.inr ⟨a, by simp, h⟩
    · exact Or.inl h
    · rcases mem_intercalate h with h | ⟨y, hy, h⟩
      · exact Or.inl h
      · exact Or.inr ⟨y, by simp [hy], h⟩

theorem toList_indexName (idx : List Nat) : (Spec.indexName idx).toList =
    '[' :: ([','].intercalate (idx.map fun i => (toString i).toList) ++ [']']) := by
  simp [Spec.indexName, String.toList_append, String.toList_intercalate, List.map_map, Function.comp_def]

theorem nameChar_indexName {idx : List Nat} {c : Char} (h : c ∈ (Spec.indexName idx).toList) : Spec.nameChar c := by
  rw [toList_indexName] at h
  simp only [List.mem_cons, List.mem_append, List.not_mem_nil, or_false] at h
  rcases h with h | h | h
  · exact Or.inr (Or.inl h)
  · rcases mem_intercalate h with h | ⟨y, hy, h⟩
    · simp at h; exact Or.inr (Or.inr (Or.inl h))
    · obtain ⟨i, _, rfl⟩ := List.mem_map.mp hy
      exact nameChar_toString h
  · exact Or.inr (Or.inr (Or.inr h))

theorem indexName_inj {i j : List Nat} (hl : i.length = j.length) (h : Spec.indexName i = Spec.indexName j) : i = j := by
  have h1 := congrArg String.toList h
  rw [toList_indexName, toList_indexName, List.cons.injEq, List.append_cancel_right_eq] at h1
  replace h1 := h1.2
  have hc : ∀ (l : List Nat), ∀ s ∈ l.map fun i => (toString i).toList, ',' ∉ s := by
    intro l s hs hc
    obtain ⟨n, _, rfl⟩ := List.mem_map.mp hs
    have := digit_of_mem hc
    simp at this
  by_cases hi : i = []
  · subst hi
    exact (List.length_eq_zero_iff.mp hl.symm).symm
  · have hj : j ≠ [] := fun e => hi (List.length_eq_zero_iff.mp (by rw [hl, e]; rfl))
    have e1 := List.splitOn_intercalate (ls := i.map fun i => (toString i).toList) ',' (hc i) (by simpa using hi)
    have e2 := List.splitOn_intercalate (ls := j.map fun i => (toString i).toList) ',' (hc j) (by simpa using hj)
    rw [h1, e2] at e1
    refine List.map_injective_iff.mpr ?_ e1.symm
    intro m n hmn
    exact toString_inj (String.toList_inj.mp hmn)

/-! ### Results of `flat_names` -/

theorem numeric_names (s : List Nat) : Numeric.flatNames s = (productRanges s).map Spec.indexName := rfl

theorem productRanges_nodup (s : List Nat) : (productRanges s).Nodup := by
  have := map_ravel_productRanges s
  have h2 : ((productRanges s).map (ravel s)).Nodup := by rw [this]; exact List.nodup_range
  exact List.Nodup.of_map _ h2

theorem productRanges_length {s idx : List Nat} (h : idx ∈ productRanges s) : idx.length = s.length := by
  induction s generalizing idx with
  | nil => simp [productRanges] at h; simp [h]
  | cons n s ih =>
    simp only [productRanges, List.mem_flatMap, List.mem_range, List.mem_map] at h
    obtain ⟨i, _, j, hj, rfl⟩ := h
    simp [ih hj]

theorem names_dict {es l fd free delim} {names : List String} :
    (Pattern.dict es l fd).flatNames free delim = .ok names ↔
      es ≠ .nil ∧ ∃ parts, flatNamesEs es free delim = .ok parts ∧ names = parts.flatten := by
  rw [flatNames]
  constructor
  · intro h
    obtain ⟨parts, h1, h2⟩ := bind_ok h
    refine ⟨?_, parts, h1, ?_⟩
    · rintro rfl
      simp only [flatNamesEs, Except.ok.injEq] at h1
      subst h1; simp at h2
    · cases parts with
      | nil => simp at h2
      | cons a r => simp only [pure, Except.pure, Except.ok.injEq] at h2; exact h2.symm
  · rintro ⟨hne, parts, h1, rfl⟩
    simp only [h1, bind, Except.bind]
    cases parts with
    | nil =>
      exfalso
      cases es with
      | nil => exact hne rfl
      | cons k p r =>
        rw [flatNamesEs] at h1
        obtain ⟨a, _, h1⟩ := bind_ok h1
        obtain ⟨b, _, h1⟩ := bind_ok h1
        simp [pure, Except.pure] at h1
    | cons a r => rfl

/-- `flat_names` of anything but a dictionary. -/
theorem names_leaf {p : Pattern} (hd : p.isDict = false) {free : Bool} {delim : String} :
    p.flatNames (some free) delim = .ok ((match p with
      | .numeric _ s _ _ _ _ => (productRanges s).map Spec.indexName
      | _ => (List.range (p.flatLen free)).map toString)) := by
  cases p with
  | dict => simp [isDict] at hd
  | _ => simp [flatNames, numeric_names, freeWithDefault, bind, Except.bind, pure, Except.pure]

theorem names_length (free : Bool) (p : Pattern) : ∀ delim names, p.flatNames (some free) delim = .ok names →
    names.length = p.flatLen free := by
  induction p using Pattern.ind
    (Q := fun es => ∀ delim parts, flatNamesEs es (some free) delim = .ok parts →
      parts.flatten.length = flatLenEs es free) with
  | hnum c s lb ub dv fd =>
    intro delim names h
    rw [names_leaf rfl, Except.ok.injEq] at h; subst h
    simp [length_productRanges, flatLen]
  | hsim k s dv fd => intro delim names h; rw [names_leaf rfl, Except.ok.injEq] at h; subst h; simp
  | hpsd n lb dv fd => intro delim names h; rw [names_leaf rfl, Except.ok.injEq] at h; subst h; simp
  | harr s q fd ih => intro delim names h; rw [names_leaf rfl, Except.ok.injEq] at h; subst h; simp
  | hdict es l fd ih =>
    intro delim names h
    obtain ⟨_, parts, h1, rfl⟩ := names_dict.mp h
    rw [ih delim parts h1, flatLen]
  | hnil delim parts h => simp only [flatNamesEs, Except.ok.injEq] at h; subst h; rfl
  | hcons k p r ihp ihr delim parts h =>
    rw [flatNamesEs] at h
    obtain ⟨a, h1, h⟩ := bind_ok h
    obtain ⟨b, h2, h⟩ := bind_ok h
    simp only [pure, Except.pure, Except.ok.injEq] at h; subst h
    simp only [List.flatten_cons, List.length_append, List.length_map, flatLenEs]
    rw [ihp _ _ h1, ihr _ _ h2]

theorem names_defined (free : Bool) (p : Pattern) : p.NoEmpty → ∀ delim, ∃ names, p.flatNames (some free) delim = .ok names := by
  induction p using Pattern.ind
    (Q := fun es => NoEmptyEs es → ∀ delim, ∃ parts, flatNamesEs es (some free) delim = .ok parts) with
  | hnum => intro _ delim; exact ⟨_, names_leaf rfl⟩
  | hsim => intro _ delim; exact ⟨_, names_leaf rfl⟩
  | hpsd => intro _ delim; exact ⟨_, names_leaf rfl⟩
  | harr => intro _ delim; exact ⟨_, names_leaf rfl⟩
  | hdict es l fd ih =>
    intro hne delim
    simp only [NoEmpty] at hne
    obtain ⟨parts, h⟩ := ih hne.2 delim
    exact ⟨_, names_dict.mpr ⟨hne.1, parts, h, rfl⟩⟩
  | hnil _ delim => exact ⟨[], rfl⟩
  | hcons k p r ihp ihr hne delim =>
    simp only [NoEmptyEs] at hne
    obtain ⟨a, h1⟩ := ihp hne.1 "_"
    obtain ⟨b, h2⟩ := ihr hne.2 delim
    exact ⟨_, by rw [flatNamesEs, h1, h2]; rfl⟩

/-- **C39.**  For every pattern obtainable through the API and explicit `free`: whenever `flat_names(free)` returns, it
returns exactly `flat_length(free)` names; and it returns for every pattern with no empty container inside. -/
theorem C39_names_length {p : Pattern} (free : Bool) (delim : String) :
    (∀ names, p.flatNames (some free) delim = .ok names → p.flatLength (some free) = .ok names.length) ∧
      (p.NoEmpty → ∃ names, p.flatNames (some free) delim = .ok names) :=
  ⟨fun names h => by rw [flatLength_some, names_length free p delim names h], fun h => names_defined free p h delim⟩

/-- C39 is not vacuous: the nested example has eleven free names. -/
example : ∃ names, exPat.flatNames (some true) "_" = .ok names ∧ names.length = 11 := by
  obtain ⟨names, h⟩ := (C39_names_length (p := exPat) true "_").2 exPat_noEmpty
  have := (C39_names_length (p := exPat) true "_").1 names h
  rw [exPat_lengths.1] at this
  exact ⟨names, h, (by injection this with e; exact e.symm)⟩

/-- **C39, numeric arrays.**  The name at the flat position of a multi-index is that multi-index in brackets. -/
theorem C39_numeric_names (c : NumCls) (s : List Nat) (lb ub : PyNum) (dv : Bool) (fd free : Option Bool) (delim : String) :
    ∃ names, (Pattern.numeric c s lb ub dv fd).flatNames free delim = .ok names ∧
      ∀ idx, Spec.MultiIndex s idx → names[Spec.rank s idx]? = some (Spec.indexName idx) := by
  refine ⟨_, by rw [flatNames], fun idx h => ?_⟩
  rw [numeric_names, rank_eq_ravel h, List.getElem?_map]
  have hlt := ravel_lt h
  have hmem := multiIndex_mem h
  obtain ⟨j, hj, e⟩ := List.getElem_of_mem hmem
  have hj' : ravel s ((productRanges s)[j]) = j := by
    have h1 : ((productRanges s).map (ravel s))[j]? = (List.range s.prod)[j]? := by rw [map_ravel_productRanges]
    rw [List.getElem?_map, List.getElem?_eq_getElem hj] at h1
    have hjp : j < s.prod := by rw [← length_productRanges]; exact hj
    simpa [hjp] using h1
  rw [e] at hj'
  rw [hj', List.getElem?_eq_getElem hj, e]; rfl

example : Spec.MultiIndex [2, 3] [1, 2] ∧ Spec.rank [2, 3] [1, 2] = 5 := by
  constructor
  · simp [Spec.MultiIndex]
  · rfl

/-- **C39, other leaves and pattern arrays.**  Coordinate `i` is called `str(i)`. -/
theorem C39_counted_names {p : Pattern} (hd : p.isDict = false) (hn : ∀ c s lb ub dv fd, p ≠ .numeric c s lb ub dv fd)
    (free : Bool) (delim : String) : ∃ names n, p.flatNames (some free) delim = .ok names ∧
      p.flatLength (some free) = .ok n ∧ ∀ i < n, names[i]? = some (toString i) := by
  refine ⟨_, _, names_leaf hd, flatLength_some _ _, fun i hi => ?_⟩
  cases p with
  | numeric c s lb ub dv fd => exact absurd rfl (hn _ _ _ _ _ _)
  | dict => simp [isDict] at hd
  | _ => simp [hi]

example : (Pattern.simplex 3 [2] true none).flatNames (some true) "_" = .ok ["0", "1", "2", "3"] := by
  rw [names_leaf rfl]
  simp [flatLen, List.range_succ]
  exact ⟨rfl, rfl, rfl, rfl⟩

/-- **C39, dictionaries.**  The names of a member stand where its coordinates stand in the flat vector, each prefixed
with the member's key and the delimiter. -/
theorem C39_dict_names {es : Entries} {l : Bool} {fd : Option Bool} {free : Bool} {delim : String} {names : List String}
    (h : (Pattern.dict es l fd).flatNames (some free) delim = .ok names)
    {pre : List (String × Pattern)} {k : String} {q : Pattern} {post : List (String × Pattern)}
    (he : es.toList = pre ++ (k, q) :: post) :
    ∃ A qn B, q.flatNames (some free) "_" = .ok qn ∧ names = A ++ qn.map (k ++ delim ++ ·) ++ B ∧
      List.Forall₂ (fun (kp : String × Pattern) n => kp.2.flatLength (some free) = .ok n) pre
        (pre.map fun kp => kp.2.flatLen free) ∧ A.length = (pre.map fun kp => kp.2.flatLen free).sum := by
  obtain ⟨hne, parts, h1, rfl⟩ := names_dict.mp h
  clear h hne
  have hF : ∀ pre : List (String × Pattern), List.Forall₂ (fun (kp : String × Pattern) n => kp.2.flatLength (some free) = .ok n) pre
        (pre.map fun kp => kp.2.flatLen free) := by
    intro pre
    induction pre with
    | nil => simp
    | cons a r ih => simp only [List.map_cons, List.forall₂_cons]; exact ⟨flatLength_some _ _, ih⟩
  suffices ∃ A qn B, q.flatNames (some free) "_" = .ok qn ∧ parts.flatten = A ++ qn.map (k ++ delim ++ ·) ++ B ∧
      A.length = (pre.map fun kp => kp.2.flatLen free).sum by
    obtain ⟨A, qn, B, h2, h3, h4⟩ := this
    exact ⟨A, qn, B, h2, h3, hF pre, h4⟩
  induction pre generalizing es parts with
  | nil =>
    cases es with
    | nil => simp [Entries.toList] at he
    | cons k0 p0 r =>
      simp only [Entries.toList, List.nil_append, List.cons.injEq, Prod.mk.injEq] at he
      obtain ⟨⟨rfl, rfl⟩, _⟩ := he
      rw [flatNamesEs] at h1
      obtain ⟨a, h2, h1⟩ := bind_ok h1
      obtain ⟨b, h3, h1⟩ := bind_ok h1
      simp only [pure, Except.pure, Except.ok.injEq] at h1; subst h1
      exact ⟨[], a, b.flatten, h2, by simp, rfl⟩
  | cons kp pre ih =>
    cases es with
    | nil => simp [Entries.toList] at he
    | cons k0 p0 r =>
      simp only [Entries.toList, List.cons_append, List.cons.injEq] at he
      obtain ⟨rfl, he⟩ := he
      rw [flatNamesEs] at h1
      obtain ⟨a, h2, h1⟩ := bind_ok h1
      obtain ⟨b, h3, h1⟩ := bind_ok h1
      simp only [pure, Except.pure, Except.ok.injEq] at h1; subst h1
      obtain ⟨A, qn, B, h4, h5, h6⟩ := ih he b h3
      refine ⟨a.map (k0 ++ delim ++ ·) ++ A, qn, B, h4, by simp [h5, List.append_assoc], ?_⟩
      simp [h6, names_length free p0 "_" a h2]

/-- `C39_dict_names` is not vacuous: the last member of the nested example. -/
example : ∃ names pre post, exPat.flatNames (some false) "_" = .ok names ∧ pre ≠ [] ∧
    (match exPat with | .dict es _ _ => es.toList | _ => []) = pre ++ ("d", exInner) :: post := by
  obtain ⟨names, h⟩ := (C39_names_length (p := exPat) false "_").2 exPat_noEmpty
  refine ⟨names, [("v", .numeric .vector [3] (.flt .ninf) (.flt .pinf) true (some false)),
    ("a", .array [2] (.simplex 3 [] true none) none)], [], h, List.cons_ne_nil _ _, ?_⟩
  rw [exPat]; rfl

/-! ### Distinctness -/

theorem append_last_split {c : Char} {a a' b b' : List Char} (hb : c ∉ b) (hb' : c ∉ b')
    (h : a ++ c :: b = a' ++ c :: b') : a = a' ∧ b = b' := by
  rw [List.append_eq_append_iff] at h
  rcases h with ⟨l, h1, h2⟩ | ⟨l, h1, h2⟩
  · cases l with
    | nil => simp at h1 h2; exact ⟨h1.symm, h2⟩
    | cons x l => simp at h2; exact absurd (by rw [h2.2]; simp) hb
  · cases l with
    | nil => simp at h1 h2; exact ⟨h1, h2.symm⟩
    | cons x l => simp at h2; exact absurd (by rw [h2.2]; simp) hb'

theorem append_first_split {c : Char} {a a' b b' : List Char} (ha : c ∉ a) (ha' : c ∉ a')
    (h : a ++ c :: b = a' ++ c :: b') : a = a' ∧ b = b' := by
  rw [List.append_eq_append_iff] at h
  rcases h with ⟨l, h1, h2⟩ | ⟨l, h1, h2⟩
  · cases l with
    | nil => simp at h1 h2; exact ⟨h1.symm, h2⟩
    | cons x l => simp at h2; exact absurd (by rw [h1, h2.1]; simp) ha'
  · cases l with
    | nil => simp at h1 h2; exact ⟨h1, h2.symm⟩
    | cons x l => simp at h2; exact absurd (by rw [h1, h2.1]; simp) ha

theorem leaf_names_nodup {p : Pattern} (hd : p.isDict = false) {free : Bool} {delim} {names}
    (h : p.flatNames (some free) delim = .ok names) : names.Nodup ∧ ∀ t ∈ names, ∀ c ∈ t.toList, Spec.nameChar c := by
  rw [names_leaf hd, Except.ok.injEq] at h
  subst h
  have hc : ∀ n, ((List.range n).map toString).Nodup ∧ ∀ t ∈ (List.range n).map toString, ∀ c ∈ t.toList, Spec.nameChar c := by
    intro n
    refine ⟨List.Nodup.map (fun _ _ h => toString_inj h) List.nodup_range, fun t ht c hc => ?_⟩
    obtain ⟨i, _, rfl⟩ := List.mem_map.mp ht
    exact nameChar_toString hc
  cases p with
  | dict => simp [isDict] at hd
  | numeric c s lb ub dv fd =>
    refine ⟨List.Nodup.map_on (fun i hi j hj h => ?_) (productRanges_nodup s), fun t ht c hc => ?_⟩
    · exact indexName_inj (by rw [productRanges_length hi, productRanges_length hj]) h
    · obtain ⟨i, _, rfl⟩ := List.mem_map.mp ht
      exact nameChar_indexName hc
  | _ => exact hc _

/-- Names of the members, abstractly: distinct when a name determines its key and the member's own name. -/
theorem namesEs_nodup {free : Bool} {delim : String} (P : String → String → Prop)
    (hinj : ∀ k k' t t', P k t → P k' t' → k ++ delim ++ t = k' ++ delim ++ t' → k = k' ∧ t = t') :
    ∀ {es : Entries} {parts}, es.keys.Nodup →
      (∀ k q, (k, q) ∈ es.toList → ∀ qn, q.flatNames (some free) "_" = .ok qn → qn.Nodup ∧ ∀ t ∈ qn, P k t) →
      flatNamesEs es (some free) delim = .ok parts → parts.flatten.Nodup ∧
        ∀ s ∈ parts.flatten, ∃ k ∈ es.keys, ∃ t, P k t ∧ s = k ++ delim ++ t := by
  intro es
  induction es using Entries.rec (motive_1 := fun _ => True) with
  | nil => intro parts _ _ h; simp only [flatNamesEs, Except.ok.injEq] at h; subst h; simp
  | cons k p r _ ih =>
    intro parts hnd hq h
    obtain ⟨hk, hnd⟩ := nodup_keys_cons hnd
    rw [flatNamesEs] at h
    obtain ⟨a, h1, h⟩ := bind_ok h
    obtain ⟨b, h2, h⟩ := bind_ok h
    simp only [pure, Except.pure, Except.ok.injEq] at h; subst h
    obtain ⟨g1, g2⟩ := hq k p (by simp [Entries.toList]) a h1
    obtain ⟨i1, i2⟩ := ih hnd (fun k' q' hm => hq k' q' (by simp [Entries.toList, hm])) h2
    rw [List.flatten_cons]
    refine ⟨?_, ?_⟩
    · rw [List.nodup_append]
      refine ⟨?_, i1, ?_⟩
      · refine List.Nodup.map_on (fun t ht t' ht' e => ?_) g1
        exact (hinj _ _ _ _ (g2 t ht) (g2 t' ht') e).2
      · rintro x hx y hy rfl
        obtain ⟨t, ht, rfl⟩ := List.mem_map.mp hx
        obtain ⟨k', hk', t', hp', e⟩ := i2 _ hy
        obtain ⟨rfl, _⟩ := hinj _ _ _ _ (g2 t ht) hp' e
        exact hk hk'
    · intro s hs
      rcases List.mem_append.mp hs with hs | hs
      · obtain ⟨t, ht, rfl⟩ := List.mem_map.mp hs
        exact ⟨k, by simp [Entries.keys, Entries.toList], t, g2 t ht, rfl⟩
      · obtain ⟨k', hk', t, hp, e⟩ := i2 s hs
        exact ⟨k', by simp only [Entries.keys, Entries.toList, List.map_cons, List.mem_cons]; exact Or.inr hk', t, hp, e⟩
  | _ => trivial

/-- **C40, leaves and arrays.**  The names of a numeric, simplex, PSD or array pattern are distinct. -/
theorem C40_leaf_distinct {p : Pattern} (hd : p.isDict = false) {free : Bool} {delim : String} {names : List String}
    (h : p.flatNames (some free) delim = .ok names) : names.Nodup := (leaf_names_nodup hd h).1

example : ∃ names, (Pattern.numeric .array [2, 3] (.flt .ninf) (.flt .pinf) true none).flatNames (some true) "_" = .ok names ∧
    names.length = 6 := ⟨_, names_leaf rfl, by simp [length_productRanges]⟩

/-- **C40, dictionaries one level deep.**  For a dictionary none of whose members is a dictionary, the names are
distinct whatever the keys are, as long as the delimiter has some character that is not a digit, bracket or comma; the
default `"_"` is such a delimiter. -/
theorem C40_flat_dict_distinct {es : Entries} {l : Bool} {fd : Option Bool} (hp : Built (.dict es l fd))
    (hm : ∀ k q, (k, q) ∈ es.toList → q.isDict = false) {delim : String} {c : Char} (hc : c ∈ delim.toList)
    (hc' : ¬ Spec.nameChar c) {free : Bool} {names : List String}
    (h : (Pattern.dict es l fd).flatNames (some free) delim = .ok names) : names.Nodup := by
  obtain ⟨_, parts, h1, rfl⟩ := names_dict.mp h
  have hw := hp.wf
  simp only [Pattern.WF] at hw
  refine (namesEs_nodup (fun _ t => ∀ c ∈ t.toList, Spec.nameChar c) ?_ hw.1 ?_ h1).1
  · intro k k' t t' ht ht' e
    have e := congrArg String.toList e
    simp only [String.toList_append] at e
    obtain ⟨d1, d2, hd, hd2⟩ : ∃ d1 d2, delim.toList = d1 ++ c :: d2 ∧ c ∉ d2 := by
      have := List.eq_append_cons_of_mem (a := c) (xs := delim.toList.reverse) (by simpa using hc)
      obtain ⟨u, v, h1, h2⟩ := this
      refine ⟨v.reverse, u.reverse, ?_, by simpa using h2⟩
      have := congrArg List.reverse h1
      simpa using this
    have hn : ∀ t : String, (∀ c ∈ t.toList, Spec.nameChar c) → c ∉ d2 ++ t.toList := by
      intro t ht hm
      rcases List.mem_append.mp hm with hm | hm
      · exact hd2 hm
      · exact hc' (ht c hm)
    rw [hd] at e
    simp only [List.append_assoc, List.cons_append] at e
    rw [← List.append_assoc, ← List.append_assoc] at e
    obtain ⟨e1, e2⟩ := append_last_split (hn t ht) (hn t' ht') e
    rw [List.append_cancel_right_eq] at e1
    rw [List.append_cancel_left_eq] at e2
    exact ⟨String.toList_inj.mp e1, String.toList_inj.mp e2⟩
  · intro k q hmem qn hq
    exact leaf_names_nodup (hm k q hmem) hq

/-- The default delimiter qualifies, and the example has two members with awkward keys. -/
example : '_' ∈ "_".toList ∧ ¬ Spec.nameChar '_' ∧
    Built (.dict (.cons "a" (.simplex 3 [] true none) (.cons "a_1" (.simplex 2 [] true none) .nil)) false none) := by
  refine ⟨by decide, by simp [Spec.nameChar], WF.built _ ?_⟩
  simp [Pattern.WF, WFEs, Entries.keys, Entries.toList, lock, isDict]

/-- **C40, nested dictionaries.**  For dictionaries nested to any depth whose keys contain no underscore, the names
(with the default delimiter) are distinct. -/
theorem C40_nested_distinct {p : Pattern} (hp : Built p) (hk : Spec.KeysAvoid '_' p) {free : Bool} {names : List String}
    (h : p.flatNames (some free) "_" = .ok names) : names.Nodup := by
  have hw := hp.wf
  clear hp
  revert names hw hk
  induction p using Pattern.ind
    (Q := fun es => WFEs es → Spec.KeysAvoidEs '_' es → ∀ k q, (k, q) ∈ es.toList →
      '_' ∉ k.toList ∧ ∀ qn, q.flatNames (some free) "_" = .ok qn → qn.Nodup) with
  | hdict es l fd ih =>
    intro hk names h hw
    obtain ⟨_, parts, h1, rfl⟩ := names_dict.mp h
    simp only [Pattern.WF] at hw
    have ih := ih hw.2 hk
    refine (namesEs_nodup (fun k _ => '_' ∉ k.toList) ?_ hw.1 ?_ h1).1
    · intro k k' t t' hk hk' e
      have e := congrArg String.toList e
      simp only [String.toList_append, List.append_assoc] at e
      obtain ⟨e1, e2⟩ := append_first_split hk hk' e
      exact ⟨String.toList_inj.mp e1, String.toList_inj.mp e2⟩
    · intro k q hm qn hq
      obtain ⟨g1, g2⟩ := ih k q hm
      exact ⟨g2 qn hq, fun _ _ => g1⟩
  | hnil _ _ k q hm => simp [Entries.toList] at hm
  | hcons k0 p0 r ihp ihr hw hk k q hm =>
    simp only [WFEs] at hw
    simp only [Spec.KeysAvoidEs] at hk
    simp only [Entries.toList, List.mem_cons, Prod.mk.injEq] at hm
    rcases hm with ⟨rfl, rfl⟩ | hm
    · exact ⟨hk.1, fun qn hq => ihp hk.2.1 hq hw.1⟩
    · exact ihr hw.2.2 hk.2.2 k q hm
  | _ => intro _ names h _; exact (leaf_names_nodup rfl h).1

/-- C40 for nested dictionaries is not vacuous. -/
example : Spec.KeysAvoid '_' exPat := by
  simp [exPat, exInner, Spec.KeysAvoid, Spec.KeysAvoidEs]

/-- **C40, the exception.**  With underscores in keys nested dictionaries can give two coordinates the same name:
`{"a": {"b_c": x}, "a_b": {"c": x}}`. -/
theorem C40_collision : ∃ (p : Pattern) (names : List String), Built p ∧ p.flatNames (some true) "_" = .ok names ∧
    ¬ names.Nodup := by
  let x : Pattern := .numeric .scalar [1] (.flt .ninf) (.flt .pinf) true none
  refine ⟨.dict (.cons "a" (.dict (.cons "b_c" x .nil) true none) (.cons "a_b" (.dict (.cons "c" x .nil) true none) .nil))
    false none, ["a_b_c_[0]", "a_b_c_[0]"], WF.built _ ?_, ?_, by simp⟩
  · simp [x, Pattern.WF, WFEs, Entries.keys, Entries.toList, lock, isDict, PyNum.toFlt, Flt.lt]
  · have e : Numeric.flatNames [1] = ["[0]"] := by rfl
    simp only [x, flatNames, flatNamesEs, e, bind, Except.bind, pure, Except.pure]
    rfl

/-! ### C69: names and the default value of `free` -/

/-- **C69, partial.**  The full statement — `flat_names(free=None)` names the coordinates of `flatten(v, free=None)` —
holds for every pattern that is not a dictionary.  For dictionaries it fails, see `C69_dict_default_ignored`. -/
theorem C69_default_names_partial {p : Pattern} (hd : p.isDict = false) (hp : Built p) {v : Val Flt} (hv : v.WF)
    {vv : Option Bool} {x : NDArray Flt} (h : p.flatten v none vv = .ok x) (delim : String) :
    ∃ names, p.flatNames none delim = .ok names ∧ names.length = x.data.length := by
  obtain ⟨n, h1, _, h3⟩ := C06_flatten_length hp hv h
  rcases freeWithDefault_cases p.freeDefault none with ⟨b, hb, hbb⟩ | ⟨h1', _⟩
  · obtain ⟨_, _, e3⟩ := hbb p rfl (vec []) v vv
    rw [e3, flatLength_some] at h1
    injection h1 with h1
    have hn : p.flatNames none delim = p.flatNames (some b) delim := by
      cases p with
      | dict => simp [isDict] at hd
      | numeric => simp [flatNames]
      | _ => simp only [flatNames, freeDefault] at hb ⊢; rw [hb]; rfl
    refine ⟨_, by rw [hn, names_leaf hd], ?_⟩
    have := names_length b p delim _ (names_leaf hd)
    rw [this, h1, h3]
  · simp [Pattern.flatten, freeWithDefault, h1', bind, Except.bind] at h

example : ∃ (v : Val Flt) (x : NDArray Flt), v.WF ∧
    (Pattern.numeric .vector [2] (.flt .ninf) (.flt .pinf) true (some true)).flatten v none none = .ok x := by
  have hw : (Pattern.numeric .vector [2] (.flt .ninf) (.flt .pinf) true (some true)).WF := by
    simp [Pattern.WF, PyNum.toFlt, Flt.lt]
  obtain ⟨v, h1, _, h3, _, h5⟩ := free_vec _ hw (by simp [FiniteLb]) [0, 0] (by simp [flatLen])
  exact ⟨v, _, h3, h5 (by simp [NoEmpty]) none⟩

/-- **C69, the failure.**  A dictionary ignores its own `free_default` when it makes names: for
`PatternDict(free_default=True)` holding a simplex with `free_default=False`, `flat_names(None)` returns three names
though `flat_length(None)` is two, and with no default on the member it raises although `flat_length(None)` is defined. -/
theorem C69_dict_default_ignored :
    (∃ (p : Pattern) (names : List String), Built p ∧ p.flatNames none "_" = .ok names ∧ names.length = 3 ∧
      p.flatLength none = .ok 2) ∧
    ∃ (p : Pattern) (e : Err), Built p ∧ p.flatNames none "_" = .error e ∧ p.flatLength none = .ok 2 := by
  refine ⟨⟨.dict (.cons "s" (.simplex 3 [] true (some false)) .nil) false (some true), ["s_0", "s_1", "s_2"],
    WF.built _ ?_, ?_, rfl, ?_⟩, ⟨.dict (.cons "s" (.simplex 3 [] true none) .nil) false (some true),
    .valueError "If ``free_default`` is ``None``, ``free`` must be specified.",
    WF.built _ ?_, ?_, ?_⟩⟩
  · simp [Pattern.WF, WFEs, Entries.keys, Entries.toList, lock, isDict]
  · have e : (List.range ((Pattern.simplex 3 [] true (some false)).flatLen false)).map toString = ["0", "1", "2"] := by
      simp only [flatLen]; rfl
    simp only [flatNames, flatNamesEs, freeWithDefault, bind, Except.bind, pure, Except.pure, e]
    rfl
  · simp [flatLength, freeWithDefault, freeDefault, flatLen, flatLenEs, bind, Except.bind, pure, Except.pure]
  · simp [Pattern.WF, WFEs, Entries.keys, Entries.toList, lock, isDict]
  · simp only [flatNames, flatNamesEs, freeWithDefault, bind, Except.bind, pure, Except.pure]
  · simp [flatLength, freeWithDefault, freeDefault, flatLen, flatLenEs, bind, Except.bind, pure, Except.pure]

end Paragami
