import Verif.Model.Protocols
import Verif.Proofs.KeysBuilt

/-!
# Python's protocols and `PatternDict` (C135)
-/

namespace Paragami.Protocols
open Spec Keys

section generic
variable {A : Type} {get : Key → Except Exc A}

theorem iterates_unique {i : ℕ} {l l' : List A} {r r' : Option Exc} (h : Iterates get i l r) (h' : Iterates get i l' r') : l = l' ∧ r = r' := by
  induction h generalizing l' r' with
  | stop h he =>
    cases h' with
    | stop => simp
    | fail g ge => rw [h] at g; cases g; exact absurd he ge
    | next g => rw [h] at g; cases g
  | fail h he =>
    cases h' with
    | stop g ge => rw [h] at g; cases g; exact absurd ge he
    | fail g ge => rw [h] at g; cases g; simp
    | next g => rw [h] at g; cases g
  | next h hr ih =>
    cases h' with
    | stop g => rw [h] at g; cases g
    | fail g => rw [h] at g; cases g
    | next g gr => rw [h] at g; cases g; obtain ⟨rfl, rfl⟩ := ih gr; simp

theorem contains_unique {same : A → Except Err Bool} {i : ℕ} {r r' : Except Exc Bool} (h : Contains get same i r) (h' : Contains get same i r') :
    r = r' := by
  induction h generalizing r' with
  | stop h he =>
    cases h' with
    | stop => rfl
    | fail g ge => rw [h] at g; cases g; exact absurd he ge
    | found g => rw [h] at g; cases g
    | raised g => rw [h] at g; cases g
    | next g => rw [h] at g; cases g
  | fail h he =>
    cases h' with
    | stop g ge => rw [h] at g; cases g; exact absurd ge he
    | fail g => rw [h] at g; cases g; rfl
    | found g => rw [h] at g; cases g
    | raised g => rw [h] at g; cases g
    | next g => rw [h] at g; cases g
  | found h hs =>
    cases h' with
    | stop g => rw [h] at g; cases g
    | fail g => rw [h] at g; cases g
    | found => rfl
    | raised g gs => rw [h] at g; cases g; rw [hs] at gs; cases gs
    | next g gs => rw [h] at g; cases g; rw [hs] at gs; cases gs
  | raised h hs =>
    cases h' with
    | stop g => rw [h] at g; cases g
    | fail g => rw [h] at g; cases g
    | found g gs => rw [h] at g; cases g; rw [hs] at gs; cases gs
    | raised g gs => rw [h] at g; cases g; rw [hs] at gs; cases gs; rfl
    | next g gs => rw [h] at g; cases g; rw [hs] at gs; cases gs
  | next h hs hr ih =>
    cases h' with
    | stop g => rw [h] at g; cases g
    | fail g => rw [h] at g; cases g
    | found g gs => rw [h] at g; cases g; rw [hs] at gs; cases gs
    | raised g gs => rw [h] at g; cases g; rw [hs] at gs; cases gs
    | next g gs gr => exact ih gr

end generic

theorem get?_eq_none (k : Key) : ∀ es : KEntries, es.get? k = none ↔ ∀ k' ∈ es.keys, ¬ Equal k' k
  | .nil => by simp [KEntries.get?, KEntries.keys]
  | .cons k' p r => by
    rw [KEntries.get?, KEntries.keys]
    split_ifs with h
    · simp [equal_iff, h]
    · simp [equal_iff, h, get?_eq_none k r]

/-- One of the integers from 0 on is no key: there are only so many keys. -/
theorem exists_missing (es : KEntries) : ∃ n : ℕ, ∀ k ∈ es.keys, ¬ Equal k (.int n) := by
  by_contra h
  push Not at h
  have hs : ∀ n : ℕ, KeyValue.num n ∈ es.keys.map Key.value := fun n => by
    obtain ⟨k, hk, he⟩ := h n
    exact List.mem_map.2 ⟨k, hk, by rw [equal_iff.1 he]; simp [Key.value]⟩
  have hinj : Function.Injective (fun n : ℕ => KeyValue.num n) := fun a b hab => by
    simpa using hab
  exact Set.infinite_range_of_injective hinj ((es.keys.map Key.value).finite_toSet.subset (by rintro _ ⟨n, rfl⟩; exact hs n))

/-- **C135.**  Going through a `PatternDict` with `for`, `list`, unpacking and the like always ends with `KeyError`.  With `n` the least
natural number that is not a key (as `1.0` and `True` are the key 1), the members with keys 0, …, n − 1 are produced, and then
`KeyError(n)` is raised. -/
theorem C135_iterate (es : KEntries) : ∃ n : ℕ, (∀ k ∈ es.keys, ¬ Equal k (.int n)) ∧ (∀ i < n, ∃ k ∈ es.keys, Equal k (.int i)) ∧
    ∀ l r, Iterates (getItem es) 0 l r ↔
      r = some (.keyError (.int n)) ∧ l.length = n ∧ ∀ i < n, (l[i]?).map Except.ok = some (getItem es (.int i)) := by
  classical
  have hex := exists_missing es
  refine ⟨Nat.find hex, Nat.find_spec hex, fun i hi => ?_, ?_⟩
  · have := Nat.find_min hex hi
    push Not at this
    exact this
  set n := Nat.find hex with hn
  have hget : ∀ i < n, ∃ p, getItem es (.int i) = .ok p := fun i hi => by
    have := Nat.find_min hex hi
    push Not at this
    obtain ⟨k, hk, he⟩ := this
    cases hg : es.get? (.int i) with
    | none => exact absurd he ((get?_eq_none _ _).1 hg k hk)
    | some p => exact ⟨p, by simp [getItem, hg]⟩
  have hlast : getItem es (.int n) = .error (.keyError (.int n)) := by
    simp [getItem, (get?_eq_none (.int n) es).2 (Nat.find_spec hex)]
  have key : ∀ m ≤ n, ∃ l, Iterates (getItem es) (n - m) l (some (.keyError (.int n))) ∧ l.length = m ∧
      ∀ i < m, (l[i]?).map Except.ok = some (getItem es (.int ((n - m + i : ℕ) : ℤ))) := by
    intro m
    induction m with
    | zero => exact fun _ => ⟨[], .fail (by simpa using hlast) (by simp), rfl, by simp⟩
    | succ m ih =>
      intro hm
      obtain ⟨l, h1, h2, h3⟩ := ih (by omega)
      obtain ⟨p, hp⟩ := hget (n - (m + 1)) (by omega)
      have e : n - (m + 1) + 1 = n - m := by omega
      refine ⟨p :: l, .next hp (e ▸ h1), by simp [h2], fun i hi => ?_⟩
      cases i with
      | zero => simp [hp]
      | succ i =>
        rw [show n - (m + 1) + (i + 1) = n - m + i by omega, List.getElem?_cons_succ]
        exact h3 i (by omega)
  obtain ⟨l, h1, h2, h3⟩ := key n le_rfl
  rw [Nat.sub_self] at h1
  intro l' r'
  constructor
  · intro h
    obtain ⟨rfl, rfl⟩ := iterates_unique h1 h
    exact ⟨rfl, h2, fun i hi => by simpa using h3 i hi⟩
  · rintro ⟨rfl, g2, g3⟩
    have : l' = l := List.ext_getElem? fun i => by
      by_cases hi : i < n
      · have a := g3 i hi
        have b := h3 i hi
        rw [show n - n + i = i by omega] at b
        obtain ⟨p, hp⟩ := hget i hi
        rw [hp] at a b
        simp only [Option.map_eq_some_iff, Except.ok.injEq, exists_eq_right] at a b
        rw [a, b]
      · rw [List.getElem?_eq_none (by omega), List.getElem?_eq_none (by omega)]
    exact this ▸ h1

/-- **C135.**  `x in d` is never `False`.  It is `True` if one of the members with keys 0, …, n − 1 is or equals `x`, as long as no
comparison before raises; it raises what the first comparison raises; and if all of them differ from `x` it raises `KeyError(n)`, with `n`
as above.  `same` is how `x` compares with the members. -/
theorem C135_in (es : KEntries) (same : KPattern → Except Err Bool) : ∃ n : ℕ, (∀ k ∈ es.keys, ¬ Equal k (.int n)) ∧
    (∀ i < n, ∃ k ∈ es.keys, Equal k (.int i)) ∧ ∀ r, Contains (getItem es) same 0 r ↔
      (r = .error (.keyError (.int n)) ∧ ∀ i < n, ∀ p, getItem es (.int i) = .ok p → same p = .ok false) ∨
      ∃ i < n, ∃ p, getItem es (.int i) = .ok p ∧ (∀ j < i, ∀ q, getItem es (.int j) = .ok q → same q = .ok false) ∧
        ((r = .ok true ∧ same p = .ok true) ∨ ∃ e, r = .error (.other e) ∧ same p = .error e) := by
  obtain ⟨n, hn, hlt, -⟩ := C135_iterate es
  refine ⟨n, hn, hlt, ?_⟩
  have hget : ∀ i < n, ∃ p, getItem es (.int i) = .ok p := fun i hi => by
    obtain ⟨k, hk, he⟩ := hlt i hi
    cases hg : es.get? (.int i) with
    | none => exact absurd he ((get?_eq_none _ _).1 hg k hk)
    | some p => exact ⟨p, by simp [getItem, hg]⟩
  have hlast : getItem es (.int n) = .error (.keyError (.int n)) := by
    simp [getItem, (get?_eq_none (.int n) es).2 hn]
  have key : ∀ m ≤ n, ∀ r, ((r = .error (.keyError (.int n)) ∧ ∀ i < n, n - m ≤ i → ∀ p, getItem es (.int i) = .ok p → same p = .ok false) ∨
      ∃ i < n, n - m ≤ i ∧ ∃ p, getItem es (.int i) = .ok p ∧
        (∀ j < i, n - m ≤ j → ∀ q, getItem es (.int j) = .ok q → same q = .ok false) ∧
        ((r = .ok true ∧ same p = .ok true) ∨ ∃ e, r = .error (.other e) ∧ same p = .error e)) → Contains (getItem es) same (n - m) r := by
    intro m
    induction m with
    | zero =>
      rintro - r (⟨rfl, -⟩ | ⟨i, h1, h2, -⟩)
      · exact .fail (by simpa using hlast) (by simp)
      · omega
    | succ m ih =>
      intro hm r h
      have e : n - (m + 1) + 1 = n - m := by omega
      obtain ⟨p, hp⟩ := hget (n - (m + 1)) (by omega)
      rcases h with ⟨rfl, h⟩ | ⟨i, h1, h2, q, hq, h3, h4⟩
      · exact .next hp (h _ (by omega) le_rfl p hp) (e ▸ ih (by omega) _ (.inl ⟨rfl, fun i hi hi' => h i hi (by omega)⟩))
      · by_cases hi : i = n - (m + 1)
        · subst hi
          rcases h4 with ⟨rfl, h4⟩ | ⟨e', rfl, h4⟩
          · exact .found hq h4
          · exact .raised hq h4
        · exact .next hp (h3 _ (by omega) le_rfl p hp)
            (e ▸ ih (by omega) _ (.inr ⟨i, h1, by omega, q, hq, fun j hj hj' => h3 j hj (by omega), h4⟩))
  have tot : ∃ r : Except Exc Bool, (r = .error (.keyError (.int n)) ∧ ∀ i < n, ∀ p, getItem es (.int i) = .ok p → same p = .ok false) ∨
      ∃ i < n, ∃ p, getItem es (.int i) = .ok p ∧ (∀ j < i, ∀ q, getItem es (.int j) = .ok q → same q = .ok false) ∧
        ((r = .ok true ∧ same p = .ok true) ∨ ∃ e, r = .error (.other e) ∧ same p = .error e) := by
    classical
    by_cases h : ∃ i, i < n ∧ ∃ p, getItem es (.int i) = .ok p ∧ same p ≠ .ok false
    · obtain ⟨hi, p, hp, hs⟩ := Nat.find_spec h
      have hmin : ∀ j < Nat.find h, ∀ q, getItem es (.int j) = .ok q → same q = .ok false := fun j hj q hq => by
        by_contra hc
        exact Nat.find_min h hj ⟨by omega, q, hq, hc⟩
      cases hv : same p with
      | error e => exact ⟨_, .inr ⟨_, hi, p, hp, hmin, .inr ⟨e, rfl, hv⟩⟩⟩
      | ok b =>
        cases b with
        | false => exact absurd hv hs
        | true => exact ⟨_, .inr ⟨_, hi, p, hp, hmin, .inl ⟨rfl, hv⟩⟩⟩
    · push Not at h
      exact ⟨_, .inl ⟨rfl, fun i hi p hp => h i hi p hp⟩⟩
  have back : ∀ r : Except Exc Bool, ((r = .error (.keyError (.int n)) ∧ ∀ i < n, ∀ p, getItem es (.int i) = .ok p → same p = .ok false) ∨
      ∃ i < n, ∃ p, getItem es (.int i) = .ok p ∧ (∀ j < i, ∀ q, getItem es (.int j) = .ok q → same q = .ok false) ∧
        ((r = .ok true ∧ same p = .ok true) ∨ ∃ e, r = .error (.other e) ∧ same p = .error e)) → Contains (getItem es) same 0 r := by
    intro r h
    have := key n le_rfl r (by
      rcases h with ⟨h1, h2⟩ | ⟨i, h1, p, h2, h3, h4⟩
      · exact .inl ⟨h1, fun i hi _ => h2 i hi⟩
      · exact .inr ⟨i, h1, by omega, p, h2, fun j hj _ => h3 j hj, h4⟩)
    rwa [Nat.sub_self] at this
  intro r
  refine ⟨fun h => ?_, back r⟩
  obtain ⟨r', h'⟩ := tot
  rw [contains_unique h (back r' h')]
  exact h'

/-- **C135.**  With strings as keys, both raise `KeyError(0)` at once: also `k in d` for a key `k` of `d`. -/
theorem C135_strings {es : KEntries} (h : ∀ k ∈ es.keys, IsStr k) (same : KPattern → Except Err Bool) :
    (∀ l r, Iterates (getItem es) 0 l r ↔ l = [] ∧ r = some (.keyError (.int 0))) ∧
      ∀ r, Contains (getItem es) same 0 r ↔ r = .error (.keyError (.int 0)) := by
  have h0 : getItem es (.int 0) = .error (.keyError (.int 0)) := by
    have : es.get? (.int 0) = none := (get?_eq_none _ _).2 fun k hk => by
      obtain ⟨s, rfl⟩ := h k hk
      simp [equal_iff, Key.value]
    simp [getItem, this]
  refine ⟨fun l r => ⟨fun hr => ?_, ?_⟩, fun r => ⟨fun hr => ?_, ?_⟩⟩
  · have := iterates_unique hr (.fail (by simpa using h0) (by simp))
    simpa using this
  · rintro ⟨rfl, rfl⟩
    exact .fail (by simpa using h0) (by simp)
  · exact contains_unique hr (.fail (by simpa using h0) (by simp))
  · rintro rfl
    exact .fail (by simpa using h0) (by simp)

theorem get?_mem : ∀ {es : KEntries}, (es.keys.map Key.value).Nodup → ∀ {k : Key} {p : KPattern}, (k, p) ∈ memberList es → es.get? k = some p
  | .nil, _, _, _, h => by simp [memberList] at h
  | .cons k' p' r, hn, k, p, h => by
    rw [KEntries.keys, List.map_cons, List.nodup_cons] at hn
    rw [memberList, List.mem_cons] at h
    rw [KEntries.get?]
    rcases h with h | h
    · cases h; simp
    · have hk : k.value ∈ r.keys.map Key.value := by
        have : ∀ (r : KEntries), (k, p) ∈ memberList r → k ∈ r.keys := by
          intro r
          induction r using KEntries.rec (motive_1 := fun _ => True) with
          | leaf => trivial
          | dict => trivial
          | nil => simp [memberList]
          | cons a b c _ ih =>
            simp only [memberList, KEntries.keys, List.mem_cons, Prod.mk.injEq]
            rintro (⟨rfl, rfl⟩ | h)
            · simp
            · exact .inr (ih h)
        exact List.mem_map_of_mem (this r h)
      rw [if_neg fun e : k'.value = k.value => hn.1 (by rw [e]; exact hk)]
      exact get?_mem hn.2 h

theorem map_fst_memberList : ∀ es : KEntries, (memberList es).map (·.1) = es.keys
  | .nil => rfl
  | .cons k p r => by simp [memberList, KEntries.keys, map_fst_memberList r]

theorem mapE_pairs {f : Key → Except Exc (Key × KPattern)} : ∀ {l : List (Key × KPattern)}, (∀ e ∈ l, f e.1 = .ok e) →
    mapE f (l.map (·.1)) = .ok l
  | [], _ => rfl
  | e :: l, h => by
    have hl : mapE f (l.map (·.1)) = .ok l := mapE_pairs fun e he => h e (List.mem_cons_of_mem _ he)
    have he := h e List.mem_cons_self
    simp only [List.map_cons, mapE, he, hl]

/-- **C135.**  As a mapping a `PatternDict` works: `dict(d)` never raises and has the members of `d` with their keys, in order. -/
theorem C135_dict {es : KEntries} {lk : Bool} {fd : Option Bool} (h : KBuilt (.dict es lk fd)) : toDict es = .ok (memberList es) := by
  have hn : (es.keys.map Key.value).Nodup := by
    have := KBuilt.kwf h
    simp only [KWF] at this
    exact this.1
  rw [toDict, ← map_fst_memberList es]
  refine mapE_pairs fun e he => ?_
  simp [getItem, get?_mem hn he, bind, Except.bind, pure, Except.pure]

/-- **C135.**  `f(**d)` passes the members as keyword arguments if all keys are strings, and raises `TypeError` otherwise. -/
theorem C135_keywords {es : KEntries} {lk : Bool} {fd : Option Bool} (h : KBuilt (.dict es lk fd)) :
    ((∃ l, keywords es = .ok l) ↔ ∀ k ∈ es.keys, IsStr k) ∧
      (∀ l, keywords es = .ok l → l.map (fun e => (Key.str e.1, e.2)) = memberList es) ∧
      ∀ e, keywords es = .error e → e = .other .typeError := by
  rw [keywords, C135_dict h, ← map_fst_memberList es]
  simp only [bind, Except.bind]
  generalize memberList es = m
  induction m with
  | nil => simp [mapE]
  | cons a m ih =>
    obtain ⟨k, p⟩ := a
    obtain ⟨i1, i2, i3⟩ := ih
    cases k with
    | str s =>
      rw [mapE, show keyword (.str s, p) = .ok (s, p) from rfl]
      dsimp only
      cases hm : mapE keyword m with
      | error e =>
        rw [hm] at i1 i3
        refine ⟨⟨by simp, fun hk => ?_⟩, by simp, ?_⟩
        · obtain ⟨l, hl⟩ := i1.2 fun k hk' => hk k (by simp at hk' ⊢; exact .inr hk')
          cases hl
        · rintro e' he; cases he; exact i3 _ rfl
      | ok l =>
        rw [hm] at i1 i2
        refine ⟨⟨fun _ k hk => ?_, fun _ => ⟨_, rfl⟩⟩, ?_, by simp⟩
        · rw [List.map_cons, List.mem_cons] at hk
          rcases hk with rfl | hk
          · exact ⟨s, rfl⟩
          · exact i1.1 ⟨l, rfl⟩ k hk
        · rintro l' hl'; cases hl'; simp [i2 l rfl]
    | _ =>
      rw [mapE, keyword]
      · refine ⟨⟨by simp, fun hk => ?_⟩, by simp, by simp⟩
        obtain ⟨s, hs⟩ := hk _ (by rw [List.map_cons]; exact List.mem_cons_self)
        cases hs
      · simp

/-- The dictionary made by `d[1.0] = p`, `d['a'] = q`, `d[False] = r`. -/
def exMembers (p q r : KPattern) : KEntries := .cons (.float 1) p (.cons (.str "a") q (.cons (.bool false) r .nil))

/-- An array of `n` numbers. -/
def exLeaf (n : Nat) : KPattern := .leaf (.numeric .array [n] (.flt .ninf) (.flt .pinf) true none)

/-- It can be made.  Going through it produces `r` and `p`, in this order, and then raises `KeyError(2)`; `'a' in d` raises `KeyError(2)`
too, and `f(**d)` is refused.  A dictionary with the key `'a'` only raises `KeyError(0)`. -/
example : KBuilt (.dict (exMembers (exLeaf 1) (exLeaf 2) (exLeaf 3)) false none) ∧
    Iterates (getItem (exMembers (exLeaf 1) (exLeaf 2) (exLeaf 3))) 0 [exLeaf 3, exLeaf 1] (some (.keyError (.int 2))) ∧
    Contains (getItem (exMembers (exLeaf 1) (exLeaf 2) (exLeaf 3))) (fun _ => .ok false) 0 (.error (.keyError (.int 2))) ∧
    (∀ l, keywords (exMembers (exLeaf 1) (exLeaf 2) (exLeaf 3)) ≠ .ok l) ∧
    Iterates (getItem (.cons (.str "a") (exLeaf 2) .nil)) 0 [] (some (.keyError (.int 0))) := by
  have hb : ∀ n : Nat, KBuilt (exLeaf n) := fun n =>
    .leaf (Pattern.WF.built _ (by simp [Pattern.WF, PyNum.toFlt, Flt.NotNaN, Flt.lt])) rfl
  have hd : KBuilt (.dict (exMembers (exLeaf 1) (exLeaf 2) (exLeaf 3)) false none) := by
    refine .set (k := .bool false) (.set (k := .str "a") (.set (k := .float 1) (.dict none) (hb 1) rfl) (hb 2) rfl) (hb 3) ?_
    simp [KPattern.setItem, exMembers, KEntries.set, Key.value, exLeaf, KPattern.lock]
  have h0 : getItem (exMembers (exLeaf 1) (exLeaf 2) (exLeaf 3)) (.int (0 : ℕ)) = .ok (exLeaf 3) := by
    simp [getItem, exMembers, KEntries.get?, Key.value]
  have h1 : getItem (exMembers (exLeaf 1) (exLeaf 2) (exLeaf 3)) (.int (0 + 1 : ℕ)) = .ok (exLeaf 1) := by
    simp [getItem, exMembers, KEntries.get?, Key.value]
  have h2 : getItem (exMembers (exLeaf 1) (exLeaf 2) (exLeaf 3)) (.int (0 + 1 + 1 : ℕ)) = .error (.keyError (.int 2)) := by
    simp [getItem, exMembers, KEntries.get?, Key.value]
  refine ⟨hd, .next h0 (.next h1 (.fail h2 (by simp))), .next h0 rfl (.next h1 rfl (.fail h2 (by simp))), fun l h => ?_, ?_⟩
  · obtain ⟨s, hs⟩ := (C135_keywords hd).1.1 ⟨l, h⟩ (.bool false) (by simp [exMembers, KEntries.keys])
    cases hs
  · exact ((C135_strings (by simp [KEntries.keys, IsStr]) fun _ => .ok false).1 _ _).2 ⟨rfl, rfl⟩

end Paragami.Protocols
