import Verif.Proofs.Keys
import Verif.Proofs.Built
import Verif.Props.Names

/-! # Building dictionaries with any keys; their names -/

namespace Paragami
namespace Keys
open Spec Pattern NDArray

variable {S : Key → Prop} {ν : Key → String}

mutual
/-- What the constructors guarantee. -/
def KWF : KPattern → Prop
  | .leaf p => p.WF ∧ p.isDict = false
  | .dict es _ _ => (es.keys.map Key.value).Nodup ∧ KWFEs es
/-- Every member is well formed, and dictionary members are locked. -/
def KWFEs : KEntries → Prop
  | .nil => True
  | .cons _ p r => KWF p ∧ p.lock = p ∧ KWFEs r
end

theorem lock_lock (t : KPattern) : t.lock.lock = t.lock := by cases t <;> rfl

theorem lock_kwf {t : KPattern} (h : KWF t) : KWF t.lock := by
  cases t <;> exact h

/-- Assigning to an equal key changes no key; otherwise the new key comes last. -/
theorem keys_set (es : KEntries) (k : Key) (p : KPattern) :
    (es.set k p).keys = if ∃ k' ∈ es.keys, k'.value = k.value then es.keys else es.keys ++ [k] := by
  induction es using KEntries.rec (motive_1 := fun _ => True) with
  | nil => simp [KEntries.set, KEntries.keys]
  | cons k0 p0 r _ ih =>
    rw [KEntries.set]
    by_cases hk : k0.value = k.value
    · simp [hk, KEntries.keys]
    · rw [if_neg hk, KEntries.keys, ih]
      by_cases hr : ∃ k' ∈ r.keys, k'.value = k.value
      · rw [if_pos hr, if_pos, KEntries.keys]
        obtain ⟨k', h1, h2⟩ := hr
        exact ⟨k', by simp [KEntries.keys, h1], h2⟩
      · rw [if_neg hr, if_neg, KEntries.keys, List.cons_append]
        rintro ⟨k', h1, h2⟩
        rcases List.mem_cons.mp h1 with rfl | h1
        · exact hk h2
        · exact hr ⟨k', h1, h2⟩
  | _ => trivial

theorem set_kwf {es : KEntries} {k : Key} {p : KPattern} (h1 : (es.keys.map Key.value).Nodup) (h2 : KWFEs es) (hp : KWF p) (hl : p.lock = p) :
    ((es.set k p).keys.map Key.value).Nodup ∧ KWFEs (es.set k p) := by
  constructor
  · rw [keys_set]
    split
    · exact h1
    · rename_i hk
      rw [List.map_append, List.nodup_append]
      refine ⟨h1, by simp, ?_⟩
      intro a ha b hb e
      simp only [List.map_cons, List.map_nil, List.mem_singleton] at hb
      obtain ⟨k', hk', rfl⟩ := List.mem_map.mp ha
      exact hk ⟨k', hk', e.trans hb⟩
  · clear h1
    induction es using KEntries.rec (motive_1 := fun _ => True) with
    | nil => exact ⟨hp, hl, trivial⟩
    | cons k0 p0 r _ ih =>
      rw [KEntries.set]
      split
      · exact ⟨hp, hl, h2.2.2⟩
      · exact ⟨h2.1, h2.2.1, ih h2.2.2⟩
    | _ => trivial

/-- Deleting removes the keys equal to the given one. -/
theorem keys_erase {es : KEntries} {k : Key} (h : (es.keys.map Key.value).Nodup) :
    (es.erase k).keys = es.keys.filter fun k' => decide (k'.value ≠ k.value) := by
  induction es using KEntries.rec (motive_1 := fun _ => True) with
  | nil => simp [KEntries.erase, KEntries.keys]
  | cons k0 p0 r _ ih =>
    rw [KEntries.keys, List.map_cons, List.nodup_cons] at h
    rw [KEntries.erase]
    by_cases hk : k0.value = k.value
    · rw [if_pos hk, KEntries.keys, List.filter_cons_of_neg (by simp [hk]), List.filter_eq_self.mpr]
      intro k' hk'
      refine decide_eq_true fun e => h.1 ?_
      rw [hk, ← e]
      exact List.mem_map_of_mem hk'
    · rw [if_neg hk, KEntries.keys, KEntries.keys, List.filter_cons_of_pos (by simpa using hk), ih h.2]
  | _ => trivial

theorem erase_kwf {es : KEntries} {k : Key} (h1 : (es.keys.map Key.value).Nodup) (h2 : KWFEs es) :
    ((es.erase k).keys.map Key.value).Nodup ∧ KWFEs (es.erase k) := by
  constructor
  · rw [keys_erase h1]
    exact (List.filter_sublist.map Key.value).nodup h1
  · clear h1
    induction es using KEntries.rec (motive_1 := fun _ => True) with
    | nil => exact h2
    | cons k0 p0 r _ ih =>
      rw [KEntries.erase]
      split
      · exact h2.2.2
      · exact ⟨h2.1, h2.2.1, ih h2.2.2⟩
    | _ => trivial

theorem KBuilt.kwf {t : KPattern} (h : KBuilt t) : KWF t := by
  induction h with
  | leaf hp hd => exact ⟨hp.wf, hd⟩
  | dict fd => exact ⟨by simp [KEntries.keys], trivial⟩
  | @set d k p d' hd hp h ihd ihp =>
    cases d with
    | leaf p => simp [KPattern.setItem] at h
    | dict es l fd =>
      simp only [KPattern.setItem] at h
      split at h
      · cases h
      · cases h
        exact set_kwf ihd.1 ihd.2 (lock_kwf ihp) (lock_lock p)
  | @del shw d k d' hd h ihd =>
    cases d with
    | leaf p => simp [KPattern.delItem] at h
    | dict es l fd =>
      simp only [KPattern.delItem] at h
      split at h
      · cases h
      · split at h
        · cases h
        · cases h
          exact erase_kwf ihd.1 ihd.2
  | lock hp ih => exact lock_kwf ih

mutual
theorem KWF.leafWF : ∀ {t : KPattern}, KWF t → LeafWF t
  | .leaf _, h => h.2
  | .dict _ _ _, h => KWFEs.leafWFEs h.2
theorem KWFEs.leafWFEs : ∀ {es : KEntries}, KWFEs es → LeafWFEs es
  | .nil, _ => trivial
  | .cons _ _ _, h => ⟨KWF.leafWF h.1, KWFEs.leafWFEs h.2.2⟩
end

theorem keys_rename (es : KEntries) : (renameEs ν es).keys = es.keys.map ν := by
  induction es using KEntries.rec (motive_1 := fun _ => True) with
  | nil => rfl
  | cons k p r _ ih =>
    simp only [Entries.keys] at ih
    simp [renameEs, KEntries.keys, Entries.keys, Entries.toList, ih]
  | _ => trivial

theorem lock_rename (t : KPattern) (h : LeafWF t) : rename ν t.lock = (rename ν t).lock := by
  cases t with
  | leaf p =>
    simp only [LeafWF] at h
    cases p <;> first | rfl | simp [isDict] at h
  | dict es l fd => rfl

theorem keysInEs_mem {es : KEntries} (h : KeysInEs S es) : ∀ k ∈ es.keys, S k := by
  induction es using KEntries.rec (motive_1 := fun _ => True) with
  | nil => simp [KEntries.keys]
  | cons k p r _ ih =>
    intro k' hk
    simp only [KEntries.keys, List.mem_cons] at hk
    rcases hk with rfl | hk
    · exact h.1
    · exact ih h.2.2 _ hk
  | _ => trivial

mutual
theorem KWF.rename (hν : InjIn S ν) : ∀ {t : KPattern}, KWF t → KeysIn S t → (rename ν t).WF
  | .leaf _, h, _ => h.1
  | .dict es _ _, h, h1 => by
    refine ⟨?_, KWFEs.rename hν h.2 h1⟩
    rw [keys_rename]
    refine List.Nodup.map_on (fun a ha b hb e => ?_) h.1.of_map
    exact List.inj_on_of_nodup_map h.1 ha hb ((hν a b (keysInEs_mem h1 a ha) (keysInEs_mem h1 b hb)).mp e)
theorem KWFEs.rename (hν : InjIn S ν) : ∀ {es : KEntries}, KWFEs es → KeysInEs S es → WFEs (renameEs ν es)
  | .nil, _, _ => trivial
  | .cons _ p _, h, h1 => ⟨KWF.rename hν h.1 h1.2.1, by rw [← lock_rename p h.1.leafWF, h.2.1], KWFEs.rename hν h.2.2 h1.2.2⟩
end

mutual
theorem keysIn_all : ∀ t : KPattern, KeysIn (fun _ => True) t
  | .leaf _ => trivial
  | .dict es _ _ => keysInEs_all es
theorem keysInEs_all : ∀ es : KEntries, KeysInEs (fun _ => True) es
  | .nil => trivial
  | .cons _ p r => ⟨trivial, keysIn_all p, keysInEs_all r⟩
end

mutual
theorem valKeysIn_all {α : Type} : ∀ v : KVal α, ValKeysIn (fun _ => True) v
  | .arr _ => trivial
  | .dict vs => valsKeysIn_all vs
theorem valsKeysIn_all {α : Type} : ∀ vs : List (Key × KVal α), ValsKeysIn (fun _ => True) vs
  | [] => trivial
  | (_, v) :: vs => ⟨trivial, valKeysIn_all v, valsKeysIn_all vs⟩
end

theorem injIn_all (h : Names ν) : InjIn (fun _ => True) ν := fun a b _ _ => (h a b).trans equal_iff

/-! ### Updates -/

theorem set_rename (h : Names ν) (es : KEntries) (k : Key) (p : KPattern) :
    renameEs ν (es.set k p) = (renameEs ν es).set (ν k) (rename ν p) := by
  induction es using KEntries.rec (motive_1 := fun _ => True) with
  | nil => rfl
  | cons k0 p0 r _ ih =>
    rw [KEntries.set, renameEs, Entries.set]
    by_cases hk : k0.value = k.value
    · have : ν k0 = ν k := (h _ _).mpr (equal_iff.mpr hk)
      simp [hk, this, renameEs]
    · have : ν k0 ≠ ν k := fun e => hk (equal_iff.mp ((h _ _).mp e))
      simp [hk, this, renameEs, ih]
  | _ => trivial

theorem erase_rename (h : Names ν) (es : KEntries) (k : Key) : renameEs ν (es.erase k) = (renameEs ν es).erase (ν k) := by
  induction es using KEntries.rec (motive_1 := fun _ => True) with
  | nil => rfl
  | cons k0 p0 r _ ih =>
    rw [KEntries.erase, renameEs, Entries.erase]
    by_cases hk : k0.value = k.value
    · have : ν k0 = ν k := (h _ _).mpr (equal_iff.mpr hk)
      simp [hk, this]
    · have : ν k0 ≠ ν k := fun e => hk (equal_iff.mp ((h _ _).mp e))
      simp [hk, this, renameEs, ih]
  | _ => trivial

theorem get_rename (h : Names ν) (es : KEntries) (k : Key) : (renameEs ν es).get? (ν k) = (es.get? k).map (rename ν) := by
  induction es using KEntries.rec (motive_1 := fun _ => True) with
  | nil => rfl
  | cons k0 p0 r _ ih =>
    rw [KEntries.get?, renameEs, Entries.get?]
    by_cases hk : k0.value = k.value
    · have : ν k0 = ν k := (h _ _).mpr (equal_iff.mpr hk)
      simp [hk, this]
    · have : ν k0 ≠ ν k := fun e => hk (equal_iff.mp ((h _ _).mp e))
      simp [hk, this, ih]
  | _ => trivial

theorem setItem_rename (h : Names ν) {d p : KPattern} (hd : LeafWF d) (hp : LeafWF p) (k : Key) :
    SameOutcome (fun a b => rename ν a = b) (d.setItem k p) ((rename ν d).setItem (ν k) (rename ν p)) := by
  cases d with
  | leaf q =>
    simp only [LeafWF] at hd
    cases q <;> first | exact rfl | simp [isDict] at hd
  | dict es l fd =>
    cases l with
    | true => exact trivial
    | false =>
      simp only [KPattern.setItem, rename, Pattern.setItem, Bool.false_eq_true, if_false, SameOutcome]
      rw [set_rename h, lock_rename p hp]

theorem delItem_rename (h : Names ν) (shw : Key → String) {d : KPattern} (hd : LeafWF d) (k : Key) :
    SameOutcome (fun a b => rename ν a = b) (d.delItem shw k) ((rename ν d).delItem (ν k)) := by
  cases d with
  | leaf q =>
    simp only [LeafWF] at hd
    cases q <;> first | exact rfl | simp [isDict] at hd
  | dict es l fd =>
    cases l with
    | true => exact trivial
    | false =>
      simp only [KPattern.delItem, rename, Pattern.delItem, Bool.false_eq_true, if_false, get_rename h]
      cases es.get? k with
      | none => exact trivial
      | some q => simp only [Option.map_some, SameOutcome, rename, erase_rename h]

/-! ### Names -/

theorem prefix_str (s delim : String) (names : List String) : KPattern.prefixNames (.str s) delim names = .ok (names.map (s ++ delim ++ ·)) := by
  rw [KPattern.prefixNames]
  induction names with
  | nil => rfl
  | cons n names ih =>
    rw [mapE, ih]; rfl

theorem prefix_other {k : Key} (hk : ¬ IsStr k) (delim : String) (names : List String) :
    KPattern.prefixNames k delim names = if names.length = 0 then .ok [] else .error .typeError := by
  have : k.addable = .error .typeError := by
    cases k with
    | str s => exact absurd ⟨s, rfl⟩ hk
    | _ => rfl
  cases names with
  | nil => rfl
  | cons n names => simp [KPattern.prefixNames, mapE, this, bind, Except.bind]

mutual
theorem names_cases (hν : ∀ s, ν (.str s) = s) (free : Bool) : ∀ (t : KPattern) (delim : String), LeafWF t → NoEmptyDict t →
    (KeysNamed free t ∧ ∃ names, t.flatNames (some free) delim = .ok names ∧ (rename ν t).flatNames (some free) delim = .ok names ∧
      names.length = t.flatLen free) ∨
    (¬ KeysNamed free t ∧ t.flatNames (some free) delim = .error .typeError)
  | .leaf p, delim, h, _ => by
    have h1 := names_leaf h (free := free) (delim := delim)
    exact .inl ⟨trivial, _, h1, h1, names_length free p _ _ h1⟩
  | .dict es l fd, delim, h, h0 => by
    rcases namesEs_cases hν free es delim h h0.2 with ⟨h1, parts, h2, h3, h4⟩ | ⟨h1, h2⟩
    · refine .inl ⟨h1, parts.flatten, ?_⟩
      rw [KPattern.flatNames, h2, rename, Pattern.flatNames, h3]
      have hne : parts ≠ [] := by
        rintro rfl
        cases es with
        | nil => exact h0.1 rfl
        | cons k p r =>
          rw [renameEs, Pattern.flatNamesEs] at h3
          obtain ⟨_, _, h3⟩ := bind_ok h3
          obtain ⟨_, _, h3⟩ := bind_ok h3
          cases h3
      cases parts with
      | nil => exact absurd rfl hne
      | cons a parts => exact ⟨rfl, rfl, h4⟩
    · exact .inr ⟨h1, by rw [KPattern.flatNames, h2]; rfl⟩
theorem namesEs_cases (hν : ∀ s, ν (.str s) = s) (free : Bool) : ∀ (es : KEntries) (delim : String), LeafWFEs es → NoEmptyDictEs es →
    (KeysNamedEs free es ∧ ∃ parts, KPattern.flatNamesEs es (some free) delim = .ok parts ∧
      flatNamesEs (renameEs ν es) (some free) delim = .ok parts ∧ parts.flatten.length = KPattern.flatLenEs es free) ∨
    (¬ KeysNamedEs free es ∧ KPattern.flatNamesEs es (some free) delim = .error .typeError)
  | .nil, delim, _, _ => .inl ⟨trivial, [], rfl, rfl, rfl⟩
  | .cons k p r, delim, h, h0 => by
    rcases names_cases hν free p "_" h.1 h0.1 with ⟨h1, names, h2, h3, h4⟩ | ⟨h1, h2⟩
    · by_cases hk : IsStr k
      · obtain ⟨s, rfl⟩ := hk
        rcases namesEs_cases hν free r delim h.2 h0.2 with ⟨k1, parts, k2, k3, k4⟩ | ⟨k1, k2⟩
        · refine .inl ⟨⟨h1, fun _ => ⟨s, rfl⟩, k1⟩, (names.map (s ++ delim ++ ·)) :: parts, ?_, ?_, ?_⟩
          · rw [KPattern.flatNamesEs, h2]
            simp only [bind, Except.bind, prefix_str, k2]; rfl
          · rw [renameEs, Pattern.flatNamesEs, h3, k3, hν]; rfl
          · simp [KPattern.flatLenEs, h4, k4]
        · refine .inr ⟨fun hn => k1 hn.2.2, ?_⟩
          rw [KPattern.flatNamesEs, h2]
          simp only [bind, Except.bind, prefix_str, k2]
      · by_cases hz : p.flatLen free = 0
        · have hn : names = [] := List.length_eq_zero_iff.mp (h4.trans hz)
          subst hn
          rcases namesEs_cases hν free r delim h.2 h0.2 with ⟨k1, parts, k2, k3, k4⟩ | ⟨k1, k2⟩
          · refine .inl ⟨⟨h1, fun hp => by omega, k1⟩, [] :: parts, ?_, ?_, ?_⟩
            · rw [KPattern.flatNamesEs, h2]
              simp only [bind, Except.bind, prefix_other hk, List.length_nil, if_true, k2]; rfl
            · rw [renameEs, Pattern.flatNamesEs, h3, k3]; rfl
            · simpa [KPattern.flatLenEs, hz] using k4
          · refine .inr ⟨fun hn => k1 hn.2.2, ?_⟩
            rw [KPattern.flatNamesEs, h2]
            simp only [bind, Except.bind, prefix_other hk, List.length_nil, if_true, k2]
        · refine .inr ⟨fun hn => hk (hn.2.1 (by omega)), ?_⟩
          rw [KPattern.flatNamesEs, h2]
          simp only [bind, Except.bind, prefix_other hk, h4, hz, if_false]
    · exact .inr ⟨fun hn => h1 hn.1, by rw [KPattern.flatNamesEs, h2]; rfl⟩
end

end Keys
end Paragami
