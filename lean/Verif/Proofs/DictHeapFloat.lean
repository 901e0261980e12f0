import Verif.Proofs.DictHeapDen

/-! # Dictionaries whose cached length is a float -/

set_option linter.unusedSimpArgs false

namespace Paragami

namespace DictHeap
open Pattern NDArray
open scoped Classical

theorem run_append (h : Heap) (l l' : List Op) : run h (l ++ l') = run (run h l) l' := by
  simp [run, List.foldl_append]

theorem events_append (d : Nat) (h : Heap) (l l' : List Op) : events d h (l ++ l') = events d h l ++ events d (run h l) l' := by
  induction l generalizing h with
  | nil => simp [events, run]
  | cons op l ih =>
    have e : run h (op :: l) = run (step h op).2 l := rfl
    cases op <;> simp only [List.cons_append, events, ih, List.append_assoc, e]

theorem events_none {h : Heap} {d : Nat} (hd : h[d]? = none) (op : Op) : events d h [op] = [] := by
  cases op <;> simp [events, isOpen, hd]

/-- An object that a statement creates is a new dictionary. -/
theorem step_creates {h : Heap} {op : Op} {x : Nat} {o' : Obj} (hx : h[x]? = none) (ho' : (step h op).2[x]? = some o') :
    o'.members = [] ∧ ∀ free, o'.len free = ⟨0, false⟩ := by
  have hxl : h.length ≤ x := List.getElem?_eq_none_iff.mp hx
  have hlt := (List.getElem?_eq_some_iff.mp ho').1
  have hno : ∀ {h' : Heap}, (step h op).2 = h' → h'.length = h.length → False := by
    intro h' e1 e2; rw [e1] at hlt; omega
  cases op with
  | new fd =>
    simp only [step, newDict, List.length_append, List.length_cons, List.length_nil] at hlt
    simp only [step, newDict] at ho'
    rw [List.getElem?_append_right hxl, show x - h.length = 0 by omega] at ho'
    simp only [List.getElem?_cons_zero, Option.some.injEq] at ho'
    subst ho'
    exact ⟨rfl, fun free => by cases free <;> rfl⟩
  | lock e => exact (hno rfl (by simp [step, lock_length])).elim
  | set e k r =>
    refine (hno rfl ?_).elim
    simp only [step, setItem]
    split
    · rfl
    · split
      · rfl
      · split
        · rfl
        · rw [refresh_length]; cases r <;> simp [lock_length]
  | del e k =>
    refine (hno rfl ?_).elim
    simp only [step, delItem]
    split
    · rfl
    · split
      · rfl
      · split
        · rfl
        · rw [refresh_length]; simp

theorem not_set_of_foldl {evs : List Ev} {ks : List String} (hlen : evs.length ≤ 1) (h : evs.foldl applyEv ks = []) (k : String) :
    Ev.set k ∉ evs := by
  match evs, hlen with
  | [], _ => simp
  | [.del k'], _ => simp
  | [.set k'], _ =>
    simp only [List.foldl_cons, List.foldl_nil, applyEv] at h
    split at h
    · next hm => rw [h] at hm; simp at hm
    · simp at h

theorem foldl_ne_nil {evs : List Ev} {ks : List String} (hlen : evs.length ≤ 1) (h : evs.foldl applyEv ks ≠ []) :
    ks ≠ [] ∨ ∃ k, Ev.set k ∈ evs := by
  match evs, hlen with
  | [], _ => exact Or.inl h
  | [.del k'], _ =>
    left
    rintro rfl
    simp [applyEv] at h
  | [.set k'], _ => exact Or.inr ⟨k', by simp⟩

theorem events_single_length (d : Nat) (h : Heap) (op : Op) : (events d h [op]).length ≤ 1 := by
  cases op <;> simp only [events, List.append_nil] <;> first | (split <;> simp) | simp

/-- Over any program: a dictionary with members was assigned to; an empty dictionary's length is a float exactly if it was. -/
theorem run_float (ops : List Op) : ∀ (d : Nat) (o : Obj), (run [] ops)[d]? = some o →
    (o.members ≠ [] → ∃ k, Ev.set k ∈ events d [] ops) ∧
    (o.members = [] → ∀ free, (o.len free).n = 0 ∧ ((o.len free).isFloat = true ↔ ∃ k, Ev.set k ∈ events d [] ops)) := by
  induction ops using List.reverseRecOn with
  | nil => intro d o ho; simp [run] at ho
  | append_singleton ops op ih =>
    intro d o' ho'
    have hi := run_inv inv_nil ops
    have hnone : (run [] ops)[d]? = none → events d [] ops = [] := by
      clear ih ho'
      intro hn
      induction ops using List.reverseRecOn with
      | nil => rfl
      | append_singleton ops op ih2 =>
        have hi2 := run_inv inv_nil ops
        cases hx : (run [] ops)[d]? with
        | some o =>
          obtain ⟨o1, h1, _⟩ := step_keys hi2 (op := op) hx
          rw [run_append] at hn
          change (step (run [] ops) op).2[d]? = none at hn
          rw [h1] at hn; cases hn
        | none => rw [events_append, ih2 hi2 hx, events_none hx, List.nil_append]
    rw [run_append] at ho'
    change (step (run [] ops) op).2[d]? = some o' at ho'
    rw [events_append]
    cases hx : (run [] ops)[d]? with
    | none =>
      obtain ⟨h1, h2⟩ := step_creates hx ho'
      rw [hnone hx, events_none hx]
      exact ⟨fun h => absurd h1 h, fun _ free => by simp [h2 free]⟩
    | some o =>
      obtain ⟨i1, i2⟩ := ih d o hx
      obtain ⟨o1, g1, g2⟩ := step_keys hi (op := op) hx
      rw [ho'] at g1; cases g1
      have hl := events_single_length d (run [] ops) op
      refine ⟨fun hne => ?_, fun he free => ?_⟩
      · rcases foldl_ne_nil hl (by rw [← g2]; simpa using hne) with h | ⟨k, hk⟩
        · obtain ⟨k, hk⟩ := i1 (by simpa using h)
          exact ⟨k, List.mem_append_left _ hk⟩
        · exact ⟨k, List.mem_append_right _ hk⟩
      · have hns : ∀ k, Ev.set k ∉ events d (run [] ops) [op] := not_set_of_foldl hl (by rw [← g2, he]; rfl)
        have hev : (∃ k, Ev.set k ∈ events d [] ops ++ events d (run [] ops) [op]) ↔ ∃ k, Ev.set k ∈ events d [] ops := by
          simp [hns]
        rw [hev]
        rcases step_cases hi op d o' ho' with ⟨o1, ho1, e, e'⟩ | ⟨e, _⟩ | ⟨o1, k, r, rfl, ho1, _, _, e⟩ | ⟨o1, k, rfl, ho1, hlk, hk, e⟩
        · rw [hx] at ho1; cases ho1
          rw [e' free]
          exact i2 (by rw [← e]; exact he) free
        · rw [hx] at e; cases e
        · have := mem_setKey_self o1.members k r
          rw [← e, he] at this; cases this
        · rw [hx] at ho1; cases ho1
          obtain ⟨s1, s2, o2, s3, s4, s5, s6, s7, s8⟩ := delItem_spec hx hlk hk (hi.valid hx)
          simp only [step] at ho'
          rw [s3] at ho'; cases ho'
          have h9 := (s8 (by rw [he]; simp)).2.2 free
          rw [he] at h9
          simp only [updateLen, mapE, bind, Except.bind, pure, Except.pure, Except.ok.injEq] at h9
          rw [← h9]
          refine ⟨rfl, fun _ => i1 ?_, fun _ => rfl⟩
          intro h0; rw [h0] at hk; simp at hk

/-- A dictionary with members (all of them patterns, none itself) reports a float exactly if a member does. -/
theorem float_iff {h : Heap} (hi : Inv h) {d : Nat} {o : Obj} (ho : h[d]? = some o) (hj : ∀ m ∈ o.members, m.2 ≠ Ref.junk)
    (hs : ∀ m ∈ o.members, m.2 ≠ Ref.dict d) (hm : o.members ≠ []) (free : Bool) :
    (o.len free).isFloat = true ↔ ∃ (k : String) (e : Nat) (oe : Obj), (k, Ref.dict e) ∈ o.members ∧ h[e]? = some oe ∧ (oe.len free).isFloat = true := by
  obtain ⟨l, h1, -, h3⟩ := hi.lens d o ho hj hs free
  rw [← h3 hm]
  obtain ⟨ls, h4, h5⟩ := bind_ok h1
  simp only [pure, Except.pure, Except.ok.injEq] at h5
  subst h5
  rw [mapE_ok_iff] at h4
  have hne : ls.isEmpty = false := by
    cases ls with
    | nil => exact absurd (List.forall₂_nil_right_iff.mp h4) hm
    | cons => rfl
  simp only [hne, Bool.false_or, List.any_eq_true]
  clear hj hs hm h1 h3 ho hne
  generalize o.members = ms at h4
  induction h4 with
  | nil => simp
  | @cons m l ms ls hml _ ih =>
    obtain ⟨k, r⟩ := m
    simp only [List.mem_cons, exists_eq_or_imp] at ih ⊢
    constructor
    · rintro (hf | hf)
      · cases r with
        | leaf p => simp only [Ref.len, Except.ok.injEq] at hml; subst hml; cases hf
        | junk => simp [Ref.len] at hml
        | dict e =>
          simp only [Ref.len] at hml
          split at hml
          · next oe he =>
            simp only [Except.ok.injEq] at hml; subst hml
            exact ⟨k, e, oe, Or.inl rfl, he, hf⟩
          · simp at hml
      · obtain ⟨k', e, oe, g1, g2, g3⟩ := ih.mp hf
        exact ⟨k', e, oe, Or.inr g1, g2, g3⟩
    · rintro ⟨k', e, oe, g1 | g1, g2, g3⟩
      · cases g1
        simp only [Ref.len, g2, Except.ok.injEq] at hml
        subst hml
        exact Or.inl g3
      · exact Or.inr (ih.mpr ⟨k', e, oe, g1, g2, g3⟩)

/-- Folding members, none of which is a dictionary that reports a float. -/
theorem den_fold_local {h : Heap} (hc : Clean h) {ms : List (String × Ref)} {es : Entries} (hd : Den h ms es)
    (hfl : ∀ k e (o : Obj), (k, Ref.dict e) ∈ ms → h[e]? = some o → (o.len true).isFloat = false) :
    ∃ N, ∀ n, N ≤ n → ∀ x offset, foldMembers n h ms x offset = foldFreeEs es x offset := by
  induction hd with
  | nil => exact ⟨0, fun n _ x offset => by simp [foldMembers, foldFreeEs]⟩
  | leaf _ ih =>
    obtain ⟨N, hN⟩ := ih fun k e o hm => hfl k e o (List.mem_cons_of_mem _ hm)
    refine ⟨N, fun n hn x offset => ?_⟩
    simp only [foldMembers, foldFreeEs, hN n hn]
  | @dict k ms es es' e o he hd' _ ih1 ih2 =>
    have hef := hfl k e o (by simp) he
    obtain ⟨N1, h1⟩ := ih1 fun k' e' o' hm' he' => by
      by_contra hcon
      have := (float_iff hc.toInv he (hc.noJunk e o he) (hc.noSelf e o he) (List.ne_nil_of_mem hm') true).mpr
        ⟨k', e', o', hm', he', by simpa using hcon⟩
      rw [hef] at this; cases this
    obtain ⟨N2, h2⟩ := ih2 fun k e o hm => hfl k e o (List.mem_cons_of_mem _ hm)
    refine ⟨max (N1 + 1) N2, fun n hn x offset => ?_⟩
    obtain ⟨m, rfl⟩ : ∃ m, n = m + 1 := ⟨n - 1, by omega⟩
    have hl := denotes_len hc he hd' true
    have e1 : ∀ y, DictHeap.foldFree (m + 1) h e y = (Pattern.dict es' o.locked o.fd).foldFree y := by
      intro y
      simp only [DictHeap.foldFree, he, hl, Pattern.foldFree, h1 m (by omega)]
    simp only [foldMembers, Ref.len, he, bind, Except.bind, hef, foldFreeEs, e1, h2 (m + 1) (by omega), hl, flatLen,
      Bool.false_eq_true, if_false]

/-- With a member that reports a float no fold succeeds. -/
theorem foldMembers_float {h : Heap} {ms : List (String × Ref)} {k : String} {e : Nat} {oe : Obj} (hm : (k, Ref.dict e) ∈ ms)
    (he : h[e]? = some oe) (hf : (oe.len true).isFloat = true) (n : Nat) (x : NDArray Flt) (offset : Nat)
    (vs : List (String × Val Flt)) : foldMembers n h ms x offset ≠ .ok vs := by
  induction ms generalizing offset vs with
  | nil => cases hm
  | cons m ms ih =>
    obtain ⟨k', r⟩ := m
    intro hv
    rcases List.mem_cons.mp hm with h1 | h1
    · cases h1
      simp [foldMembers, Ref.len, he, hf, bind, Except.bind] at hv
    · cases r with
      | junk => simp [foldMembers] at hv
      | leaf p =>
        simp only [foldMembers] at hv
        obtain ⟨v, _, hv⟩ := bind_ok hv
        obtain ⟨vs', h2, hv⟩ := bind_ok hv
        exact ih h1 _ _ h2
      | dict e' =>
        simp only [foldMembers] at hv
        obtain ⟨l, _, hv⟩ := bind_ok hv
        split at hv
        · simp at hv
        · obtain ⟨v, _, hv⟩ := bind_ok hv
          obtain ⟨vs', h2, hv⟩ := bind_ok hv
          exact ih h1 _ _ h2

end DictHeap

end Paragami
