import Verif.Spec.Copies
import Verif.Props.RoundTrip

/-!
# Proofs about copies of dictionaries
-/
namespace Paragami.Copies

open Pattern NDArray

theorem look_iff {s : State} {d : Nat} {o : Obj} {es : Entries} :
    look s d = some (o, es) ↔ s.objs[d]? = some o ∧ s.inners[o.inner]? = some es := by
  unfold look
  constructor
  · intro h
    split at h
    · simp at h
    · next o' ho =>
      split at h
      · simp at h
      · next es' he =>
        simp only [Option.some.injEq, Prod.mk.injEq] at h
        obtain ⟨rfl, rfl⟩ := h
        exact ⟨ho, he⟩
  · rintro ⟨ho, he⟩
    rw [ho]
    simp only
    rw [he]

theorem lt_of_some {α : Type} {l : List α} {i : Nat} {a : α} (h : l[i]? = some a) : i < l.length :=
  (List.getElem?_eq_some_iff.mp h).1

theorem append_some {α : Type} {l r : List α} {i : Nat} {a : α} (h : l[i]? = some a) : (l ++ r)[i]? = some a := by
  rw [List.getElem?_append_left (lt_of_some h)]; exact h

/-- What a statement can do to the state. -/
theorem step_cases (s : State) (op : Op) :
    (step s op).2 = s ∨
    (∃ fd, op = .new fd ∧ (step s op).2 = ⟨s.inners ++ [.nil], s.objs ++ [⟨s.inners.length, false, 0, 0, fd⟩]⟩) ∨
    (∃ d o es es', op.target = some d ∧ look s d = some (o, es) ∧ o.locked = false ∧ (step s op).2 = store s d o es' ∧
      ((∃ k p, op = .set d k p ∧ es' = es.set k p.lock) ∨ (∃ k, op = .del d k ∧ es' = es.erase k))) ∨
    (∃ d o es, op = .lock d ∧ look s d = some (o, es) ∧ (step s op).2 = ⟨s.inners, s.objs.set d { o with locked := true }⟩) ∨
    (∃ d o es, op = .copy d ∧ look s d = some (o, es) ∧ (step s op).2 = ⟨s.inners, s.objs ++ [o]⟩) ∨
    (∃ d o es, op = .deepcopy d ∧ look s d = some (o, es) ∧
      (step s op).2 = ⟨s.inners ++ [es], s.objs ++ [{ o with inner := s.inners.length }]⟩) := by
  cases op with
  | new fd => exact .inr (.inl ⟨fd, rfl, rfl⟩)
  | set d k p =>
    rcases hl : look s d with _ | ⟨o, es⟩
    · left; simp [step, hl]
    · rcases ho : o.locked with _ | _
      · exact .inr (.inr (.inl ⟨d, o, es, es.set k p.lock, rfl, hl, ho, by simp [step, hl, ho], .inl ⟨k, p, rfl, rfl⟩⟩))
      · left; simp [step, hl, ho]
  | del d k =>
    rcases hl : look s d with _ | ⟨o, es⟩
    · left; simp [step, hl]
    · rcases ho : o.locked with _ | _
      · by_cases hk : k ∈ es.keys
        · exact .inr (.inr (.inl ⟨d, o, es, es.erase k, rfl, hl, ho, by simp [step, hl, ho, hk], .inr ⟨k, rfl, rfl⟩⟩))
        · left; simp [step, hl, ho, hk]
      · left; simp [step, hl, ho]
  | lock d =>
    rcases hl : look s d with _ | ⟨o, es⟩
    · left; simp [step, hl]
    · exact .inr (.inr (.inr (.inl ⟨d, o, es, rfl, hl, by simp [step, hl]⟩)))
  | copy d =>
    rcases hl : look s d with _ | ⟨o, es⟩
    · left; simp [step, hl]
    · exact .inr (.inr (.inr (.inr (.inl ⟨d, o, es, rfl, hl, by simp [step, hl]⟩))))
  | deepcopy d =>
    rcases hl : look s d with _ | ⟨o, es⟩
    · left; simp [step, hl]
    · exact .inr (.inr (.inr (.inr (.inr ⟨d, o, es, rfl, hl, by simp [step, hl]⟩))))

/-- No statement takes an object or its `OrderedDict` away. -/
theorem step_keeps {s : State} (op : Op) {d : Nat} {o : Obj} (ho : s.objs[d]? = some o) :
    ∃ o', (step s op).2.objs[d]? = some o' ∧ o'.inner = o.inner ∧ (op.target ≠ some d → o' = o) := by
  rcases step_cases s op with h | ⟨fd, _, h⟩ | ⟨e, o1, es, es', ht, hl, _, h, _⟩ | ⟨e, o1, es, rfl, hl, h⟩ | ⟨e, o1, es, rfl, hl, h⟩ |
      ⟨e, o1, es, rfl, hl, h⟩ <;> rw [h]
  · exact ⟨o, ho, rfl, fun _ => rfl⟩
  · exact ⟨o, append_some ho, rfl, fun _ => rfl⟩
  · by_cases hed : e = d
    · subst hed
      have := (look_iff.mp hl).1
      rw [ho] at this
      obtain rfl : o = o1 := by simpa using this
      exact ⟨{ o with freeLen := flatLenEs es' true, flatLen := flatLenEs es' false }, by simp [store, lt_of_some ho], rfl,
        fun hn => absurd ht hn⟩
    · exact ⟨o, by simp [store, hed, ho], rfl, fun _ => rfl⟩
  · by_cases hed : e = d
    · subst hed
      have := (look_iff.mp hl).1
      rw [ho] at this
      obtain rfl : o = o1 := by simpa using this
      exact ⟨{ o with locked := true }, by simp [lt_of_some ho], rfl, fun hn => absurd rfl hn⟩
    · exact ⟨o, by simp [hed, ho], rfl, fun _ => rfl⟩
  · exact ⟨o, append_some ho, rfl, fun _ => rfl⟩
  · exact ⟨o, append_some ho, rfl, fun _ => rfl⟩

/-- An `OrderedDict` changes only by statements on objects that refer to it. -/
theorem step_inner {s : State} (op : Op) {i : Nat} {es : Entries} (he : s.inners[i]? = some es) :
    ∃ es', (step s op).2.inners[i]? = some es' ∧
      ((∀ (e : Nat) (o : Obj), op.target = some e → s.objs[e]? = some o → o.inner = i → o.locked = true) → es' = es) := by
  rcases step_cases s op with h | ⟨fd, _, h⟩ | ⟨e, o1, es1, es', ht, hl, hlo, h, _⟩ | ⟨e, o1, es1, rfl, hl, h⟩ |
      ⟨e, o1, es1, rfl, hl, h⟩ | ⟨e, o1, es1, rfl, hl, h⟩ <;> rw [h]
  · exact ⟨es, he, fun _ => rfl⟩
  · exact ⟨es, append_some he, fun _ => rfl⟩
  · by_cases hi : o1.inner = i
    · refine ⟨es', by simp [store, hi, lt_of_some he], fun hh => ?_⟩
      have := hh e o1 ht (look_iff.mp hl).1 hi
      rw [hlo] at this
      exact absurd this (by simp)
    · exact ⟨es, by simp [store, hi, he], fun _ => rfl⟩
  · exact ⟨es, he, fun _ => rfl⟩
  · exact ⟨es, he, fun _ => rfl⟩
  · exact ⟨es, append_some he, fun _ => rfl⟩

/-- If every object that refers to an `OrderedDict` is locked, this stays so. -/
theorem step_locked {s : State} (op : Op) {i : Nat} {es : Entries} (he : s.inners[i]? = some es)
    (hl : ∀ (e : Nat) (o : Obj), s.objs[e]? = some o → o.inner = i → o.locked = true) :
    ∀ (e : Nat) (o : Obj), (step s op).2.objs[e]? = some o → o.inner = i → o.locked = true := by
  have hi := lt_of_some he
  have app : ∀ o2 : Obj, (o2.inner = i → o2.locked = true) → ∀ (e : Nat) (o : Obj), (s.objs ++ [o2])[e]? = some o → o.inner = i →
      o.locked = true := by
    intro o2 h2 e o ho hoi
    rw [List.getElem?_append] at ho
    split at ho
    · exact hl e o ho hoi
    · have := List.mem_of_getElem? ho
      obtain rfl : o = o2 := by simpa using this
      exact h2 hoi
  rcases step_cases s op with h | ⟨fd, _, h⟩ | ⟨e, o1, es1, es', ht, hk, hlo, h, _⟩ | ⟨e, o1, es1, rfl, hk, h⟩ |
      ⟨e, o1, es1, rfl, hk, h⟩ | ⟨e, o1, es1, rfl, hk, h⟩ <;> rw [h]
  · exact hl
  · exact app _ (fun h => by simp only at h; omega)
  · intro e2 o2 ho hoi
    simp only [store, List.getElem?_set] at ho
    split at ho
    · split at ho
      · obtain rfl := Option.some.inj ho
        have := hl e o1 (look_iff.mp hk).1 hoi
        rw [hlo] at this; exact absurd this (by simp)
      · simp at ho
    · exact hl e2 o2 ho hoi
  · intro e2 o2 ho hoi
    simp only [List.getElem?_set] at ho
    split at ho
    · split at ho
      · obtain rfl := Option.some.inj ho
        rfl
      · simp at ho
    · exact hl e2 o2 ho hoi
  · exact app _ (hl e o1 (look_iff.mp hk).1)
  · exact app _ (fun h => by simp only at h; omega)

theorem run_nil (s : State) : run s [] = s := rfl
theorem run_cons (s : State) (op : Op) (ops : List Op) : run s (op :: ops) = run (step s op).2 ops := rfl

theorem run_keeps {s : State} (ops : List Op) {d : Nat} {o : Obj} (ho : s.objs[d]? = some o) :
    ∃ o', (run s ops).objs[d]? = some o' ∧ o'.inner = o.inner ∧ ((∀ op ∈ ops, op.target ≠ some d) → o' = o) := by
  induction ops generalizing s o with
  | nil => exact ⟨o, ho, rfl, fun _ => rfl⟩
  | cons op ops ih =>
    obtain ⟨o1, h1, h2, h3⟩ := step_keeps op ho
    obtain ⟨o2, g1, g2, g3⟩ := ih h1
    refine ⟨o2, g1, g2.trans h2, fun hn => ?_⟩
    rw [g3 fun op' hop => hn op' (by simp [hop]), h3 (hn op (by simp))]

theorem run_inner {s : State} (ops : List Op) {i : Nat} {es : Entries} (he : s.inners[i]? = some es) :
    ∃ es', (run s ops).inners[i]? = some es' := by
  induction ops generalizing s es with
  | nil => exact ⟨es, he⟩
  | cons op ops ih =>
    obtain ⟨es1, h1, _⟩ := step_inner op he
    exact ih h1

/-- Programs that address only objects whose `OrderedDict` is another one leave an `OrderedDict` alone. -/
theorem run_inner_other {s : State} {ops : List Op} {i : Nat} {es : Entries} (he : s.inners[i]? = some es)
    (hn : ∀ op ∈ ops, ∀ e, op.target = some e → ∃ o, s.objs[e]? = some o ∧ o.inner ≠ i) :
    (run s ops).inners[i]? = some es := by
  induction ops generalizing s with
  | nil => exact he
  | cons op ops ih =>
    obtain ⟨es1, h1, h2⟩ := step_inner op he
    rw [h2 fun e o ht ho hi => by
      obtain ⟨o', g1, g2⟩ := hn op (by simp) e ht
      rw [ho] at g1
      obtain rfl := Option.some.inj g1
      exact absurd hi g2] at h1
    refine ih h1 fun op' hop e ht => ?_
    obtain ⟨o, g1, g2⟩ := hn op' (by simp [hop]) e ht
    obtain ⟨o', k1, k2, _⟩ := step_keeps op g1
    exact ⟨o', k1, k2 ▸ g2⟩

theorem run_locked {s : State} (ops : List Op) {i : Nat} {es : Entries} (he : s.inners[i]? = some es)
    (hl : ∀ (e : Nat) (o : Obj), s.objs[e]? = some o → o.inner = i → o.locked = true) : (run s ops).inners[i]? = some es := by
  induction ops generalizing s with
  | nil => exact he
  | cons op ops ih =>
    obtain ⟨es1, h1, h2⟩ := step_inner op he
    rw [h2 fun e o _ ho hi => hl e o ho hi] at h1
    exact ih h1 (step_locked op he hl)

/-! ### What programs reach -/

structure Inv (s : State) : Prop where
  inner : ∀ (d : Nat) (o : Obj), s.objs[d]? = some o → o.inner < s.inners.length
  members : ∀ (i : Nat) (es : Entries), s.inners[i]? = some es → es.keys.Nodup ∧ WFEs es

theorem inv_step {s : State} (hs : Inv s) (op : Op) (hb : ∀ d k p, op = .set d k p → Built p) : Inv (step s op).2 := by
  have appI : ∀ e2 : Entries, (e2.keys.Nodup ∧ WFEs e2) → ∀ (i : Nat) (es : Entries), (s.inners ++ [e2])[i]? = some es →
      es.keys.Nodup ∧ WFEs es := by
    intro e2 h2 i es he
    rw [List.getElem?_append] at he
    split at he
    · exact hs.members i es he
    · have := List.mem_of_getElem? he
      obtain rfl : es = e2 := by simpa using this
      exact h2
  have appO : ∀ (o2 : Obj) (n : Nat), s.inners.length ≤ n → o2.inner < n → ∀ (d : Nat) (o : Obj),
      (s.objs ++ [o2])[d]? = some o → o.inner < n := by
    intro o2 n hn h2 d o ho
    rw [List.getElem?_append] at ho
    split at ho
    · exact (hs.inner d o ho).trans_le hn
    · have := List.mem_of_getElem? ho
      obtain rfl : o = o2 := by simpa using this
      exact h2
  rcases step_cases s op with h | ⟨fd, _, h⟩ | ⟨e, o1, es1, es', ht, hk, hlo, h, hc⟩ | ⟨e, o1, es1, rfl, hk, h⟩ |
      ⟨e, o1, es1, rfl, hk, h⟩ | ⟨e, o1, es1, rfl, hk, h⟩ <;> rw [h]
  · exact hs
  · exact ⟨by simpa using appO _ (s.inners.length + 1) (by omega) (by simp),
      appI _ ⟨by simp [Entries.keys, Entries.toList], by simp [WFEs]⟩⟩
  · have hw : es'.keys.Nodup ∧ WFEs es' := by
      have h1 := hs.members _ _ (look_iff.mp hk).2
      rcases hc with ⟨k, p, hop, rfl⟩ | ⟨k, _, rfl⟩
      · have hp := (hb _ _ _ hop).lock
        exact set_wf h1.1 h1.2 hp.wf (lock_lock p)
      · exact erase_wf h1.1 h1.2
    refine ⟨fun d o ho => ?_, fun i es he => ?_⟩
    · simp only [store, List.getElem?_set, List.length_set] at ho ⊢
      split at ho
      · split at ho
        · obtain rfl := Option.some.inj ho
          exact hs.inner e o1 (look_iff.mp hk).1
        · simp at ho
      · exact hs.inner d o ho
    · simp only [store, List.getElem?_set] at he
      split at he
      · split at he
        · obtain rfl := Option.some.inj he
          exact hw
        · simp at he
      · exact hs.members i es he
  · refine ⟨fun d o ho => ?_, hs.members⟩
    simp only [List.getElem?_set] at ho
    split at ho
    · split at ho
      · obtain rfl := Option.some.inj ho
        exact hs.inner e o1 (look_iff.mp hk).1
      · simp at ho
    · exact hs.inner d o ho
  · exact ⟨appO _ _ le_rfl (hs.inner e o1 (look_iff.mp hk).1), hs.members⟩
  · exact ⟨by simpa using appO _ (s.inners.length + 1) (by omega) (by simp), appI _ (hs.members _ _ (look_iff.mp hk).2)⟩

theorem inv_run {s : State} (hs : Inv s) (ops : List Op) (hb : ∀ d k p, Op.set d k p ∈ ops → Built p) : Inv (run s ops) := by
  induction ops generalizing s with
  | nil => exact hs
  | cons op ops ih =>
    exact ih (inv_step hs op fun d k p h => hb d k p (by simp [h])) fun d k p h => hb d k p (by simp [h])

theorem Reached.inv {s : State} (h : Reached s) : Inv s := by
  obtain ⟨ops, hb, rfl⟩ := h
  exact inv_run ⟨by simp, by simp⟩ ops hb

/-! ### The lists of members -/

theorem set_toList {es : Entries} (hk : es.keys.Nodup) (k : String) (p : Pattern) : (es.set k p).toList =
    if k ∈ es.keys then es.toList.map (fun kp => if kp.1 = k then (k, p) else kp) else es.toList ++ [(k, p)] := by
  match es with
  | .nil => simp [Entries.set, Entries.keys, Entries.toList]
  | .cons k0 p0 r =>
    obtain ⟨hk1, hk2⟩ := nodup_keys_cons hk
    have ih := set_toList hk2 k p
    simp only [Entries.set]
    split
    · next h =>
      subst h
      have hm : r.toList.map (fun kp => if kp.1 = k0 then (k0, p) else kp) = r.toList := by
        conv_rhs => rw [← List.map_id r.toList]
        refine List.map_congr_left fun kp hkp => ?_
        rw [if_neg]
        · rfl
        · rintro rfl
          exact hk1 (List.mem_map.mpr ⟨kp, hkp, rfl⟩)
      simp [Entries.keys, Entries.toList, hm]
    · next h =>
      simp only [Entries.keys, Entries.toList, List.map_cons, List.mem_cons] at ih ⊢
      rw [ih]
      by_cases hr : k ∈ r.toList.map (·.1)
      · simp only [hr, or_true, if_true, h, if_false]
      · simp only [hr, or_false, if_false, Ne.symm h, List.cons_append]

theorem erase_toList {es : Entries} (hk : es.keys.Nodup) (k : String) :
    (es.erase k).toList = es.toList.filter (fun kp => kp.1 ≠ k) := by
  match es with
  | .nil => simp [Entries.erase, Entries.toList]
  | .cons k0 p0 r =>
    obtain ⟨hk1, hk2⟩ := nodup_keys_cons hk
    have ih := erase_toList hk2 k
    simp only [Entries.erase]
    split
    · next h =>
      subst h
      have hm : r.toList.filter (fun kp => decide (kp.1 ≠ k0)) = r.toList := by
        refine List.filter_eq_self.mpr fun kp hkp => ?_
        simp only [ne_eq, decide_not, Bool.not_eq_eq_eq_not, Bool.not_true, decide_eq_false_iff_not]
        rintro rfl
        exact hk1 (List.mem_map.mpr ⟨kp, hkp, rfl⟩)
      rw [Entries.toList, List.filter_cons_of_neg (by simp), hm]
    · next h =>
      rw [Entries.toList, Entries.toList, List.filter_cons_of_pos (by simp [h]), ih]

/-! ### Programs without shallow copies -/

/-- Every object has an `OrderedDict` of its own, and the right lengths. -/
structure Apart (s : State) : Prop where
  inner : ∀ (d : Nat) (o : Obj), s.objs[d]? = some o → o.inner < s.inners.length
  own : ∀ (c d : Nat) (oc od : Obj), s.objs[c]? = some oc → s.objs[d]? = some od → oc.inner = od.inner → c = d
  len : ∀ (d : Nat) (o : Obj) (es : Entries), s.objs[d]? = some o → s.inners[o.inner]? = some es →
    o.freeLen = flatLenEs es true ∧ o.flatLen = flatLenEs es false

theorem append_one {α : Type} {l : List α} {a b : α} {i : Nat} (h : (l ++ [a])[i]? = some b) :
    l[i]? = some b ∨ (i = l.length ∧ b = a) := by
  rw [List.getElem?_append] at h
  split at h
  · exact .inl h
  · next hi =>
    have h1 := lt_of_some h
    simp only [List.length_singleton] at h1
    have : i - l.length = 0 := by omega
    rw [this] at h
    simp only [List.getElem?_cons_zero, Option.some.injEq] at h
    exact .inr ⟨by omega, h.symm⟩

theorem apart_append {s : State} (hs : Apart s) {o : Obj} {es : Entries} (hi : o.inner = s.inners.length)
    (hl : o.freeLen = flatLenEs es true ∧ o.flatLen = flatLenEs es false) : Apart ⟨s.inners ++ [es], s.objs ++ [o]⟩ := by
  refine ⟨fun d o' ho => ?_, fun c d oc od hc hd h => ?_, fun d o' es' ho he => ?_⟩
  · rcases append_one ho with h | ⟨_, rfl⟩
    · have := hs.inner _ _ h; simp; omega
    · simp [hi]
  · rcases append_one hc with h1 | ⟨h1, rfl⟩ <;> rcases append_one hd with h2 | ⟨h2, rfl⟩
    · exact hs.own _ _ _ _ h1 h2 h
    · have := hs.inner _ _ h1; omega
    · have := hs.inner _ _ h2; omega
    · omega
  · rcases append_one ho with h | ⟨_, rfl⟩
    · have h1 := hs.inner _ _ h
      rcases append_one he with h2 | ⟨h2, _⟩
      · exact hs.len _ _ _ h h2
      · omega
    · rcases append_one he with h2 | ⟨h2, rfl⟩
      · have := lt_of_some h2; omega
      · exact hl

theorem set_some {α : Type} {l : List α} {i j : Nat} {a b : α} (h : (l.set i a)[j]? = some b) :
    (i = j ∧ b = a) ∨ (i ≠ j ∧ l[j]? = some b) := by
  rw [List.getElem?_set] at h
  split at h
  · next hij =>
    split at h
    · exact .inl ⟨hij, (Option.some.inj h).symm⟩
    · simp at h
  · next hij => exact .inr ⟨hij, h⟩

theorem apart_step {s : State} (hs : Apart s) {op : Op} (hop : ∀ d, op ≠ .copy d) : Apart (step s op).2 := by
  have back : ∀ {e : Nat} {o1 o2 : Obj}, s.objs[e]? = some o1 → o2.inner = o1.inner → ∀ {c : Nat} {oc : Obj},
      (s.objs.set e o2)[c]? = some oc → ∃ o, s.objs[c]? = some o ∧ o.inner = oc.inner := by
    intro e o1 o2 h1 h2 c oc hc
    rcases set_some hc with ⟨rfl, rfl⟩ | ⟨_, h⟩
    · exact ⟨o1, h1, h2.symm⟩
    · exact ⟨oc, h, rfl⟩
  rcases step_cases s op with h | ⟨fd, _, h⟩ | ⟨e, o1, es1, es', ht, hk, hlo, h, hc⟩ | ⟨e, o1, es1, rfl, hk, h⟩ |
      ⟨e, o1, es1, rfl, hk, h⟩ | ⟨e, o1, es1, rfl, hk, h⟩ <;> rw [h]
  · exact hs
  · exact apart_append hs rfl ⟨by simp [flatLenEs], by simp [flatLenEs]⟩
  · obtain ⟨h1, h2⟩ := look_iff.mp hk
    refine ⟨fun d o ho => ?_, fun c d oc od hc hd hi => ?_, fun d o es ho he => ?_⟩
    · obtain ⟨o', g1, g2⟩ := back (o2 := { o1 with freeLen := flatLenEs es' true, flatLen := flatLenEs es' false }) h1 rfl ho
      have := hs.inner _ _ g1
      simp only [store, List.length_set]; omega
    · obtain ⟨o', g1, g2⟩ := back (o2 := { o1 with freeLen := flatLenEs es' true, flatLen := flatLenEs es' false }) h1 rfl hc
      obtain ⟨o'', k1, k2⟩ := back (o2 := { o1 with freeLen := flatLenEs es' true, flatLen := flatLenEs es' false }) h1 rfl hd
      exact hs.own _ _ _ _ g1 k1 (by omega)
    · rcases set_some ho with ⟨rfl, rfl⟩ | ⟨hne, g⟩
      · rcases set_some he with ⟨_, rfl⟩ | ⟨hne, _⟩
        · exact ⟨rfl, rfl⟩
        · exact absurd rfl hne
      · rcases set_some he with ⟨hi, _⟩ | ⟨_, g2⟩
        · exact absurd (hs.own _ _ _ _ h1 g hi) hne
        · exact hs.len _ _ _ g g2
  · obtain ⟨h1, h2⟩ := look_iff.mp hk
    refine ⟨fun d o ho => ?_, fun c d oc od hc hd hi => ?_, fun d o es ho he => ?_⟩
    · obtain ⟨o', g1, g2⟩ := back (o2 := { o1 with locked := true }) h1 rfl ho
      have := hs.inner _ _ g1
      simp only; omega
    · obtain ⟨o', g1, g2⟩ := back (o2 := { o1 with locked := true }) h1 rfl hc
      obtain ⟨o'', k1, k2⟩ := back (o2 := { o1 with locked := true }) h1 rfl hd
      exact hs.own _ _ _ _ g1 k1 (by omega)
    · rcases set_some ho with ⟨rfl, rfl⟩ | ⟨_, g⟩
      · exact hs.len e o1 es h1 he
      · exact hs.len _ _ _ g he
  · exact absurd rfl (hop e)
  · obtain ⟨h1, h2⟩ := look_iff.mp hk
    have hl := hs.len e o1 es1 h1 h2
    exact apart_append hs rfl hl

theorem apart_run {s : State} (hs : Apart s) {ops : List Op} (hop : ∀ d, Op.copy d ∉ ops) : Apart (run s ops) := by
  induction ops generalizing s with
  | nil => exact hs
  | cons op ops ih =>
    exact ih (apart_step hs fun d h => hop d (by simp [h])) fun d h => hop d (by simp [h])

/-! ### Folding -/

theorem foldNFEs_take {α : Type} [Elem α] (es : Entries) : ∀ (l : List α) (vv : Option Bool) (o n : Nat), o + flatLenEs es false ≤ n →
    foldNFEs es (vec (l.take n)) vv o = foldNFEs es (vec l) vv o := by
  induction es using Entries.rec (motive_1 := fun _ => True) with
  | nil => intro l vv o n _; simp [foldNFEs]
  | cons k p r _ ih =>
    intro l vv o n h
    rw [flatLenEs] at h
    have hs : (vec (l.take n)).slice o (p.flatLen false) = (vec l).slice o (p.flatLen false) := by
      simp only [NDArray.slice, vec]
      rw [List.drop_take, List.take_take, min_eq_left (by omega)]
    rw [foldNFEs, foldNFEs, hs, ih l vv _ n (by omega)]
  | _ => trivial

theorem foldFreeEs_take (es : Entries) : ∀ (l : List Flt) (o n : Nat), o + flatLenEs es true ≤ n →
    foldFreeEs es (vec (l.take n)) o = foldFreeEs es (vec l) o := by
  induction es using Entries.rec (motive_1 := fun _ => True) with
  | nil => intro l o n _; simp [foldFreeEs]
  | cons k p r _ ih =>
    intro l o n h
    rw [flatLenEs] at h
    have hs : (vec (l.take n)).slice o (p.flatLen true) = (vec l).slice o (p.flatLen true) := by
      simp only [NDArray.slice, vec]
      rw [List.drop_take, List.take_take, min_eq_left (by omega)]
    rw [foldFreeEs, foldFreeEs, hs, ih l _ n (by omega)]
  | _ => trivial

theorem foldNFEs_short (es : Entries) : ∀ (l : List Flt) (vv : Option Bool) (o : Nat), o ≤ l.length → l.length < o + flatLenEs es false →
    ∃ e, foldNFEs es (vec l) vv o = .error e := by
  induction es using Entries.rec (motive_1 := fun _ => True) with
  | nil => intro l vv o h1 h2; rw [flatLenEs] at h2; omega
  | cons k p r _ ih =>
    intro l vv o h1 h2
    rw [flatLenEs] at h2
    rw [foldNFEs]
    by_cases h : o + p.flatLen false ≤ l.length
    · obtain ⟨e, he⟩ := ih l vv (o + p.flatLen false) h (by omega)
      rcases hp : p.foldNF ((vec l).slice o (p.flatLen false)) vv with e' | v
      · exact ⟨e', rfl⟩
      · exact ⟨e, by simp only [bind, Except.bind, he]⟩
    · obtain ⟨m, hm⟩ := C07_fold_rejects_wrong_size (p := p) (free := some false) (vv := vv) (flatLength_some _ _)
        (l := (l.drop o).take (p.flatLen false)) (by simp; omega)
      rw [fold_false] at hm
      have : (vec l).slice o (p.flatLen false) = vec ((l.drop o).take (p.flatLen false)) := rfl
      rw [this, hm]
      exact ⟨_, rfl⟩
  | _ => trivial

theorem foldFreeEs_short (es : Entries) : ∀ (l : List Flt) (o : Nat), o ≤ l.length → l.length < o + flatLenEs es true →
    ∃ e, foldFreeEs es (vec l) o = .error e := by
  induction es using Entries.rec (motive_1 := fun _ => True) with
  | nil => intro l o h1 h2; rw [flatLenEs] at h2; omega
  | cons k p r _ ih =>
    intro l o h1 h2
    rw [flatLenEs] at h2
    rw [foldFreeEs]
    by_cases h : o + p.flatLen true ≤ l.length
    · obtain ⟨e, he⟩ := ih l (o + p.flatLen true) h (by omega)
      rcases hp : p.foldFree ((vec l).slice o (p.flatLen true)) with e' | v
      · exact ⟨e', rfl⟩
      · exact ⟨e, by simp only [bind, Except.bind, he]⟩
    · obtain ⟨m, hm⟩ := C07_fold_rejects_wrong_size (p := p) (free := some true) (vv := none) (flatLength_some _ _)
        (l := (l.drop o).take (p.flatLen true)) (by simp; omega)
      rw [fold_true] at hm
      have : (vec l).slice o (p.flatLen true) = vec ((l.drop o).take (p.flatLen true)) := rfl
      rw [this, hm]
      exact ⟨_, rfl⟩
  | _ => trivial

end Paragami.Copies
