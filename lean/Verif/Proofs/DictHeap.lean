import Verif.Proofs.User
import Verif.Model.DictHeap

/-! # Invariants of the heap of dictionaries -/

set_option linter.unusedSimpArgs false

namespace Paragami

namespace DictHeap
open Pattern NDArray
open scoped Classical

/-! ### Single operations -/

theorem updateLen_congr {h h' : Heap} {ms : List (String × Ref)} {free : Bool}
    (hc : ∀ m ∈ ms, Ref.len h free m.2 = Ref.len h' free m.2) : updateLen h ms free = updateLen h' ms free := by
  simp only [updateLen, mapE_congr hc]

theorem refLen_congr {h h' : Heap} {free : Bool} {r : Ref}
    (hc : ∀ e, r = .dict e → (h[e]?).map (fun o => o.len free) = (h'[e]?).map fun o => o.len free) :
    Ref.len h free r = Ref.len h' free r := by
  cases r with
  | leaf p => rfl
  | junk => rfl
  | dict e =>
    have := hc e rfl
    simp only [Ref.len]
    cases h1 : h[e]? <;> cases h2 : h'[e]? <;> simp_all

theorem updateLen_junk {h : Heap} {ms : List (String × Ref)} {free : Bool} (hv : ∀ m ∈ ms, m.2.valid h = true)
    (hj : ∃ m ∈ ms, m.2 = .junk) : updateLen h ms free = .error .attributeError := by
  have : mapE (fun m : String × Ref => Ref.len h free m.2) ms = .error .attributeError := by
    induction ms with
    | nil => simp at hj
    | cons m ms ih =>
      simp only [mapE]
      cases hm : m.2 with
      | junk => simp [Ref.len]
      | leaf p =>
        rw [ih (fun x hx => hv x (by simp [hx]))]
        · simp [Ref.len]
        obtain ⟨x, hx, hj⟩ := hj
        rcases List.mem_cons.mp hx with rfl | hx
        · rw [hm] at hj; simp at hj
        · exact ⟨x, hx, hj⟩
      | dict e =>
        have he := hv m (by simp)
        rw [hm] at he
        simp only [Ref.valid, decide_eq_true_eq] at he
        rw [ih (fun x hx => hv x (by simp [hx]))]
        · simp [Ref.len, List.getElem?_eq_getElem he]
        obtain ⟨x, hx, hj⟩ := hj
        rcases List.mem_cons.mp hx with rfl | hx
        · rw [hm] at hj; simp at hj
        · exact ⟨x, hx, hj⟩
  simp [updateLen, this, bind, Except.bind]

theorem refLen_ok {h : Heap} {r : Ref} {free : Bool} (hv : r.valid h = true) (hj : r ≠ .junk) :
    ∃ l, Ref.len h free r = .ok l := by
  cases r with
  | leaf p => exact ⟨_, rfl⟩
  | junk => exact absurd rfl hj
  | dict e =>
    simp only [Ref.valid, decide_eq_true_eq] at hv
    simp [Ref.len, List.getElem?_eq_getElem hv]

theorem updateLen_ok {h : Heap} {ms : List (String × Ref)} {free : Bool} (hv : ∀ m ∈ ms, m.2.valid h = true)
    (hj : ∀ m ∈ ms, m.2 ≠ .junk) : ∃ l, updateLen h ms free = .ok l := by
  have : ∃ ls, mapE (fun m : String × Ref => Ref.len h free m.2) ms = .ok ls := by
    induction ms with
    | nil => exact ⟨[], rfl⟩
    | cons m ms ih =>
      obtain ⟨ls, h1⟩ := ih (fun x hx => hv x (by simp [hx])) (fun x hx => hj x (by simp [hx]))
      obtain ⟨l, h2⟩ := refLen_ok (free := free) (hv m (by simp)) (hj m (by simp))
      exact ⟨l :: ls, by simp only [mapE, h1, h2]⟩
  obtain ⟨ls, h1⟩ := this
  simp only [updateLen, h1, bind, Except.bind, pure, Except.pure]
  exact ⟨_, rfl⟩

theorem refresh_spec {h : Heap} {d : Nat} {o : Obj} (ho : h[d]? = some o) (hv : ∀ m ∈ o.members, m.2.valid h = true) :
    ∃ o', (refresh h d).2 = h.set d o' ∧ o'.members = o.members ∧ o'.locked = o.locked ∧ o'.fd = o.fd ∧
      ((∃ m ∈ o.members, m.2 = .junk) → (refresh h d).1 = .error .attributeError ∧ o' = o) ∧
      ((∀ m ∈ o.members, m.2 ≠ .junk) → (refresh h d).1 = .ok () ∧
        ∀ free, updateLen h o.members free = .ok (o'.len free)) := by
  have hd : d < h.length := (List.getElem?_eq_some_iff.mp ho).1
  have hset : h.set d o = h := by
    rw [← (List.getElem?_eq_some_iff.mp ho).2]; exact List.set_getElem_self hd
  by_cases hj : ∃ m ∈ o.members, m.2 = .junk
  · have e : refresh h d = (.error .attributeError, h) := by
      simp only [refresh, ho, updateLen_junk hv hj]
    refine ⟨o, by rw [e, hset], rfl, rfl, rfl, fun _ => ⟨by rw [e], rfl⟩, fun hn => ?_⟩
    obtain ⟨m, hm, he⟩ := hj
    exact absurd he (hn m hm)
  · have hn : ∀ m ∈ o.members, m.2 ≠ .junk := fun m hm e => hj ⟨m, hm, e⟩
    obtain ⟨l, h1⟩ := updateLen_ok (free := true) hv hn
    obtain ⟨l', h2⟩ := updateLen_ok (free := false) hv hn
    have h3 : updateLen (h.set d { o with freeLen := l }) o.members false = .ok l' := by
      rw [← h2]
      apply updateLen_congr
      intro m _
      apply refLen_congr
      intro e _
      by_cases hde : d = e
      · subst hde
        rw [List.getElem?_set_self hd, ho]; rfl
      · rw [List.getElem?_set_ne hde]
    refine ⟨{ o with freeLen := l, flatLen := l' }, ?_, rfl, rfl, rfl, fun h => absurd h hj, fun _ => ⟨?_, ?_⟩⟩
    · simp [refresh, ho, h1, h3]
    · simp [refresh, ho, h1, h3]
    · intro free
      cases free
      · simpa [Obj.len] using h2
      · simpa [Obj.len] using h1

theorem lock_getElem {h : Heap} {d e : Nat} : (lock h d)[e]? =
    if d = e then (h[e]?).map fun o => { o with locked := true } else h[e]? := by
  unfold lock
  split
  · next o ho =>
    have hd : d < h.length := (List.getElem?_eq_some_iff.mp ho).1
    by_cases hde : d = e
    · subst hde; rw [List.getElem?_set_self hd, if_pos rfl, ho]; rfl
    · rw [List.getElem?_set_ne hde, if_neg hde]
  · next ho =>
    by_cases hde : d = e
    · subst hde; simp [ho]
    · rw [if_neg hde]

theorem lock_length {h : Heap} {d : Nat} : (lock h d).length = h.length := by
  unfold lock; split <;> simp

theorem valid_of_length {h h' : Heap} (hl : h.length = h'.length) (r : Ref) : r.valid h = r.valid h' := by
  cases r <;> simp [Ref.valid, hl]

theorem mem_setKey {ms : List (String × Ref)} {k : String} {r : Ref} {m : String × Ref} (h : m ∈ setKey ms k r) :
    m = (k, r) ∨ m ∈ ms := by
  induction ms with
  | nil => simp [setKey] at h; exact Or.inl h
  | cons a ms ih =>
    obtain ⟨k', r'⟩ := a
    simp only [setKey] at h
    split at h
    · next e =>
      subst e
      rcases List.mem_cons.mp h with rfl | h
      · exact Or.inl rfl
      · exact Or.inr (List.mem_cons_of_mem _ h)
    · rcases List.mem_cons.mp h with rfl | h
      · exact Or.inr (by simp)
      · rcases ih h with rfl | h
        · exact Or.inl rfl
        · exact Or.inr (List.mem_cons_of_mem _ h)

theorem mem_eraseKey {ms : List (String × Ref)} {k : String} {m : String × Ref} (h : m ∈ eraseKey ms k) : m ∈ ms := by
  induction ms with
  | nil => simp [eraseKey] at h
  | cons a ms ih =>
    simp only [eraseKey] at h
    split at h
    · exact List.mem_cons_of_mem _ h
    · rcases List.mem_cons.mp h with rfl | h
      · simp
      · exact List.mem_cons_of_mem _ (ih h)

theorem keys_setKey (ms : List (String × Ref)) (k : String) (r : Ref) :
    (setKey ms k r).map (·.1) = if k ∈ ms.map (·.1) then ms.map (·.1) else ms.map (·.1) ++ [k] := by
  induction ms with
  | nil => simp [setKey]
  | cons a ms ih =>
    obtain ⟨k', r'⟩ := a
    simp only [setKey]
    split
    · next e => subst e; simp
    · next e =>
      simp only [List.map_cons, ih, List.mem_cons, Ne.symm e, false_or]
      split <;> simp

theorem keys_eraseKey (ms : List (String × Ref)) (k : String) :
    (eraseKey ms k).map (·.1) = (ms.map (·.1)).erase k := by
  induction ms with
  | nil => simp [eraseKey]
  | cons a ms ih =>
    obtain ⟨k', r'⟩ := a
    simp only [eraseKey]
    split
    · next e => subst e; simp
    · next e => simp only [List.map_cons, ih]; rw [List.erase_cons_tail (by simpa using e)]

theorem mem_setKey_self (ms : List (String × Ref)) (k : String) (r : Ref) : (k, r) ∈ setKey ms k r := by
  induction ms with
  | nil => simp [setKey]
  | cons a ms ih =>
    simp only [setKey]
    split
    · next e => rw [e]; simp
    · exact List.mem_cons_of_mem _ ih

/-- What `__setitem__` does to an unlocked dictionary. -/
theorem setItem_spec {h : Heap} {d : Nat} {k : String} {r : Ref} {o : Obj} (ho : h[d]? = some o)
    (hr : r.valid h = true) (hl : o.locked = false) (hv : ∀ m ∈ o.members, m.2.valid h = true) :
    (setItem h d k r).2.length = h.length ∧
    (∀ x, x ≠ d → (setItem h d k r).2[x]? = if r = .dict x then (h[x]?).map (fun o => { o with locked := true }) else h[x]?) ∧
    ∃ o', (setItem h d k r).2[d]? = some o' ∧ o'.members = setKey o.members k r ∧ o'.fd = o.fd ∧
      (o'.locked = true ↔ r = .dict d) ∧
      ((∃ m ∈ o'.members, m.2 = .junk) → (setItem h d k r).1 = .error .attributeError ∧ ∀ free, o'.len free = o.len free) ∧
      ((∀ m ∈ o'.members, m.2 ≠ .junk) → (setItem h d k r).1 = .ok () ∧
        ((∀ m ∈ o'.members, m.2 ≠ .dict d) → ∀ free, updateLen (setItem h d k r).2 o'.members free = .ok (o'.len free)) ∧
        ∀ free, updateLen (h.set d { o with members := setKey o.members k r }) o'.members free = .ok (o'.len free)) := by
  have hd : d < h.length := (List.getElem?_eq_some_iff.mp ho).1
  set o1 : Obj := { o with members := setKey o.members k r } with ho1
  set h1 := h.set d o1 with hh1
  have hh1d : h1[d]? = some o1 := by rw [hh1, List.getElem?_set_self hd]
  have hh1x : ∀ x, x ≠ d → h1[x]? = h[x]? := fun x hx => by rw [hh1, List.getElem?_set_ne (Ne.symm hx)]
  set h2 := (match r with | .dict e => lock h1 e | _ => h1) with hh2
  have hh2l : h2.length = h.length := by
    rw [hh2]; cases r <;> simp [lock_length, hh1]
  have hh2x : ∀ x, h2[x]? = if r = .dict x then (h1[x]?).map (fun o => { o with locked := true }) else h1[x]? := by
    intro x
    rw [hh2]
    cases r with
    | leaf p => simp
    | junk => simp
    | dict e =>
      simp only [Ref.dict.injEq]
      rw [lock_getElem]
  obtain ⟨o2, hh2d, hm2, hf2, hl2, hlen2⟩ : ∃ o2, h2[d]? = some o2 ∧ o2.members = setKey o.members k r ∧ o2.fd = o.fd ∧
      (o2.locked = true ↔ r = .dict d) ∧ ∀ free, o2.len free = o.len free := by
    rw [hh2x, hh1d]
    by_cases he : r = .dict d
    · rw [if_pos he]
      exact ⟨_, rfl, rfl, rfl, by simp [he], fun free => rfl⟩
    · rw [if_neg he]
      exact ⟨_, rfl, rfl, rfl, by simp [he, ho1, hl], fun free => rfl⟩
  have hv2 : ∀ m ∈ o2.members, m.2.valid h2 = true := by
    intro m hm
    rw [valid_of_length hh2l]
    rw [hm2] at hm
    rcases mem_setKey hm with rfl | hm
    · exact hr
    · exact hv m hm
  have heq : setItem h d k r = refresh h2 d := by
    simp only [setItem, ho]
    rw [if_neg (by simp [hr]), if_neg (by simp [hl])]
    cases r <;> rfl
  obtain ⟨o', g1, g2, g3, g4, g5, g6⟩ := refresh_spec hh2d hv2
  have hd2 : d < h2.length := by rw [hh2l]; exact hd
  have hres : ∀ x, x ≠ d → (refresh h2 d).2[x]? = h2[x]? := by
    intro x hx
    rw [g1, List.getElem?_set_ne (Ne.symm hx)]
  have hresd : (refresh h2 d).2[d]? = some o' := by rw [g1, List.getElem?_set_self hd2]
  rw [heq]
  refine ⟨by rw [g1, List.length_set, hh2l], fun x hx => ?_, o', hresd, by rw [g2, hm2], by rw [g4, hf2], by rw [g3]; exact hl2,
    fun hj => ?_, fun hj => ?_⟩
  · rw [hres x hx, hh2x, hh1x x hx]
  · rw [g2] at hj
    obtain ⟨a, b⟩ := g5 hj
    exact ⟨a, fun free => by rw [b, hlen2]⟩
  · rw [g2] at hj
    obtain ⟨a, b⟩ := g6 hj
    refine ⟨a, fun hself free => ?_, fun free => ?_⟩
    · rw [← b free, ← g2]
      apply updateLen_congr
      intro m hm
      apply refLen_congr
      intro e hme
      have : e ≠ d := fun h => hself m hm (by rw [hme, h])
      rw [hres e this]
    · rw [← b free, ← g2]
      apply updateLen_congr
      intro m hm
      apply refLen_congr
      intro e hme
      rw [hh2x]
      split
      · cases h1[e]? <;> rfl
      · rfl

/-- What `__delitem__` does to an unlocked dictionary that has the key. -/
theorem delItem_spec {h : Heap} {d : Nat} {k : String} {o : Obj} (ho : h[d]? = some o) (hl : o.locked = false)
    (hk : k ∈ o.members.map (·.1)) (hv : ∀ m ∈ o.members, m.2.valid h = true) :
    (delItem h d k).2.length = h.length ∧ (∀ x, x ≠ d → (delItem h d k).2[x]? = h[x]?) ∧
    ∃ o', (delItem h d k).2[d]? = some o' ∧ o'.members = eraseKey o.members k ∧ o'.fd = o.fd ∧ o'.locked = false ∧
      ((∃ m ∈ o'.members, m.2 = .junk) → (delItem h d k).1 = .error .attributeError ∧ ∀ free, o'.len free = o.len free) ∧
      ((∀ m ∈ o'.members, m.2 ≠ .junk) → (delItem h d k).1 = .ok () ∧
        ((∀ m ∈ o'.members, m.2 ≠ .dict d) → ∀ free, updateLen (delItem h d k).2 o'.members free = .ok (o'.len free)) ∧
        ∀ free, updateLen h o'.members free = .ok (o'.len free)) := by
  have hd : d < h.length := (List.getElem?_eq_some_iff.mp ho).1
  set o1 : Obj := { o with members := eraseKey o.members k } with ho1
  set h1 := h.set d o1 with hh1
  have hh1d : h1[d]? = some o1 := by rw [hh1, List.getElem?_set_self hd]
  have hh1x : ∀ x, x ≠ d → h1[x]? = h[x]? := fun x hx => by rw [hh1, List.getElem?_set_ne (Ne.symm hx)]
  have hh1l : h1.length = h.length := by simp [hh1]
  have hv1 : ∀ m ∈ o1.members, m.2.valid h1 = true := by
    intro m hm
    rw [valid_of_length hh1l]
    exact hv m (mem_eraseKey hm)
  have heq : delItem h d k = refresh h1 d := by
    have : (o.members.map (·.1)).contains k = true := by simpa using hk
    simp only [delItem, ho]
    rw [if_neg (by simp [hl]), if_neg (by rw [this]; simp)]
  obtain ⟨o', g1, g2, g3, g4, g5, g6⟩ := refresh_spec hh1d hv1
  have hd1 : d < h1.length := by rw [hh1l]; exact hd
  have hres : ∀ x, x ≠ d → (refresh h1 d).2[x]? = h1[x]? := by
    intro x hx
    rw [g1, List.getElem?_set_ne (Ne.symm hx)]
  have hresd : (refresh h1 d).2[d]? = some o' := by rw [g1, List.getElem?_set_self hd1]
  rw [heq]
  refine ⟨by rw [g1, List.length_set, hh1l], fun x hx => by rw [hres x hx, hh1x x hx], o', hresd, by rw [g2], by rw [g4],
    by rw [g3]; exact hl, fun hj => ?_, fun hj => ?_⟩
  · rw [g2] at hj
    obtain ⟨a, b⟩ := g5 hj
    exact ⟨a, fun free => by rw [b]; rfl⟩
  · rw [g2] at hj
    obtain ⟨a, b⟩ := g6 hj
    refine ⟨a, fun hself free => ?_, fun free => ?_⟩
    · rw [← b free, ← g2]
      apply updateLen_congr
      intro m hm
      apply refLen_congr
      intro e hme
      have : e ≠ d := fun h => hself m hm (by rw [hme, h])
      rw [hres e this]
    · rw [← b free, ← g2]
      apply updateLen_congr
      intro m hm
      apply refLen_congr
      intro e hme
      by_cases hed : e = d
      · subst hed; rw [hh1d, ho]; rfl
      · rw [hh1x e hed]

/-! ### Locked objects never change -/

theorem setItem_locked {h : Heap} {d : Nat} {k : String} {r : Ref} {o : Obj} (ho : h[d]? = some o) (hl : o.locked = true) :
    (setItem h d k r).2 = h ∧ ∃ e, (setItem h d k r).1 = .error e := by
  simp only [setItem, ho, hl, if_true]
  split <;> exact ⟨rfl, _, rfl⟩

theorem delItem_locked {h : Heap} {d : Nat} {k : String} {o : Obj} (ho : h[d]? = some o) (hl : o.locked = true) :
    delItem h d k = (.error lockedError, h) := by
  simp only [delItem, ho, hl, if_true]

theorem refresh_ne {h : Heap} {d x : Nat} (hx : x ≠ d) : (refresh h d).2[x]? = h[x]? := by
  unfold refresh
  split
  · rfl
  · split
    · rfl
    · simp only
      split
      · rw [List.getElem?_set_ne (Ne.symm hx)]
      · rw [List.getElem?_set_ne (Ne.symm hx), List.getElem?_set_ne (Ne.symm hx)]

theorem lock_locked {h : Heap} {d x : Nat} {o : Obj} (ho : h[x]? = some o) (hl : o.locked = true) :
    (lock h d)[x]? = some o := by
  rw [lock_getElem, ho]
  split
  · simp only [Option.map_some, Option.some.injEq]
    cases o; simp_all
  · rfl

theorem step_locked {h : Heap} {op : Op} {x : Nat} {o : Obj} (ho : h[x]? = some o) (hl : o.locked = true) :
    (step h op).2[x]? = some o := by
  cases op with
  | new fd =>
    simp only [step, newDict]
    rw [List.getElem?_append_left (List.getElem?_eq_some_iff.mp ho).1, ho]
  | lock d => exact lock_locked ho hl
  | set d k r =>
    simp only [step, setItem]
    split
    · exact ho
    · next o1 ho1 =>
      split
      · exact ho
      · split
        · exact ho
        · next hnl =>
          have hxd : x ≠ d := by
            rintro rfl
            rw [ho] at ho1; cases ho1
            exact hnl hl
          rw [refresh_ne hxd]
          have h1 : (h.set d { o1 with members := setKey o1.members k r })[x]? = some o := by
            rw [List.getElem?_set_ne (Ne.symm hxd), ho]
          cases r with
          | dict e => exact lock_locked h1 hl
          | leaf p => exact h1
          | junk => exact h1
  | del d k =>
    simp only [step, delItem]
    split
    · exact ho
    · next o1 ho1 =>
      split
      · exact ho
      · next hnl =>
        split
        · exact ho
        · have hxd : x ≠ d := by
            rintro rfl
            rw [ho] at ho1; cases ho1
            exact hnl hl
          rw [refresh_ne hxd, List.getElem?_set_ne (Ne.symm hxd), ho]

theorem run_locked {h : Heap} {ops : List Op} {x : Nat} {o : Obj} (ho : h[x]? = some o) (hl : o.locked = true) :
    (run h ops)[x]? = some o := by
  induction ops generalizing h with
  | nil => exact ho
  | cons op ops ih => exact ih (step_locked ho hl)

/-! ### The invariant -/

/-- What holds of every heap a program can reach. -/
structure Inv (h : Heap) : Prop where
  nodup : ∀ (d : Nat) (o : Obj), h[d]? = some o → (o.members.map (·.1)).Nodup
  locked : ∀ (d : Nat) (o : Obj), h[d]? = some o → ∀ k e, (k, Ref.dict e) ∈ o.members →
    ∃ oe : Obj, h[e]? = some oe ∧ oe.locked = true
  lens : ∀ (d : Nat) (o : Obj), h[d]? = some o → (∀ m ∈ o.members, m.2 ≠ Ref.junk) → (∀ m ∈ o.members, m.2 ≠ Ref.dict d) →
    ∀ free, ∃ l, updateLen h o.members free = .ok l ∧ l.n = (o.len free).n ∧ (o.members ≠ [] → l = o.len free)

theorem Inv.valid {h : Heap} (hi : Inv h) {d : Nat} {o : Obj} (ho : h[d]? = some o) : ∀ m ∈ o.members, m.2.valid h = true := by
  rintro ⟨k, r⟩ hm
  cases r with
  | leaf p => rfl
  | junk => rfl
  | dict e =>
    obtain ⟨oe, h1, _⟩ := hi.locked d o ho k e hm
    simpa [Ref.valid] using (List.getElem?_eq_some_iff.mp h1).1

theorem inv_nil : Inv [] := ⟨by simp, by simp, by simp⟩

/-- The invariant survives any change that leaves locked objects alone, provided it is re-established for the objects
that did change. -/
theorem Inv.of_frame {h h' : Heap} (hi : Inv h)
    (hf : ∀ (x : Nat) (o : Obj), h[x]? = some o → o.locked = true → h'[x]? = some o)
    (hn : ∀ (x : Nat) (o' : Obj), h'[x]? = some o' → (∃ o, h[x]? = some o ∧ o'.members = o.members ∧ ∀ free, o'.len free = o.len free) ∨
      ((o'.members.map (·.1)).Nodup ∧
        (∀ k e, (k, Ref.dict e) ∈ o'.members → ∃ oe : Obj, h'[e]? = some oe ∧ oe.locked = true) ∧
        ((∀ m ∈ o'.members, m.2 ≠ Ref.junk) → (∀ m ∈ o'.members, m.2 ≠ Ref.dict x) → ∀ free, ∃ l,
          updateLen h' o'.members free = .ok l ∧ l.n = (o'.len free).n ∧ (o'.members ≠ [] → l = o'.len free)))) : Inv h' := by
  refine ⟨fun d o' ho' => ?_, fun d o' ho' k e hm => ?_, fun d o' ho' hj hs free => ?_⟩
  · rcases hn d o' ho' with ⟨o, ho, e1, _⟩ | ⟨h1, _⟩
    · rw [e1]; exact hi.nodup d o ho
    · exact h1
  · rcases hn d o' ho' with ⟨o, ho, e1, _⟩ | ⟨_, h2, _⟩
    · rw [e1] at hm
      obtain ⟨oe, g1, g2⟩ := hi.locked d o ho k e hm
      exact ⟨oe, hf e oe g1 g2, g2⟩
    · exact h2 k e hm
  · rcases hn d o' ho' with ⟨o, ho, e1, e2⟩ | ⟨_, _, h3⟩
    · rw [e1] at hj hs ⊢
      obtain ⟨l, g1, g2⟩ := hi.lens d o ho hj hs free
      refine ⟨l, ?_, by rw [e2]; exact g2⟩
      rw [← g1]
      apply updateLen_congr
      rintro ⟨k, r⟩ hm
      apply refLen_congr
      rintro e rfl
      obtain ⟨oe, g1, g2⟩ := hi.locked d o ho k e hm
      rw [hf e oe g1 g2, g1]
    · exact h3 hj hs free

theorem nodup_setKey {ms : List (String × Ref)} (hn : (ms.map (·.1)).Nodup) (k : String) (r : Ref) :
    ((setKey ms k r).map (·.1)).Nodup := by
  rw [keys_setKey]
  split
  · exact hn
  · next hk =>
    rw [List.nodup_append]
    exact ⟨hn, by simp, by rintro a ha b hb rfl; simp at hb; exact hk (hb ▸ ha)⟩

theorem nodup_eraseKey {ms : List (String × Ref)} (hn : (ms.map (·.1)).Nodup) (k : String) :
    ((eraseKey ms k).map (·.1)).Nodup := by
  rw [keys_eraseKey]; exact hn.erase k

theorem step_inv {h : Heap} (hi : Inv h) (op : Op) : Inv (step h op).2 := by
  refine hi.of_frame (fun x o ho hl => step_locked ho hl) ?_
  intro x o' ho'
  cases op with
  | new fd =>
    simp only [step, newDict] at ho'
    by_cases hx : x < h.length
    · rw [List.getElem?_append_left hx] at ho'
      exact Or.inl ⟨o', ho', rfl, fun _ => rfl⟩
    · rw [List.getElem?_append_right (by omega)] at ho'
      have : o' = ⟨[], false, ⟨0, false⟩, ⟨0, false⟩, fd⟩ := by
        cases hxx : x - h.length with
        | zero => rw [hxx] at ho'; simpa using ho'.symm
        | succ n => rw [hxx] at ho'; simp at ho'
      subst this
      right
      refine ⟨by simp, by simp, fun _ _ free => ⟨⟨0, true⟩, rfl, ?_, by simp⟩⟩
      cases free <;> rfl
  | lock d =>
    left
    simp only [step] at ho'
    rw [lock_getElem] at ho'
    split at ho'
    · cases hx : h[x]? with
      | none => rw [hx] at ho'; simp at ho'
      | some o => rw [hx] at ho'; simp at ho'; subst ho'; exact ⟨o, rfl, rfl, fun _ => rfl⟩
    · exact ⟨o', ho', rfl, fun _ => rfl⟩
  | set d k r =>
    simp only [step] at ho' ⊢
    cases hd : h[d]? with
    | none => simp only [setItem, hd] at ho'; exact Or.inl ⟨o', ho', rfl, fun _ => rfl⟩
    | some o =>
    by_cases hr : r.valid h = true
    swap
    · simp only [setItem, hd, Bool.not_eq_true] at ho' hr
      rw [hr] at ho'
      exact Or.inl ⟨o', ho', rfl, fun _ => rfl⟩
    by_cases hl : o.locked = true
    · rw [(setItem_locked hd hl).1] at ho'; exact Or.inl ⟨o', ho', rfl, fun _ => rfl⟩
    · obtain ⟨s1, s2, o2, s3, s4, s5, s6, s7, s8⟩ := setItem_spec (k := k) hd hr (by simpa using hl) (hi.valid hd)
      by_cases hx : x = d
      · subst hx
        rw [s3] at ho'; cases ho'
        right
        refine ⟨by rw [s4]; exact nodup_setKey (hi.nodup x o hd) k r, fun k' e hm => ?_, fun hj hs free => ?_⟩
        · rw [s4] at hm
          rcases mem_setKey hm with hm | hm
          · simp only [Prod.mk.injEq] at hm
            obtain ⟨_, rfl⟩ := hm
            by_cases he : e = x
            · subst he
              exact ⟨o', s3, s6.mpr rfl⟩
            · rw [s2 e he, if_pos rfl]
              simp only [Ref.valid, decide_eq_true_eq] at hr
              rw [List.getElem?_eq_getElem hr]
              exact ⟨_, rfl, rfl⟩
          · obtain ⟨oe, g1, g2⟩ := hi.locked x o hd k' e hm
            exact ⟨oe, step_locked (op := .set x k r) g1 g2, g2⟩
        · have := (s8 hj).2.1 hs free
          exact ⟨_, this, rfl, fun _ => rfl⟩
      · rw [s2 x hx] at ho'
        left
        split at ho'
        · cases hx : h[x]? with
          | none => rw [hx] at ho'; simp at ho'
          | some o => rw [hx] at ho'; simp at ho'; subst ho'; exact ⟨o, rfl, rfl, fun _ => rfl⟩
        · exact ⟨o', ho', rfl, fun _ => rfl⟩
  | del d k =>
    simp only [step] at ho' ⊢
    cases hd : h[d]? with
    | none => simp only [delItem, hd] at ho'; exact Or.inl ⟨o', ho', rfl, fun _ => rfl⟩
    | some o =>
    by_cases hl : o.locked = true
    · rw [delItem_locked hd hl] at ho'; exact Or.inl ⟨o', ho', rfl, fun _ => rfl⟩
    by_cases hk : k ∈ o.members.map (·.1)
    swap
    · have hk' : (o.members.map (·.1)).contains k = false := by simpa using hk
      simp only [delItem, hd, hl, hk'] at ho'
      exact Or.inl ⟨o', ho', rfl, fun _ => rfl⟩
    · obtain ⟨s1, s2, o2, s3, s4, s5, s6, s7, s8⟩ := delItem_spec hd (by simpa using hl) hk (hi.valid hd)
      by_cases hx : x = d
      · subst hx
        rw [s3] at ho'; cases ho'
        right
        refine ⟨by rw [s4]; exact nodup_eraseKey (hi.nodup x o hd) k, fun k' e hm => ?_, fun hj hs free => ?_⟩
        · rw [s4] at hm
          obtain ⟨oe, g1, g2⟩ := hi.locked x o hd k' e (mem_eraseKey hm)
          exact ⟨oe, step_locked (op := .del x k) g1 g2, g2⟩
        · have := (s8 hj).2.1 hs free
          exact ⟨_, this, rfl, fun _ => rfl⟩
      · rw [s2 x hx] at ho'
        exact Or.inl ⟨o', ho', rfl, fun _ => rfl⟩

theorem run_inv {h : Heap} (hi : Inv h) (ops : List Op) : Inv (run h ops) := by
  induction ops generalizing h with
  | nil => exact hi
  | cons op ops ih => exact ih (step_inv hi op)

end DictHeap

end Paragami
