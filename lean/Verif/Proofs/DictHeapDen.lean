import Verif.Proofs.DictHeap
import Verif.Proofs.Built
import Verif.Spec.DictHeap

/-! # The heap of dictionaries refines the tree model -/

set_option linter.unusedSimpArgs false

namespace Paragami

namespace DictHeap
open Pattern NDArray
open scoped Classical

theorem den_frame {h h' : Heap} (hi : Inv h)
    (hf : ∀ (x : Nat) (o : Obj), h[x]? = some o → o.locked = true → h'[x]? = some o) {ms : List (String × Ref)} {es : Entries}
    (hd : Den h ms es) (hl : ∀ k e, (k, Ref.dict e) ∈ ms → ∃ oe : Obj, h[e]? = some oe ∧ oe.locked = true) : Den h' ms es := by
  induction hd with
  | nil => exact .nil
  | leaf _ ih => exact .leaf (ih fun k e hm => hl k e (List.mem_cons_of_mem _ hm))
  | @dict k _ _ _ e _ he _ _ ih1 ih2 =>
    obtain ⟨oe, g1, g2⟩ := hl k e (by simp)
    rw [he] at g1; cases g1
    exact .dict (hf _ _ he g2) (ih1 fun k e hm => hi.locked _ _ he k e hm) (ih2 fun k e hm => hl k e (List.mem_cons_of_mem _ hm))

theorem den_keys {h : Heap} {ms : List (String × Ref)} {es : Entries} (hd : Den h ms es) : es.keys = ms.map (·.1) := by
  induction hd with
  | nil => rfl
  | leaf _ ih => simp [Entries.keys, Entries.toList] at ih ⊢; exact ih
  | dict _ _ _ _ ih => simp [Entries.keys, Entries.toList] at ih ⊢; exact ih

theorem den_cons {h : Heap} {k : String} {r : Ref} {p : Pattern} {ms : List (String × Ref)} {es : Entries}
    (hr : r.Denotes h p) (hd : Den h ms es) : Den h ((k, r) :: ms) (.cons k p es) := by
  rcases hr with rfl | ⟨e, rfl, o, es', he, h1, rfl⟩
  · exact .leaf hd
  · exact .dict he h1 hd

theorem den_cons_inv {h : Heap} {k : String} {r : Ref} {ms : List (String × Ref)} {es : Entries}
    (hd : Den h ((k, r) :: ms) es) : ∃ p es', es = .cons k p es' ∧ r.Denotes h p ∧ Den h ms es' := by
  cases hd with
  | leaf h1 => exact ⟨_, _, rfl, Or.inl rfl, h1⟩
  | dict he h1 h2 => exact ⟨_, _, rfl, Or.inr ⟨_, rfl, _, _, he, h1, rfl⟩, h2⟩

theorem den_set {h : Heap} {ms : List (String × Ref)} {es : Entries} {k : String} {r : Ref} {p : Pattern}
    (hd : Den h ms es) (hr : r.Denotes h p) : Den h (setKey ms k r) (es.set k p) := by
  induction ms generalizing es with
  | nil => cases hd; exact den_cons hr .nil
  | cons m ms ih =>
    obtain ⟨k', r'⟩ := m
    obtain ⟨p', es', rfl, h1, h2⟩ := den_cons_inv hd
    simp only [setKey, Entries.set]
    split
    · exact den_cons hr h2
    · exact den_cons h1 (ih h2)

theorem den_erase {h : Heap} {ms : List (String × Ref)} {es : Entries} {k : String} (hd : Den h ms es) :
    Den h (eraseKey ms k) (es.erase k) := by
  induction ms generalizing es with
  | nil => cases hd; exact .nil
  | cons m ms ih =>
    obtain ⟨k', r'⟩ := m
    obtain ⟨p', es', rfl, h1, h2⟩ := den_cons_inv hd
    simp only [eraseKey, Entries.erase]
    split
    · exact h2
    · exact den_cons h1 (ih h2)

theorem den_unique {h : Heap} {ms : List (String × Ref)} {es es' : Entries} (hd : Den h ms es) (hd' : Den h ms es') :
    es = es' := by
  induction hd generalizing es' with
  | nil => cases hd'; rfl
  | leaf _ ih => cases hd' with | leaf h1 => rw [ih h1]
  | dict he _ _ ih1 ih2 =>
    cases hd' with
    | dict he' g1 g2 =>
      rw [he] at he'; cases he'
      rw [ih1 g1, ih2 g2]

theorem get?_isSome {es : Entries} {k : String} : (es.get? k).isSome = true ↔ k ∈ es.keys := by
  induction es using Entries.rec (motive_1 := fun _ => True) with
  | nil => simp [Entries.get?, Entries.keys, Entries.toList]
  | cons k' p r _ ih =>
    simp only [Entries.get?, Entries.keys, Entries.toList, List.map_cons, List.mem_cons] at ih ⊢
    split
    · next e => simp [e]
    · next e => rw [ih]; simp [Ne.symm e]
  | _ => trivial

/-- What holds of every heap that a program of good statements can reach. -/
structure Clean (h : Heap) : Prop extends Inv h where
  noJunk : ∀ (d : Nat) (o : Obj), h[d]? = some o → ∀ m ∈ o.members, m.2 ≠ Ref.junk
  noSelf : ∀ (d : Nat) (o : Obj), h[d]? = some o → ∀ m ∈ o.members, m.2 ≠ Ref.dict d
  leaves : ∀ (d : Nat) (o : Obj), h[d]? = some o → ∀ k p, (k, Ref.leaf p) ∈ o.members → p.isDict = false ∧ p.WF
  den : ∀ (d : Nat) (o : Obj), h[d]? = some o → ∃ es, Den h o.members es

theorem clean_nil : Clean [] := ⟨inv_nil, by simp, by simp, by simp, by simp⟩

/-- The three things that can happen to an object in one statement. -/
theorem step_cases {h : Heap} (hi : Inv h) (op : Op) (x : Nat) (o' : Obj) (ho' : (step h op).2[x]? = some o') :
    (∃ o, h[x]? = some o ∧ o'.members = o.members ∧ ∀ free, o'.len free = o.len free) ∨
    (h[x]? = none ∧ o'.members = []) ∨
    (∃ o k r, op = .set x k r ∧ h[x]? = some o ∧ o.locked = false ∧ r.valid h = true ∧ o'.members = setKey o.members k r) ∨
    (∃ o k, op = .del x k ∧ h[x]? = some o ∧ o.locked = false ∧ k ∈ o.members.map (·.1) ∧ o'.members = eraseKey o.members k) := by
  cases op with
  | new fd =>
    simp only [step, newDict] at ho'
    by_cases hx : x < h.length
    · rw [List.getElem?_append_left hx] at ho'
      exact Or.inl ⟨o', ho', rfl, fun _ => rfl⟩
    · rw [List.getElem?_append_right (by omega)] at ho'
      right; left
      refine ⟨List.getElem?_eq_none (by omega), ?_⟩
      cases hxx : x - h.length with
      | zero => rw [hxx] at ho'; simp at ho'; rw [← ho']
      | succ n => rw [hxx] at ho'; simp at ho'
  | lock d =>
    left
    simp only [step] at ho'
    rw [lock_getElem] at ho'
    split at ho'
    · cases hx : h[x]? with
      | none => rw [hx] at ho'; simp at ho'
      | some o => rw [hx] at ho'; simp at ho'; subst ho'; exact ⟨o, rfl, rfl, fun _ => rfl⟩
    · exact ⟨o', ho', rfl, fun _ => rfl⟩
  | set d k r =>
    simp only [step] at ho'
    cases hd : h[d]? with
    | none => simp only [setItem, hd] at ho'; exact Or.inl ⟨o', ho', rfl, fun _ => rfl⟩
    | some o =>
    by_cases hr : r.valid h = true
    swap
    · simp only [setItem, hd, Bool.not_eq_true] at ho' hr
      rw [hr] at ho'
      exact Or.inl ⟨o', ho', rfl, fun _ => rfl⟩
    by_cases hl : o.locked = true
    · rw [(setItem_locked hd hl).1] at ho'; exact Or.inl ⟨o', ho', rfl, fun _ => rfl⟩
    · obtain ⟨s1, s2, o2, s3, s4, s5, s6, s7, s8⟩ := setItem_spec (k := k) hd hr (by simpa using hl) (hi.valid hd)
      by_cases hx : x = d
      · subst hx
        rw [s3] at ho'; cases ho'
        exact Or.inr (Or.inr (Or.inl ⟨o, k, r, rfl, hd, by simpa using hl, hr, s4⟩))
      · rw [s2 x hx] at ho'
        left
        split at ho'
        · cases hx : h[x]? with
          | none => rw [hx] at ho'; simp at ho'
          | some o => rw [hx] at ho'; simp at ho'; subst ho'; exact ⟨o, rfl, rfl, fun _ => rfl⟩
        · exact ⟨o', ho', rfl, fun _ => rfl⟩
  | del d k =>
    simp only [step] at ho'
    cases hd : h[d]? with
    | none => simp only [delItem, hd] at ho'; exact Or.inl ⟨o', ho', rfl, fun _ => rfl⟩
    | some o =>
    by_cases hl : o.locked = true
    · rw [delItem_locked hd hl] at ho'; exact Or.inl ⟨o', ho', rfl, fun _ => rfl⟩
    by_cases hk : k ∈ o.members.map (·.1)
    swap
    · have hk' : (o.members.map (·.1)).contains k = false := by simpa using hk
      simp only [delItem, hd, hl, hk'] at ho'
      exact Or.inl ⟨o', ho', rfl, fun _ => rfl⟩
    · obtain ⟨s1, s2, o2, s3, s4, s5, s6, s7, s8⟩ := delItem_spec hd (by simpa using hl) hk (hi.valid hd)
      by_cases hx : x = d
      · subst hx
        rw [s3] at ho'; cases ho'
        exact Or.inr (Or.inr (Or.inr ⟨o, k, rfl, hd, by simpa using hl, hk, s4⟩))
      · rw [s2 x hx] at ho'
        exact Or.inl ⟨o', ho', rfl, fun _ => rfl⟩

/-- After a statement that stores a dictionary, that dictionary still denotes its tree, now locked. -/
theorem set_ref_den {h : Heap} (hc : Clean h) {d : Nat} {k : String} {r : Ref} {o : Obj} (ho : h[d]? = some o)
    (hl : o.locked = false) (hr : r.valid h = true) (hs : r ≠ .dict d) {p : Pattern} (hp : r.Denotes h p)
    (hleaf : ∀ q, r = .leaf q → q.isDict = false) : r.Denotes (setItem h d k r).2 p.lock := by
  rcases hp with rfl | ⟨e, rfl, oe, es, he, h1, rfl⟩
  · left
    have := hleaf p rfl
    cases p <;> simp_all [isDict, Pattern.lock]
  · right
    have hed : e ≠ d := fun h => hs (by rw [h])
    obtain ⟨s1, s2, _⟩ := setItem_spec (k := k) ho hr hl (hc.valid ho)
    refine ⟨e, rfl, { oe with locked := true }, es, ?_, ?_, rfl⟩
    · rw [s2 e hed, if_pos rfl, he]; rfl
    · exact den_frame hc.toInv (fun x o ho hl => step_locked (op := .set d k (.dict e)) ho hl) h1
        (fun k e' hm => hc.locked e oe he k e' hm)

theorem ref_den_exists {h : Heap} (hc : Clean h) {r : Ref} (hr : r.valid h = true) (hj : r ≠ .junk) : ∃ p, r.Denotes h p := by
  cases r with
  | leaf p => exact ⟨p, Or.inl rfl⟩
  | junk => exact absurd rfl hj
  | dict e =>
    simp only [Ref.valid, decide_eq_true_eq] at hr
    obtain ⟨es, h1⟩ := hc.den e _ (List.getElem?_eq_getElem hr)
    exact ⟨_, Or.inr ⟨e, rfl, _, es, List.getElem?_eq_getElem hr, h1, rfl⟩⟩

theorem step_clean {h : Heap} (hc : Clean h) {op : Op} (hg : GoodOp op) : Clean (step h op).2 := by
  have hf : ∀ (x : Nat) (o : Obj), h[x]? = some o → o.locked = true → (step h op).2[x]? = some o :=
    fun x o ho hl => step_locked ho hl
  refine ⟨step_inv hc.toInv op, fun x o' ho' => ?_, fun x o' ho' => ?_, fun x o' ho' => ?_, fun x o' ho' => ?_⟩ <;>
    rcases step_cases hc.toInv op x o' ho' with ⟨o, ho, e, _⟩ | ⟨_, e⟩ | ⟨o, k, r, rfl, ho, hl, hr, e⟩ | ⟨o, k, rfl, ho, hl, hk, e⟩ <;>
    rw [e]
  · exact hc.noJunk x o ho
  · simp
  · intro m hm
    rcases mem_setKey hm with rfl | hm
    · exact hg.1
    · exact hc.noJunk x o ho m hm
  · exact fun m hm => hc.noJunk x o ho m (mem_eraseKey hm)
  · exact hc.noSelf x o ho
  · simp
  · intro m hm
    rcases mem_setKey hm with rfl | hm
    · exact hg.2.1
    · exact hc.noSelf x o ho m hm
  · exact fun m hm => hc.noSelf x o ho m (mem_eraseKey hm)
  · exact hc.leaves x o ho
  · simp
  · intro k' p hm
    rcases mem_setKey hm with hm | hm
    · simp only [Prod.mk.injEq] at hm
      obtain ⟨h1, h2⟩ := hg.2.2 p hm.2.symm
      exact ⟨h1, h2.wf⟩
    · exact hc.leaves x o ho k' p hm
  · exact fun k' p hm => hc.leaves x o ho k' p (mem_eraseKey hm)
  · obtain ⟨es, h1⟩ := hc.den x o ho
    exact ⟨es, den_frame hc.toInv hf h1 (hc.locked x o ho)⟩
  · exact ⟨_, .nil⟩
  · obtain ⟨es, h1⟩ := hc.den x o ho
    obtain ⟨p, h2⟩ := ref_den_exists hc hr hg.1
    exact ⟨es.set k p.lock, den_set (den_frame hc.toInv hf h1 (hc.locked x o ho))
      (set_ref_den hc ho hl hr hg.2.1 h2 fun q hq => (hg.2.2 q hq).1)⟩
  · obtain ⟨es, h1⟩ := hc.den x o ho
    exact ⟨es.erase k, den_erase (den_frame hc.toInv hf h1 (hc.locked x o ho))⟩

theorem run_clean {h : Heap} (hc : Clean h) {ops : List Op} (hg : ∀ op ∈ ops, GoodOp op) : Clean (run h ops) := by
  induction ops generalizing h with
  | nil => exact hc
  | cons op ops ih => exact ih (step_clean hc (hg op (by simp))) (fun op' h => hg op' (by simp [h]))

theorem updateLen_n {h : Heap} {ms : List (String × Ref)} {free : Bool} {ls : List Len}
    (h1 : mapE (fun m : String × Ref => Ref.len h free m.2) ms = .ok ls) :
    updateLen h ms free = .ok ⟨(ls.map (·.n)).sum, ls.isEmpty || ls.any (·.isFloat)⟩ := by
  simp only [updateLen, h1, bind, Except.bind, pure, Except.pure]

theorem den_len {h : Heap} (hc : Clean h) {ms : List (String × Ref)} {es : Entries} (hd : Den h ms es) (free : Bool) :
    ∃ ls, mapE (fun m : String × Ref => Ref.len h free m.2) ms = .ok ls ∧ (ls.map (·.n)).sum = flatLenEs es free := by
  induction hd with
  | nil => exact ⟨[], rfl, rfl⟩
  | @leaf k p _ _ _ ih =>
    obtain ⟨ls, h1, h2⟩ := ih
    have : Ref.len h free (.leaf p) = .ok ⟨p.flatLen free, false⟩ := rfl
    exact ⟨⟨p.flatLen free, false⟩ :: ls, by simp only [mapE, h1, this], by simp [h2, flatLenEs]⟩
  | @dict _ _ _ es' e o he _ _ ih1 ih2 =>
    obtain ⟨ls', g1, g2⟩ := ih1
    obtain ⟨ls, h1, h2⟩ := ih2
    obtain ⟨l, g3, g4, _⟩ := hc.lens _ _ he (hc.noJunk _ _ he) (hc.noSelf _ _ he) free
    rw [updateLen_n g1] at g3
    cases g3
    have : Ref.len h free (.dict e) = .ok (o.len free) := by simp only [Ref.len, he]
    exact ⟨o.len free :: ls, by simp only [mapE, this, h1], by
      simp only [List.map_cons, List.sum_cons, ← g4, h2, flatLenEs, flatLen, g2]⟩

theorem denotes_len {h : Heap} (hc : Clean h) {d : Nat} {o : Obj} {es : Entries} (ho : h[d]? = some o)
    (hd : Den h o.members es) (free : Bool) : (o.len free).n = flatLenEs es free := by
  obtain ⟨ls, h1, h2⟩ := den_len hc hd free
  obtain ⟨l, g3, g4, _⟩ := hc.lens _ _ ho (hc.noJunk _ _ ho) (hc.noSelf _ _ ho) free
  rw [updateLen_n h1] at g3
  cases g3
  rw [← g4, h2]

theorem den_wf {h : Heap} (hc : Clean h) {ms : List (String × Ref)} {es : Entries} (hd : Den h ms es)
    (hl : ∀ k e, (k, Ref.dict e) ∈ ms → ∃ oe : Obj, h[e]? = some oe ∧ oe.locked = true)
    (hlf : ∀ k p, (k, Ref.leaf p) ∈ ms → p.isDict = false ∧ p.WF) : WFEs es := by
  induction hd with
  | nil => simp [WFEs]
  | @leaf k p _ _ _ ih =>
    obtain ⟨h1, h2⟩ := hlf k p (by simp)
    refine ⟨h2, by cases p <;> simp_all [isDict, Pattern.lock], ih (fun k e hm => hl k e (List.mem_cons_of_mem _ hm))
      (fun k p hm => hlf k p (List.mem_cons_of_mem _ hm))⟩
  | @dict k _ _ _ e _ he g1 _ ih1 ih2 =>
    obtain ⟨oe, g2, g3⟩ := hl k e (by simp)
    rw [he] at g2; cases g2
    refine ⟨⟨?_, ih1 (hc.locked _ _ he) (hc.leaves _ _ he)⟩, by rw [g3]; rfl,
      ih2 (fun k e hm => hl k e (List.mem_cons_of_mem _ hm)) (fun k p hm => hlf k p (List.mem_cons_of_mem _ hm))⟩
    rw [den_keys g1]; exact hc.nodup _ _ he

theorem denotes_wf {h : Heap} (hc : Clean h) {d : Nat} {p : Pattern} (hd : Denotes h d p) : p.WF := by
  obtain ⟨o, es, ho, h1, rfl⟩ := hd
  exact ⟨by rw [den_keys h1]; exact hc.nodup _ _ ho, den_wf hc h1 (hc.locked _ _ ho) (hc.leaves _ _ ho)⟩

/-! ### Folding -/

theorem foldMembers_keys {n : Nat} {h : Heap} {ms : List (String × Ref)} {x : NDArray Flt} {offset : Nat}
    {vs : List (String × Val Flt)} (hv : foldMembers n h ms x offset = .ok vs) : vs.map (·.1) = ms.map (·.1) := by
  induction ms generalizing offset vs with
  | nil => simp only [foldMembers, Except.ok.injEq] at hv; subst hv; rfl
  | cons m ms ih =>
    obtain ⟨k, r⟩ := m
    cases r with
    | junk => simp [foldMembers] at hv
    | leaf p =>
      simp only [foldMembers] at hv
      obtain ⟨v, _, hv⟩ := bind_ok hv
      obtain ⟨vs', h2, hv⟩ := bind_ok hv
      simp only [pure, Except.pure, Except.ok.injEq] at hv
      subst hv
      simp [ih h2]
    | dict e =>
      simp only [foldMembers] at hv
      obtain ⟨l, _, hv⟩ := bind_ok hv
      split at hv
      · simp at hv
      · obtain ⟨v, _, hv⟩ := bind_ok hv
        obtain ⟨vs', h2, hv⟩ := bind_ok hv
        simp only [pure, Except.pure, Except.ok.injEq] at hv
        subst hv
        simp [ih h2]

theorem den_fold {h : Heap} (hc : Clean h) (hfl : ∀ (e : Nat) (o : Obj), h[e]? = some o → (o.len true).isFloat = false)
    {ms : List (String × Ref)} {es : Entries} (hd : Den h ms es) :
    ∃ N, ∀ n, N ≤ n → ∀ x offset, foldMembers n h ms x offset = foldFreeEs es x offset := by
  induction hd with
  | nil => exact ⟨0, fun n _ x offset => by simp [foldMembers, foldFreeEs]⟩
  | leaf _ ih =>
    obtain ⟨N, hN⟩ := ih
    refine ⟨N, fun n hn x offset => ?_⟩
    simp only [foldMembers, foldFreeEs, hN n hn]
  | @dict k ms es es' e o he hd' _ ih1 ih2 =>
    obtain ⟨N1, h1⟩ := ih1
    obtain ⟨N2, h2⟩ := ih2
    refine ⟨max (N1 + 1) N2, fun n hn x offset => ?_⟩
    obtain ⟨m, rfl⟩ : ∃ m, n = m + 1 := ⟨n - 1, by omega⟩
    have hl := denotes_len hc he hd' true
    have e1 : ∀ y, DictHeap.foldFree (m + 1) h e y = (Pattern.dict es' o.locked o.fd).foldFree y := by
      intro y
      simp only [DictHeap.foldFree, he, hl, Pattern.foldFree, h1 m (by omega)]
    simp only [foldMembers, Ref.len, he, bind, Except.bind, hfl e o he, foldFreeEs, e1, h2 (m + 1) (by omega), hl, flatLen,
      Bool.false_eq_true, if_false]

theorem denotes_fold {h : Heap} (hc : Clean h) (hfl : ∀ (e : Nat) (o : Obj), h[e]? = some o → (o.len true).isFloat = false)
    {d : Nat} {p : Pattern} (hd : Denotes h d p) :
    ∃ N, ∀ n, N ≤ n → ∀ x, DictHeap.foldFree n h d x = p.foldFree x := by
  obtain ⟨o, es, ho, h1, rfl⟩ := hd
  obtain ⟨N, hN⟩ := den_fold hc hfl h1
  refine ⟨N + 1, fun n hn x => ?_⟩
  obtain ⟨m, rfl⟩ : ∃ m, n = m + 1 := ⟨n - 1, by omega⟩
  simp only [DictHeap.foldFree, ho, denotes_len hc ho h1 true, Pattern.foldFree, hN m (by omega)]

/-! ### Float lengths -/

/-- No cached length is a float. -/
def NoFloat (h : Heap) : Prop := ∀ (d : Nat) (o : Obj), h[d]? = some o → ∀ free, (o.len free).isFloat = false

theorem updateLen_noFloat {h : Heap} (hn : NoFloat h) {ms : List (String × Ref)} (hm : ms ≠ []) {free : Bool} {l : Len}
    (hl : updateLen h ms free = .ok l) : l.isFloat = false := by
  obtain ⟨ls, h1, h2⟩ := bind_ok hl
  simp only [pure, Except.pure, Except.ok.injEq] at h2
  subst h2
  rw [mapE_ok_iff] at h1
  simp only [Bool.or_eq_false_iff, List.isEmpty_eq_false_iff, List.any_eq_false, Bool.not_eq_true]
  constructor
  · rintro rfl
    cases h1; exact hm rfl
  · intro l hll
    clear hm hl
    induction h1 with
    | nil => simp at hll
    | @cons m l' ms ls hml _ ih =>
      rcases List.mem_cons.mp hll with rfl | hl
      · obtain ⟨k, r⟩ := m
        cases r with
        | leaf p => simp only [Ref.len, Except.ok.injEq] at hml; rw [← hml]
        | junk => simp [Ref.len] at hml
        | dict e =>
          simp only [Ref.len] at hml
          split at hml
          · next o ho => simp only [Except.ok.injEq] at hml; rw [← hml]; exact hn e o ho free
          · simp at hml
      · exact ih hl

theorem step_noFloat {h : Heap} (hi : Inv h) (hn : NoFloat h) {op : Op} (hop : ∀ d k, op ≠ .del d k) :
    NoFloat (step h op).2 := by
  intro x o' ho' free
  cases op with
  | del d k => exact absurd rfl (hop d k)
  | new fd =>
    simp only [step, newDict] at ho'
    by_cases hx : x < h.length
    · rw [List.getElem?_append_left hx] at ho'
      exact hn x o' ho' free
    · rw [List.getElem?_append_right (by omega)] at ho'
      cases hxx : x - h.length with
      | zero => rw [hxx] at ho'; simp at ho'; rw [← ho']; cases free <;> rfl
      | succ n => rw [hxx] at ho'; simp at ho'
  | lock d =>
    simp only [step] at ho'
    rw [lock_getElem] at ho'
    split at ho'
    · cases hx : h[x]? with
      | none => rw [hx] at ho'; simp at ho'
      | some o => rw [hx] at ho'; simp at ho'; subst ho'; exact hn x o hx free
    · exact hn x o' ho' free
  | set d k r =>
    simp only [step] at ho'
    cases hd : h[d]? with
    | none => simp only [setItem, hd] at ho'; exact hn x o' ho' free
    | some o =>
    by_cases hr : r.valid h = true
    swap
    · simp only [setItem, hd, Bool.not_eq_true] at ho' hr
      rw [hr] at ho'
      exact hn x o' ho' free
    by_cases hl : o.locked = true
    · rw [(setItem_locked hd hl).1] at ho'; exact hn x o' ho' free
    · obtain ⟨s1, s2, o2, s3, s4, s5, s6, s7, s8⟩ := setItem_spec (k := k) hd hr (by simpa using hl) (hi.valid hd)
      by_cases hx : x = d
      · subst hx
        rw [s3] at ho'; cases ho'
        by_cases hj : ∃ m ∈ o'.members, m.2 = .junk
        · rw [(s7 hj).2]; exact hn x o hd free
        · have := (s8 fun m hm e => hj ⟨m, hm, e⟩).2.2 free
          refine updateLen_noFloat ?_ ?_ this
          · intro y oy hy free
            by_cases hyx : y = x
            · subst hyx
              rw [List.getElem?_set_self (List.getElem?_eq_some_iff.mp hd).1] at hy
              cases hy; exact hn y o hd free
            · rw [List.getElem?_set_ne (Ne.symm hyx)] at hy; exact hn y oy hy free
          · rw [s4]; exact List.ne_nil_of_mem (mem_setKey_self _ _ _)
      · rw [s2 x hx] at ho'
        split at ho'
        · cases hx : h[x]? with
          | none => rw [hx] at ho'; simp at ho'
          | some o => rw [hx] at ho'; simp at ho'; subst ho'; exact hn x o hx free
        · exact hn x o' ho' free

theorem run_noFloat {h : Heap} (hi : Inv h) (hn : NoFloat h) {ops : List Op} (hop : ∀ d k, Op.del d k ∉ ops) :
    NoFloat (run h ops) := by
  induction ops generalizing h with
  | nil => exact hn
  | cons op ops ih =>
    exact ih (step_inv hi op) (step_noFloat hi hn fun d k e => hop d k (by simp [e])) fun d k hm => hop d k (by simp [hm])

/-! ### Keys over histories -/

/-- The effect of one event on a list of keys. -/
def applyEv (ks : List String) : Ev → List String
  | .set k => if k ∈ ks then ks else ks ++ [k]
  | .del k => ks.erase k

theorem refresh_length {h : Heap} {d : Nat} : (refresh h d).2.length = h.length := by
  unfold refresh
  split
  · rfl
  · split
    · rfl
    · simp only
      split <;> simp

theorem step_keys {h : Heap} (hi : Inv h) {op : Op} {d : Nat} {o : Obj} (ho : h[d]? = some o) :
    ∃ o' : Obj, (step h op).2[d]? = some o' ∧ o'.members.map (·.1) = (events d h [op]).foldl applyEv (o.members.map (·.1)) := by
  have hsome : ∃ o', (step h op).2[d]? = some o' := by
    have hd := (List.getElem?_eq_some_iff.mp ho).1
    have : h.length ≤ (step h op).2.length := by
      cases op with
      | new fd => simp [step, newDict]
      | lock e => simp [step, lock_length]
      | set e k r =>
        simp only [step, setItem]
        split
        · rfl
        · next oe he =>
          split
          · rfl
          · split
            · rfl
            · rw [refresh_length]; cases r <;> simp [lock_length]
      | del e k =>
        simp only [step, delItem]
        split
        · rfl
        · next oe he =>
          split
          · rfl
          · split
            · rfl
            · rw [refresh_length]; simp
    exact ⟨_, List.getElem?_eq_getElem (by omega)⟩
  obtain ⟨o', ho'⟩ := hsome
  refine ⟨o', ho', ?_⟩
  rcases step_cases hi op d o' ho' with ⟨o1, ho1, e, _⟩ | ⟨e, _⟩ | ⟨o1, k, r, rfl, ho1, hl, hr, e⟩ | ⟨o1, k, rfl, ho1, hl, hk, e⟩
  · rw [ho] at ho1; cases ho1
    rw [e]
    cases op with
    | new fd => simp [events]
    | lock e => simp [events]
    | set e' k r =>
      simp only [events, List.append_nil]
      split
      · next hh =>
        obtain ⟨rfl, h1, h2⟩ := hh
        simp only [isOpen, ho, Bool.not_eq_eq_eq_not, Bool.not_true] at h1
        obtain ⟨s1, s2, o2, s3, s4, _⟩ := setItem_spec (k := k) ho h2 h1 (hi.valid ho)
        simp only [step] at ho'
        rw [s3] at ho'; cases ho'
        rw [e] at s4; rw [s4, keys_setKey, ← keys_setKey _ k r, ← s4]
        have hm := mem_setKey_self o.members k r
        rw [← s4] at hm
        simp [applyEv, List.mem_map_of_mem (f := (·.1)) hm]
      · rfl
    | del e' k =>
      simp only [events, List.append_nil]
      split
      · next hh =>
        obtain ⟨rfl, h1⟩ := hh
        simp only [isOpen, ho, Bool.not_eq_eq_eq_not, Bool.not_true] at h1
        by_cases hk : k ∈ o.members.map (·.1)
        · obtain ⟨s1, s2, o2, s3, s4, _⟩ := delItem_spec ho h1 hk (hi.valid ho)
          simp only [step] at ho'
          rw [s3] at ho'; cases ho'
          simp only [List.foldl_cons, List.foldl_nil, applyEv]
          rw [← keys_eraseKey, ← s4, e]
        · simp only [List.foldl_cons, List.foldl_nil, applyEv]
          rw [List.erase_of_not_mem hk]
      · rfl
  · rw [ho] at e; cases e
  · rw [ho] at ho1; cases ho1
    rw [e, keys_setKey]
    have : isOpen h d = true := by simp [isOpen, ho, hl]
    simp [events, this, hr, applyEv]
  · rw [ho] at ho1; cases ho1
    rw [e, keys_eraseKey]
    have : isOpen h d = true := by simp [isOpen, ho, hl]
    simp [events, this, applyEv]

theorem run_keys {h : Heap} (hi : Inv h) {ops : List Op} {d : Nat} {o : Obj} (ho : h[d]? = some o) :
    ∃ o' : Obj, (run h ops)[d]? = some o' ∧ o'.members.map (·.1) = (events d h ops).foldl applyEv (o.members.map (·.1)) := by
  induction ops generalizing h o with
  | nil => exact ⟨o, ho, rfl⟩
  | cons op ops ih =>
    obtain ⟨o1, h1, h2⟩ := step_keys hi (op := op) ho
    obtain ⟨o2, h3, h4⟩ := ih (step_inv hi op) h1
    refine ⟨o2, h3, ?_⟩
    rw [h4, h2, ← List.foldl_append]
    simp only [events, List.append_nil]

theorem born_lt {evs : List Ev} {k : String} {i : Nat} (h : Born evs k i) : i < evs.length :=
  (List.getElem?_eq_some_iff.mp h.1).1

theorem get_snoc {evs : List Ev} {e : Ev} {j : Nat} : (evs ++ [e])[j]? =
    if j < evs.length then evs[j]? else if j = evs.length then some e else none := by
  split
  · next h => rw [List.getElem?_append_left h]
  · next h =>
    rw [List.getElem?_append_right (by omega)]
    split
    · next h => subst h; simp
    · next h' => exact List.getElem?_eq_none (by simp; omega)

/-- An event about another key, or a repeated assignment, leaves births alone. -/
theorem born_snoc {evs : List Ev} {k : String} {i : Nat} {e : Ev} (he : e ≠ .del k) (hi : i < evs.length) :
    Born (evs ++ [e]) k i ↔ Born evs k i := by
  constructor
  · rintro ⟨h1, h2, h3⟩
    refine ⟨by rwa [get_snoc, if_pos hi] at h1, fun j hj hjk => ?_, fun i' hi' h4 => ?_⟩
    · have hjl := (List.getElem?_eq_some_iff.mp hjk).1
      exact h2 j hj (by rw [get_snoc, if_pos hjl]; exact hjk)
    · obtain ⟨j, g1, g2⟩ := h3 i' hi' (by rw [get_snoc, if_pos (by omega)]; exact h4)
      rw [get_snoc] at g2
      split at g2
      · exact ⟨j, g1, g2⟩
      · split at g2
        · simp only [Option.some.injEq] at g2; exact absurd g2 he
        · simp at g2
  · rintro ⟨h1, h2, h3⟩
    refine ⟨by rwa [get_snoc, if_pos hi], fun j hj hjk => ?_, fun i' hi' h4 => ?_⟩
    · rw [get_snoc] at hjk
      split at hjk
      · exact h2 j hj hjk
      · split at hjk
        · simp only [Option.some.injEq] at hjk; exact he hjk
        · simp at hjk
    · rw [get_snoc, if_pos (by omega)] at h4
      obtain ⟨j, g1, g2⟩ := h3 i' hi' h4
      exact ⟨j, g1, by rw [get_snoc, if_pos (List.getElem?_eq_some_iff.mp g2).1]; exact g2⟩

theorem born_del {evs : List Ev} {k : String} {i : Nat} : ¬ Born (evs ++ [Ev.del k]) k i := by
  intro h
  have hi := born_lt h
  simp only [List.length_append, List.length_cons, List.length_nil] at hi
  by_cases hil : i = evs.length
  · have := h.1
    rw [get_snoc, if_neg (by omega), if_pos hil] at this
    simp at this
  · exact h.2.1 evs.length (by omega) (by rw [get_snoc, if_neg (by omega), if_pos rfl])

theorem born_last {evs : List Ev} {k k' : String} : Born (evs ++ [Ev.set k]) k' evs.length ↔ k = k' ∧ ∀ i, ¬ Born evs k' i := by
  constructor
  · intro h
    have h1 := h.1
    rw [get_snoc, if_neg (by omega), if_pos rfl] at h1
    simp only [Option.some.injEq, Ev.set.injEq] at h1
    refine ⟨h1, fun i hb => ?_⟩
    have hi := born_lt hb
    obtain ⟨j, g1, g2⟩ := h.2.2 i hi (by rw [get_snoc, if_pos hi]; exact hb.1)
    rw [get_snoc] at g2
    split at g2
    · exact hb.2.1 j g1 g2
    · split at g2 <;> simp at g2
  · rintro ⟨rfl, hn⟩
    refine ⟨by rw [get_snoc, if_neg (by omega), if_pos rfl], fun j hj hjk => ?_, fun i' hi' h4 => ?_⟩
    · rw [get_snoc, if_neg (by omega), if_neg (by omega)] at hjk
      simp at hjk
    · rw [get_snoc, if_pos hi'] at h4
      by_contra hcon
      push Not at hcon
      have hex : ∃ i : Nat, evs[i]? = some (Ev.set k) ∧ ∀ j : Nat, i < j → evs[j]? ≠ some (Ev.del k) := by
        refine ⟨i', h4, fun j hj hjk => ?_⟩
        have hjl := (List.getElem?_eq_some_iff.mp hjk).1
        exact hcon j hj (by rw [get_snoc, if_pos hjl]; exact hjk)
      obtain ⟨g1, g2⟩ := Nat.find_spec hex
      refine hn (Nat.find hex) ⟨g1, g2, fun i'' hi'' g3 => ?_⟩
      have := Nat.find_min hex hi''
      push Not at this
      exact this g3

theorem applyEv_spec (evs : List Ev) : (evs.foldl applyEv []).Nodup ∧
    (∀ k, k ∈ evs.foldl applyEv [] ↔ ∃ i, Born evs k i) ∧
    (evs.foldl applyEv []).Pairwise (fun a b => ∀ i j, Born evs a i → Born evs b j → i < j) := by
  induction evs using List.reverseRecOn with
  | nil => exact ⟨by simp, fun k => by simp [Born], by simp⟩
  | append_singleton evs e ih =>
    obtain ⟨ih1, ih2, ih3⟩ := ih
    rw [List.foldl_append, List.foldl_cons, List.foldl_nil]
    set ks := evs.foldl applyEv [] with hks
    cases e with
    | set k =>
      have hbn : ∀ k' i, Born (evs ++ [Ev.set k]) k' i ↔ Born evs k' i ∨ (i = evs.length ∧ k = k' ∧ k' ∉ ks) := by
        intro k' i
        constructor
        · intro hb
          have hi := born_lt hb
          simp only [List.length_append, List.length_cons, List.length_nil] at hi
          by_cases hil : i = evs.length
          · subst hil
            obtain ⟨h1, h2⟩ := born_last.mp hb
            exact Or.inr ⟨rfl, h1, fun hm => by obtain ⟨i, hi⟩ := (ih2 k').mp hm; exact h2 i hi⟩
          · exact Or.inl ((born_snoc (by simp) (by omega)).mp hb)
        · rintro (hb | ⟨rfl, h1, h2⟩)
          · exact (born_snoc (by simp) (born_lt hb)).mpr hb
          · exact born_last.mpr ⟨h1, fun i hb => h2 ((ih2 k').mpr ⟨i, hb⟩)⟩
      by_cases hk : k ∈ ks
      · have e1 : applyEv ks (.set k) = ks := by simp [applyEv, hk]
        have hb' : ∀ k' i, Born (evs ++ [Ev.set k]) k' i ↔ Born evs k' i := by
          intro k' i
          rw [hbn]
          constructor
          · rintro (h | ⟨_, rfl, h⟩)
            · exact h
            · exact absurd hk h
          · exact Or.inl
        rw [e1]
        simp only [hb']
        exact ⟨ih1, ih2, ih3⟩
      · have e1 : applyEv ks (.set k) = ks ++ [k] := by simp [applyEv, hk]
        rw [e1]
        refine ⟨?_, fun k' => ?_, ?_⟩
        · rw [List.nodup_append]
          exact ⟨ih1, by simp, by rintro a ha b hb rfl; simp at hb; exact hk (hb ▸ ha)⟩
        · simp only [hbn, List.mem_append, List.mem_singleton]
          constructor
          · rintro (h | rfl)
            · obtain ⟨i, hi⟩ := (ih2 k').mp h
              exact ⟨i, Or.inl hi⟩
            · exact ⟨evs.length, Or.inr ⟨rfl, rfl, hk⟩⟩
          · rintro ⟨i, h | ⟨_, rfl, _⟩⟩
            · exact Or.inl ((ih2 k').mpr ⟨i, h⟩)
            · exact Or.inr rfl
        · rw [List.pairwise_append]
          refine ⟨?_, by simp, ?_⟩
          · refine List.Pairwise.imp_of_mem (fun {a b} ha hb hab i j hi hj => ?_) ih3
            rw [hbn] at hi hj
            rcases hi with hi | ⟨_, rfl, hi⟩
            · rcases hj with hj | ⟨_, rfl, hj⟩
              · exact hab i j hi hj
              · exact absurd hb hj
            · exact absurd ha hi
          · intro a ha b hb i j hi hj
            simp only [List.mem_singleton] at hb
            subst hb
            rw [hbn] at hi hj
            rcases hi with hi | ⟨_, rfl, hi⟩
            · rcases hj with hj | ⟨rfl, _, hj⟩
              · exact absurd ((ih2 b).mpr ⟨j, hj⟩) hk
              · exact born_lt hi
            · exact absurd ha hi
    | del k =>
      have hbn : ∀ k' i, Born (evs ++ [Ev.del k]) k' i ↔ k' ≠ k ∧ Born evs k' i := by
        intro k' i
        by_cases hkk : k' = k
        · subst hkk
          simp [born_del]
        · constructor
          · intro hb
            refine ⟨hkk, ?_⟩
            have hi := born_lt hb
            simp only [List.length_append, List.length_cons, List.length_nil] at hi
            by_cases hil : i = evs.length
            · have := hb.1
              rw [get_snoc, if_neg (by omega), if_pos hil] at this
              simp at this
            · exact (born_snoc (by simp [Ne.symm hkk]) (by omega)).mp hb
          · rintro ⟨_, hb⟩
            exact (born_snoc (by simp [Ne.symm hkk]) (born_lt hb)).mpr hb
      have e1 : applyEv ks (.del k) = ks.erase k := rfl
      rw [e1]
      refine ⟨ih1.erase k, fun k' => ?_, ?_⟩
      · rw [ih1.mem_erase_iff, ih2]
        simp only [hbn]
        constructor
        · rintro ⟨h, i, hi⟩; exact ⟨i, h, hi⟩
        · rintro ⟨i, h, hi⟩; exact ⟨h, i, hi⟩
      · refine (ih3.sublist List.erase_sublist).imp fun {a b} hab i j hi hj => ?_
        exact hab i j ((hbn a i).mp hi).2 ((hbn b j).mp hj).2

end DictHeap

end Paragami
