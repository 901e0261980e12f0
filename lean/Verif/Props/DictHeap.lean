import Verif.Proofs.DictHeapDen
import Verif.Proofs.DictHeapFloat
import Verif.Props.RoundTrip

/-! # C24–C27, C70, C71: histories of updates to shared dictionaries -/

set_option linter.unusedSimpArgs false

namespace Paragami

namespace DictHeap
open Pattern NDArray
open scoped Classical

/-! ### C24 -/

/-- **C24.** After any program whatsoever (including statements that raised), every dictionary that holds only patterns
and is not a member of itself reports, for both values of `free`, the sum of the lengths its members report. -/
theorem C24_lengths (ops : List Op) {d : Nat} {o : Obj} (ho : (run [] ops)[d]? = some o)
    (hj : ∀ m ∈ o.members, m.2 ≠ .junk) (hs : ∀ m ∈ o.members, m.2 ≠ .dict d) (free : Bool) :
    ∃ ls : List Len, List.Forall₂ (fun m l => Ref.len (run [] ops) free m.2 = .ok l) o.members ls ∧
      (o.len free).n = (ls.map (·.n)).sum := by
  obtain ⟨l, h1, h2, _⟩ := (run_inv inv_nil ops).lens d o ho hj hs free
  obtain ⟨ls, h3, h4⟩ := bind_ok h1
  simp only [pure, Except.pure, Except.ok.injEq] at h4
  subst h4
  exact ⟨ls, mapE_ok_iff.mp h3, h2.symm⟩

/-- **C24**, for programs that store only patterns and never put a dictionary into itself: it holds of every dictionary. -/
theorem C24_good_programs {ops : List Op} (hg : ∀ op ∈ ops, GoodOp op) {d : Nat} {o : Obj} (ho : (run [] ops)[d]? = some o)
    (free : Bool) : ∃ ls : List Len, List.Forall₂ (fun m l => Ref.len (run [] ops) free m.2 = .ok l) o.members ls ∧
      (o.len free).n = (ls.map (·.n)).sum :=
  C24_lengths ops ho ((run_clean clean_nil hg).noJunk d o ho) ((run_clean clean_nil hg).noSelf d o ho) free

/-- **C24**, the exception: a dictionary put into itself is accepted without complaint, and then reports 4 although its
members report 2 and 4. -/
theorem C24_self_insertion (fd : Option Bool) (p : Pattern) (hp : ∀ free, p.flatLen free = 2) (free : Bool) :
    ∃ o : Obj, (run [] [.new fd, .set 0 "a" (.leaf p), .set 0 "b" (.dict 0)])[0]? = some o ∧
      (step (run [] [.new fd, .set 0 "a" (.leaf p)]) (.set 0 "b" (.dict 0))).1 = .ok () ∧
      (o.len free).n = 4 ∧
      Ref.len (run [] [.new fd, .set 0 "a" (.leaf p), .set 0 "b" (.dict 0)]) free (.leaf p) = .ok ⟨2, false⟩ ∧
      Ref.len (run [] [.new fd, .set 0 "a" (.leaf p), .set 0 "b" (.dict 0)]) free (.dict 0) = .ok ⟨4, false⟩ ∧
      o.members = [("a", .leaf p), ("b", .dict 0)] := by
  cases free <;>
  simp [run, step, newDict, setItem, Ref.valid, setKey, refresh, updateLen, mapE, Ref.len, lock, bind, Except.bind, pure,
    Except.pure, Obj.len, hp]

/-! ### C25 -/

/-- **C25.** A locked dictionary never changes again, whatever is done to whichever object, and every attempt to change
it raises `ValueError`. -/
theorem C25_locked_frozen {h : Heap} {d : Nat} {o : Obj} (ho : h[d]? = some o) (hl : o.locked = true) (ops : List Op) :
    (run h ops)[d]? = some o ∧
    (∀ k r, r.valid (run h ops) = true → ∃ msg, setItem (run h ops) d k r = (.error (.valueError msg), run h ops)) ∧
    (∀ k, ∃ msg, delItem (run h ops) d k = (.error (.valueError msg), run h ops)) := by
  have h1 := run_locked (ops := ops) ho hl
  refine ⟨h1, fun k r hr => ⟨"The dictionary is locked, and its values cannot be changed.", ?_⟩,
    fun k => ⟨_, delItem_locked h1 hl⟩⟩
  simp only [setItem, h1, hl, hr, Bool.not_true, Bool.false_eq_true, if_false, if_true]
  rfl

/-- **C25.** `lock` locks. -/
theorem C25_lock_locks {h : Heap} {d : Nat} (hd : d < h.length) : ∃ o, (lock h d)[d]? = some o ∧ o.locked = true := by
  rw [lock_getElem, if_pos rfl, List.getElem?_eq_getElem hd]
  exact ⟨_, rfl, rfl⟩

/-- **C25.** In any program, storing a dictionary in an unlocked dictionary locks the stored one. -/
theorem C25_insert_locks (ops : List Op) {d e : Nat} {o : Obj} (ho : (run [] ops)[d]? = some o) (hl : o.locked = false)
    (he : e < (run [] ops).length) (k : String) :
    ∃ oe, (setItem (run [] ops) d k (.dict e)).2[e]? = some oe ∧ oe.locked = true := by
  have hi := run_inv inv_nil ops
  obtain ⟨s1, s2, o2, s3, s4, s5, s6, _⟩ := setItem_spec (k := k) (r := .dict e) ho (by simpa [Ref.valid] using he) hl (hi.valid ho)
  by_cases hed : e = d
  · subst hed
    exact ⟨o2, s3, s6.mpr rfl⟩
  · rw [s2 e hed, if_pos rfl, List.getElem?_eq_getElem he]
    exact ⟨_, rfl, rfl⟩

/-- **C25.** In any program, every dictionary that is currently a member of a dictionary is locked. -/
theorem C25_members_locked (ops : List Op) {d e : Nat} {o : Obj} {k : String} (ho : (run [] ops)[d]? = some o)
    (hm : (k, Ref.dict e) ∈ o.members) : ∃ oe, (run [] ops)[e]? = some oe ∧ oe.locked = true :=
  (run_inv inv_nil ops).locked d o ho k e hm

/-! ### C26 -/

/-- **C26.** In any program: if storing a pattern in a dictionary that holds only patterns raises, nothing at all has
changed. -/
theorem C26_failed_set (ops : List Op) {d : Nat} {o : Obj} (ho : (run [] ops)[d]? = some o)
    (hj : ∀ m ∈ o.members, m.2 ≠ .junk) {k : String} {r : Ref} (hr : r ≠ .junk) {e : Err}
    (he : (setItem (run [] ops) d k r).1 = .error e) : (setItem (run [] ops) d k r).2 = run [] ops := by
  have hi := run_inv inv_nil ops
  by_cases hv : r.valid (run [] ops) = true
  swap
  · simp only [Bool.not_eq_true] at hv
    simp only [setItem, ho, hv, Bool.not_false, if_true]
  by_cases hl : o.locked = true
  · exact (setItem_locked ho hl).1
  · obtain ⟨s1, s2, o2, s3, s4, s5, s6, s7, s8⟩ := setItem_spec (k := k) ho hv (by simpa using hl) (hi.valid ho)
    have := (s8 (by
      intro m hm
      rw [s4] at hm
      rcases mem_setKey hm with rfl | hm
      · exact hr
      · exact hj m hm)).1
    rw [this] at he
    cases he

/-- **C26.** In any program: if deleting a key from a dictionary that holds only patterns raises, nothing has changed. -/
theorem C26_failed_del (ops : List Op) {d : Nat} {o : Obj} (ho : (run [] ops)[d]? = some o)
    (hj : ∀ m ∈ o.members, m.2 ≠ .junk) {k : String} {e : Err}
    (he : (delItem (run [] ops) d k).1 = .error e) : (delItem (run [] ops) d k).2 = run [] ops := by
  have hi := run_inv inv_nil ops
  by_cases hl : o.locked = true
  · rw [delItem_locked ho hl]
  by_cases hk : k ∈ o.members.map (·.1)
  · obtain ⟨s1, s2, o2, s3, s4, s5, s6, s7, s8⟩ := delItem_spec ho (by simpa using hl) hk (hi.valid ho)
    have := (s8 (by
      intro m hm
      rw [s4] at hm
      exact hj m (mem_eraseKey hm))).1
    rw [this] at he
    cases he
  · have hk' : (o.members.map (·.1)).contains k = false := by simpa using hk
    simp only [delItem, ho, hl, hk', Bool.not_false, if_true, Bool.false_eq_true, if_false]

/-- **C26.** Exactly when it raises: storing a pattern in a dictionary that holds only patterns raises only if that
dictionary is locked, and deleting raises only if it is locked or the key is missing. -/
theorem C26_when_raises (ops : List Op) {d : Nat} {o : Obj} (ho : (run [] ops)[d]? = some o)
    (hj : ∀ m ∈ o.members, m.2 ≠ .junk) (hl : o.locked = false) :
    (∀ k r, r ≠ .junk → r.valid (run [] ops) = true → (setItem (run [] ops) d k r).1 = .ok ()) ∧
    (∀ k, k ∈ o.members.map (·.1) → (delItem (run [] ops) d k).1 = .ok ()) ∧
    (∀ k, k ∉ o.members.map (·.1) → (delItem (run [] ops) d k).1 = .error (.keyError k)) := by
  have hi := run_inv inv_nil ops
  refine ⟨fun k r hr hv => ?_, fun k hk => ?_, fun k hk => ?_⟩
  · obtain ⟨s1, s2, o2, s3, s4, s5, s6, s7, s8⟩ := setItem_spec (k := k) ho hv hl (hi.valid ho)
    refine (s8 ?_).1
    intro m hm
    rw [s4] at hm
    rcases mem_setKey hm with rfl | hm
    · exact hr
    · exact hj m hm
  · obtain ⟨s1, s2, o2, s3, s4, s5, s6, s7, s8⟩ := delItem_spec ho hl hk (hi.valid ho)
    refine (s8 ?_).1
    intro m hm
    rw [s4] at hm
    exact hj m (mem_eraseKey hm)
  · have hk' : (o.members.map (·.1)).contains k = false := by simpa using hk
    simp only [delItem, ho, hl, hk', Bool.not_false, if_true, Bool.false_eq_true, if_false]

/-- **C26**, the exception: storing something that is not a pattern in any unlocked dictionary raises, but the entry
stays, the lengths keep their old values, and from then on storing anything under another key raises as well. -/
theorem C26_non_pattern_stays (ops : List Op) {d : Nat} {o : Obj} (ho : (run [] ops)[d]? = some o) (hl : o.locked = false)
    (k : String) : (setItem (run [] ops) d k .junk).1 = .error .attributeError ∧
      ∃ o', (setItem (run [] ops) d k .junk).2[d]? = some o' ∧ (k, Ref.junk) ∈ o'.members ∧
        (∀ free, o'.len free = o.len free) ∧
        ∀ k' p, k' ≠ k → (setItem (setItem (run [] ops) d k .junk).2 d k' (.leaf p)).1 = .error .attributeError := by
  have hi := run_inv inv_nil ops
  obtain ⟨s1, s2, o2, s3, s4, s5, s6, s7, s8⟩ := setItem_spec (k := k) (r := .junk) ho rfl hl (hi.valid ho)
  have hm : (k, Ref.junk) ∈ o2.members := by rw [s4]; exact mem_setKey_self _ _ _
  refine ⟨(s7 ⟨_, hm, rfl⟩).1, o2, s3, hm, (s7 ⟨_, hm, rfl⟩).2, fun k' p hk => ?_⟩
  have hi' := step_inv hi (.set d k .junk)
  have hl2 : o2.locked = false := by
    by_contra h
    simp only [Bool.not_eq_false] at h
    have := s6.mp h
    cases this
  obtain ⟨t1, t2, o3, t3, t4, t5, t6, t7, t8⟩ := setItem_spec (k := k') (r := .leaf p) s3 rfl hl2 (hi'.valid s3)
  refine (t7 ⟨(k, .junk), ?_, rfl⟩).1
  rw [t4]
  generalize o2.members = ms at hm
  clear * - hm hk
  induction ms with
  | nil => simp at hm
  | cons m ms ih =>
    simp only [setKey]
    rcases List.mem_cons.mp hm with rfl | hm
    · rw [if_neg (Ne.symm hk)]; simp
    · split
      · exact List.mem_cons_of_mem _ hm
      · exact List.mem_cons_of_mem _ (ih hm)

/-! ### C27 -/

/-- **C27.** Take any program and any dictionary `d` created by it (here: new, at the end of the heap reached so far).
At any later point its keys are exactly those some assignment introduced and no later deletion removed; there are no
duplicates; and they are listed in the order of the assignments that introduced them (so replacing a member keeps its
place, while deleting and re-adding moves it to the end). -/
theorem C27_key_order (before : List Op) (fd : Option Bool) (after : List Op) :
    let h := run [] (before ++ [.new fd])
    let d := (run [] before).length
    let evs := events d h after
    ∃ o : Obj, (run h after)[d]? = some o ∧ (o.members.map (·.1)).Nodup ∧
      (∀ k, k ∈ o.members.map (·.1) ↔ ∃ i, Born evs k i) ∧
      (o.members.map (·.1)).Pairwise (fun a b => ∀ i j, Born evs a i → Born evs b j → i < j) := by
  intro h d evs
  have hd : h[d]? = some ⟨[], false, ⟨0, false⟩, ⟨0, false⟩, fd⟩ := by
    simp [h, d, run, step, newDict]
  obtain ⟨o', h1, h2⟩ := run_keys (run_inv inv_nil _) (ops := after) hd
  refine ⟨o', h1, ?_⟩
  rw [h2]
  exact applyEv_spec evs

/-- **C27.** `fold` returns its values under the same keys in the same order. -/
theorem C27_fold_order {n : Nat} {h : Heap} {d : Nat} {o : Obj} (ho : h[d]? = some o) {x : NDArray Flt} {v : Val Flt}
    (hv : foldFree n h d x = .ok v) : ∃ vs, v = .dict vs ∧ vs.map (·.1) = o.members.map (·.1) := by
  cases n with
  | zero => simp [foldFree] at hv
  | succ n =>
    simp only [foldFree, ho] at hv
    obtain ⟨y, _, hv⟩ := bind_ok hv
    obtain ⟨vs, h2, hv⟩ := bind_ok hv
    simp only [pure, Except.pure, Except.ok.injEq] at hv
    exact ⟨vs, hv.symm, foldMembers_keys h2⟩

/-! ### C71: dictionary objects behave as trees -/

/-- **C71.** After any program that stores only patterns and never puts a dictionary into itself, every dictionary object
denotes exactly one pattern tree; that tree could have been built without sharing or mutation; and the lengths the object
has cached are the tree's. -/
theorem C71_denotes {ops : List Op} (hg : ∀ op ∈ ops, GoodOp op) {d : Nat} (hd : d < (run [] ops).length) :
    ∃ p, Denotes (run [] ops) d p ∧ Built p ∧ (∀ q, Denotes (run [] ops) d q → q = p) ∧
      ∀ o : Obj, (run [] ops)[d]? = some o → ∀ free, (o.len free).n = p.flatLen free := by
  have hc := run_clean clean_nil hg
  have ho := List.getElem?_eq_getElem hd
  obtain ⟨es, h1⟩ := hc.den d _ ho
  refine ⟨_, ⟨_, es, ho, h1, rfl⟩, WF.built _ (denotes_wf hc ⟨_, es, ho, h1, rfl⟩), ?_, ?_⟩
  · rintro q ⟨o', es', ho', h2, rfl⟩
    rw [ho] at ho'; cases ho'
    rw [den_unique h1 h2]
  · intro o ho' free
    rw [ho] at ho'; cases ho'
    exact denotes_len hc ho h1 free

/-- **C71.** Storing a value does to the denoted trees what it says: `d`'s tree gets the (locked) tree of the value, or the
same exception is raised and nothing changes; the tree of every other dictionary is unchanged, except that a stored
dictionary is now locked. -/
theorem C71_set {ops : List Op} (hg : ∀ op ∈ ops, GoodOp op) {d : Nat} {p : Pattern} (hd : Denotes (run [] ops) d p)
    {k : String} {r : Ref} {q : Pattern} (hr : r.Denotes (run [] ops) q) (hop : GoodOp (.set d k r)) :
    match Pattern.setItem p k q with
    | .ok p' => (step (run [] ops) (.set d k r)).1 = .ok () ∧ Denotes (step (run [] ops) (.set d k r)).2 d p' ∧
        ∀ x px, x ≠ d → Denotes (run [] ops) x px →
          Denotes (step (run [] ops) (.set d k r)).2 x (if r = .dict x then px.lock else px)
    | .error e => step (run [] ops) (.set d k r) = (.error e, run [] ops) := by
  simp only [step]
  have hc := run_clean clean_nil hg
  generalize run [] ops = h at *
  obtain ⟨o, es, ho, h1, rfl⟩ := hd
  have hv : r.valid h = true := by
    rcases hr with rfl | ⟨e, rfl, oe, _, he, _⟩
    · rfl
    · simpa [Ref.valid] using (List.getElem?_eq_some_iff.mp he).1
  simp only [Pattern.setItem]
  by_cases hl : o.locked = true
  · simp only [hl, if_true]
    simp only [setItem, ho, hv, hl, Bool.not_true, Bool.false_eq_true, if_false, if_true]
    rfl
  · have hl' : o.locked = false := by simpa using hl
    simp only [hl', Bool.false_eq_true, if_false]
    obtain ⟨s1, s2, o2, s3, s4, s5, s6, s7, s8⟩ := setItem_spec (k := k) ho hv hl' (hc.valid ho)
    have hf : ∀ (x : Nat) (o : Obj), h[x]? = some o → o.locked = true → (setItem h d k r).2[x]? = some o :=
      fun x o ho hl => step_locked (op := .set d k r) ho hl
    refine ⟨(s8 ?_).1, ?_, ?_⟩
    · intro m hm
      rw [s4] at hm
      rcases mem_setKey hm with rfl | hm
      · exact hop.1
      · exact hc.noJunk d o ho m hm
    · have hl2 : o2.locked = false := by
        by_contra hcon
        simp only [Bool.not_eq_false] at hcon
        exact hop.2.1 (s6.mp hcon)
      refine ⟨o2, es.set k q.lock, s3, ?_, by rw [hl2, s5]⟩
      rw [s4]
      exact den_set (den_frame hc.toInv hf h1 (hc.locked d o ho))
        (set_ref_den hc ho hl' hv hop.2.1 hr fun q hq => (hop.2.2 q hq).1)
    · rintro x px hx ⟨ox, esx, hox, h2, rfl⟩
      have h3 := den_frame hc.toInv hf h2 (hc.locked x ox hox)
      split
      · next e => exact ⟨{ ox with locked := true }, esx, by rw [s2 x hx, if_pos e, hox]; rfl, h3, rfl⟩
      · next e => exact ⟨ox, esx, by rw [s2 x hx, if_neg e, hox], h3, rfl⟩

/-- **C71.** The same for deleting a key. -/
theorem C71_del {ops : List Op} (hg : ∀ op ∈ ops, GoodOp op) {d : Nat} {p : Pattern} (hd : Denotes (run [] ops) d p)
    {k : String} :
    match Pattern.delItem p k with
    | .ok p' => (step (run [] ops) (.del d k)).1 = .ok () ∧ Denotes (step (run [] ops) (.del d k)).2 d p' ∧
        ∀ x px, x ≠ d → Denotes (run [] ops) x px → Denotes (step (run [] ops) (.del d k)).2 x px
    | .error e => step (run [] ops) (.del d k) = (.error e, run [] ops) := by
  simp only [step]
  have hc := run_clean clean_nil hg
  generalize run [] ops = h at *
  obtain ⟨o, es, ho, h1, rfl⟩ := hd
  simp only [Pattern.delItem]
  by_cases hl : o.locked = true
  · simp only [hl, if_true]
    rw [delItem_locked ho hl]
    rfl
  · have hl' : o.locked = false := by simpa using hl
    simp only [hl', Bool.false_eq_true, if_false]
    by_cases hk : k ∈ o.members.map (·.1)
    · obtain ⟨p, hp⟩ := Option.isSome_iff_exists.mp (get?_isSome.mpr (by rw [den_keys h1]; exact hk))
      simp only [hp]
      obtain ⟨s1, s2, o2, s3, s4, s5, s6, s7, s8⟩ := delItem_spec ho hl' hk (hc.valid ho)
      have hf : ∀ (x : Nat) (o : Obj), h[x]? = some o → o.locked = true → (delItem h d k).2[x]? = some o :=
        fun x o ho hl => step_locked (op := .del d k) ho hl
      refine ⟨(s8 ?_).1, ?_, ?_⟩
      · intro m hm
        rw [s4] at hm
        exact hc.noJunk d o ho m (mem_eraseKey hm)
      · refine ⟨o2, es.erase k, s3, ?_, by rw [s6, s5]⟩
        rw [s4]
        exact den_erase (den_frame hc.toInv hf h1 (hc.locked d o ho))
      · rintro x px hx ⟨ox, esx, hox, h2, rfl⟩
        exact ⟨ox, esx, by rw [s2 x hx, hox], den_frame hc.toInv hf h2 (hc.locked x ox hox), rfl⟩
    · have hp : es.get? k = none := by
        cases hg : es.get? k with
        | none => rfl
        | some p => exact absurd (by rw [← den_keys h1]; exact get?_isSome.mp (by simp [hg])) hk
      have hk' : (o.members.map (·.1)).contains k = false := by simpa using hk
      simp only [hp]
      simp only [delItem, ho, hl', hk', Bool.not_false, if_true, Bool.false_eq_true, if_false]

/-- **C71.** `lock` returns and changes only its own tree (a locked member of another dictionary was locked already). -/
theorem C71_lock {ops : List Op} (hg : ∀ op ∈ ops, GoodOp op) {d : Nat} {p : Pattern} (hd : Denotes (run [] ops) d p) :
    (step (run [] ops) (.lock d)).1 = .ok () ∧ Denotes (step (run [] ops) (.lock d)).2 d p.lock ∧
      ∀ x px, x ≠ d → Denotes (run [] ops) x px → Denotes (step (run [] ops) (.lock d)).2 x px := by
  simp only [step]
  have hc := run_clean clean_nil hg
  generalize run [] ops = h at *
  have hf : ∀ (x : Nat) (o : Obj), h[x]? = some o → o.locked = true → (lock h d)[x]? = some o :=
    fun x o ho hl => lock_locked ho hl
  refine ⟨?_, ?_, ?_⟩
  · obtain ⟨o, _, ho, _, _⟩ := hd
    rw [if_pos (List.getElem?_eq_some_iff.mp ho).1]
  · obtain ⟨o, es, ho, h1, rfl⟩ := hd
    exact ⟨{ o with locked := true }, es, by rw [lock_getElem, if_pos rfl, ho]; rfl,
      den_frame hc.toInv hf h1 (hc.locked d o ho), rfl⟩
  · rintro x px hx ⟨ox, esx, hox, h2, rfl⟩
    exact ⟨ox, esx, by rw [lock_getElem, if_neg (Ne.symm hx), hox], den_frame hc.toInv hf h2 (hc.locked x ox hox), rfl⟩

/-- **C71.** Folding an object through its cached lengths gives what folding the tree gives, in every program that never
deletes a key. -/
theorem C71_fold {ops : List Op} (hg : ∀ op ∈ ops, GoodOp op) (hdel : ∀ d k, Op.del d k ∉ ops) {d : Nat} {p : Pattern}
    (hd : Denotes (run [] ops) d p) : ∃ N, ∀ n, N ≤ n → ∀ x, foldFree n (run [] ops) d x = p.foldFree x :=
  denotes_fold (run_clean clean_nil hg)
    (fun e o ho => run_noFloat inv_nil (by intro d o ho; simp at ho) hdel e o ho true) hd

/-! ### C70 -/

/-- **C70, lengths.** After any program whatsoever, a dictionary without members reports a length of zero for both values of `free`, and
that zero is a float exactly if the dictionary ever had a member (all of which must then have been deleted). -/
theorem C70_emptied_length (ops : List Op) {d : Nat} {o : Obj} (ho : (run [] ops)[d]? = some o) (he : o.members = []) (free : Bool) :
    (o.len free).n = 0 ∧ ((o.len free).isFloat = true ↔ ∃ k, Ev.set k ∈ events d [] ops) :=
  (run_float ops d o ho).2 he free

/-- **C70, containing dictionaries.** The float spreads: a dictionary with members (all patterns, none itself) reports a float exactly
if one of the dictionaries stored in it does. -/
theorem C70_float_spreads (ops : List Op) {d : Nat} {o : Obj} (ho : (run [] ops)[d]? = some o) (hm : o.members ≠ [])
    (hj : ∀ m ∈ o.members, m.2 ≠ .junk) (hs : ∀ m ∈ o.members, m.2 ≠ .dict d) (free : Bool) :
    (o.len free).isFloat = true ↔ ∃ (k : String) (e : Nat) (oe : Obj), (k, Ref.dict e) ∈ o.members ∧
      (run [] ops)[e]? = some oe ∧ (oe.len free).isFloat = true :=
  float_iff (run_inv inv_nil ops) ho hj hs hm free

/-- **C70, folding.** In any program that stores only patterns and puts no dictionary into itself, deletions included: if no dictionary
stored in `d` reports a float, then folding `d` gives what folding its tree gives; otherwise no input folds at all, and with such a
dictionary as the first member every input of the right size raises `TypeError`. -/
theorem C70_fold {ops : List Op} (hg : ∀ op ∈ ops, GoodOp op) {d : Nat} {p : Pattern} (hd : Denotes (run [] ops) d p) {o : Obj}
    (ho : (run [] ops)[d]? = some o) :
    ((∀ k e (oe : Obj), (k, Ref.dict e) ∈ o.members → (run [] ops)[e]? = some oe → (oe.len true).isFloat = false) →
      ∃ N, ∀ n, N ≤ n → ∀ x, foldFree n (run [] ops) d x = p.foldFree x) ∧
    ∀ k e (oe : Obj), (k, Ref.dict e) ∈ o.members → (run [] ops)[e]? = some oe → (oe.len true).isFloat = true →
      (∀ n x v, foldFree n (run [] ops) d x ≠ .ok v) ∧
      (o.members.head? = some (k, Ref.dict e) → ∀ n (x : NDArray Flt), x.ndim = 1 → x.size = p.flatLen true →
        foldFree (n + 1) (run [] ops) d x = .error .typeError) := by
  have hc := run_clean clean_nil hg
  obtain ⟨o', es, ho', h1, rfl⟩ := hd
  rw [ho] at ho'; cases ho'
  refine ⟨fun hfl => ?_, fun k e oe hm he hf => ⟨fun n x v hv => ?_, fun hh n x hx hs => ?_⟩⟩
  · obtain ⟨N, hN⟩ := den_fold_local hc h1 hfl
    refine ⟨N + 1, fun n hn x => ?_⟩
    obtain ⟨m, rfl⟩ : ∃ m, n = m + 1 := ⟨n - 1, by omega⟩
    simp only [DictHeap.foldFree, ho, denotes_len hc ho h1 true, Pattern.foldFree, hN m (by omega)]
  · cases n with
    | zero => simp [DictHeap.foldFree] at hv
    | succ n =>
      simp only [DictHeap.foldFree, ho] at hv
      obtain ⟨y, _, hv⟩ := bind_ok hv
      obtain ⟨vs, h2, _⟩ := bind_ok hv
      exact foldMembers_float hm he hf _ _ _ _ h2
  · have hck : checkFlat x (o.len true).n = .ok x := by
      unfold checkFlat
      rw [atleast1d_of_ne (by intro h; simp [NDArray.ndim, h] at hx)]
      rw [denotes_len hc ho h1 true]
      simp only [flatLen] at hs
      simp [hx, hs, bind, Except.bind, pure, Except.pure]
    obtain ⟨ms, hms⟩ : ∃ ms, o.members = (k, Ref.dict e) :: ms := by
      cases hom : o.members with
      | nil => rw [hom] at hh; cases hh
      | cons m ms => rw [hom] at hh; cases hh; exact ⟨ms, rfl⟩
    simp only [DictHeap.foldFree, ho, hck, hms, foldMembers, Ref.len, he, hf, bind, Except.bind, if_true]

/-- **C70**, the smallest program: a dictionary whose only member was deleted reports the length `0.0`, and a dictionary that contains
it cannot be folded: every input of the right size raises `TypeError`.  With a never-filled dictionary in its place the
same fold succeeds. -/
theorem C70_emptied_dict (fd : Option Bool) (p : Pattern) (a k : String) (x : NDArray Flt) (hx : x.ndim = 1) (hs : x.size = 0)
    (n : Nat) :
    (∃ o, (run [] [.new fd, .set 0 a (.leaf p), .del 0 a])[0]? = some o ∧ o.len true = ⟨0, true⟩ ∧ o.members = []) ∧
    foldFree (n + 2) (run [] [.new fd, .set 0 a (.leaf p), .del 0 a, .new fd, .set 1 k (.dict 0)]) 1 x = .error .typeError ∧
    foldFree (n + 2) (run [] [.new fd, .new fd, .set 1 k (.dict 0)]) 1 x = .ok (.dict [(k, .dict [])]) := by
  have hc : checkFlat x 0 = .ok x := by
    unfold checkFlat
    rw [atleast1d_of_ne (by intro h; simp [NDArray.ndim, h] at hx)]
    simp [hx, hs, bind, Except.bind, pure, Except.pure]
  have hc2 : checkFlat (x.slice 0 0) 0 = .ok (x.slice 0 0) := by
    unfold checkFlat
    rw [atleast1d_of_ne (by simp [NDArray.slice, vec])]
    simp [NDArray.slice, vec, NDArray.ndim, NDArray.size, bind, Except.bind, pure, Except.pure]
  refine ⟨?_, ?_, ?_⟩
  · simp [run, step, newDict, setItem, delItem, Ref.valid, setKey, eraseKey, refresh, updateLen, mapE, Ref.len, lock, bind,
      Except.bind, pure, Except.pure, Obj.len]
  · simp [run, step, newDict, setItem, delItem, Ref.valid, setKey, eraseKey, refresh, updateLen, mapE, Ref.len, lock, bind,
      Except.bind, pure, Except.pure, Obj.len, foldFree, foldMembers, hc]
  · simp [run, step, newDict, setItem, delItem, Ref.valid, setKey, eraseKey, refresh, updateLen, mapE, Ref.len, lock, bind,
      Except.bind, pure, Except.pure, Obj.len, foldFree, foldMembers, hc, hc2]

/-! ### Non-vacuity

One dictionary (object 0) holding a simplex is shared by two parents (objects 1 and 2); a key of object 1 is replaced,
deleted and added again; the attempt to change object 0 afterwards fails. -/

/-- The example program. -/
noncomputable def exOps : List Op :=
  [.new (some true), .set 0 "s" (.leaf (.simplex 3 [2] true none)), .new none, .new none,
    .set 1 "a" (.leaf (.psd 2 (.int 0) true none)), .set 1 "b" (.dict 0), .set 2 "c" (.dict 0),
    .set 1 "a" (.leaf (.simplex 2 [] true none)), .set 0 "t" (.leaf (.simplex 2 [] true none)),
    .del 1 "a", .set 1 "a" (.leaf (.psd 3 (.int 0) true none))]

theorem exOps_good : ∀ op ∈ exOps, GoodOp op := by
  have h1 : ∀ k s, 2 ≤ k → Pattern.Built (.simplex k s true none) := fun k s h => WF.built _ (by simpa [Pattern.WF] using h)
  have h2 : ∀ n, Pattern.Built (.psd n (.int 0) true none) := fun n => WF.built _ (by simp [Pattern.WF, PyNum.toFlt, Flt.lt])
  simp [exOps, GoodOp, isDict, h1, h2]

theorem exOps_run : run [] exOps =
    [⟨[("s", .leaf (.simplex 3 [2] true none))], true, ⟨4, false⟩, ⟨6, false⟩, some true⟩,
     ⟨[("b", .dict 0), ("a", .leaf (.psd 3 (.int 0) true none))], false, ⟨10, false⟩, ⟨15, false⟩, none⟩,
     ⟨[("c", .dict 0)], false, ⟨4, false⟩, ⟨6, false⟩, none⟩] := by
  simp [exOps, run, step, newDict, setItem, delItem, Ref.valid, setKey, eraseKey, refresh, updateLen, mapE, Ref.len, lock, bind,
    Except.bind, pure, Except.pure, Obj.len, flatLen, List.set]

example (free : Bool) : ∃ ls : List Len, List.Forall₂ (fun m l => Ref.len (run [] exOps) free m.2 = .ok l)
    [("b", .dict 0), ("a", .leaf (.psd 3 (.int 0) true none))] ls ∧ (if free then 10 else 15) = (ls.map (·.n)).sum := by
  obtain ⟨ls, h1, h2⟩ := C24_good_programs exOps_good (d := 1) (by rw [exOps_run]; rfl) free
  refine ⟨ls, h1, ?_⟩
  rw [← h2]
  cases free <;> rfl

/-- Non-vacuity of C70: a key of object 1 was deleted and set again, and folding it is folding its tree. -/
example : ∃ (p : Pattern) (N : Nat), Denotes (run [] exOps) 1 p ∧ Op.del 1 "a" ∈ exOps ∧
    ∀ n, N ≤ n → ∀ x, foldFree n (run [] exOps) 1 x = p.foldFree x := by
  obtain ⟨p, hp, -⟩ := C71_denotes exOps_good (d := 1) (by rw [exOps_run]; decide)
  obtain ⟨N, hN⟩ := (C70_fold exOps_good hp (by rw [exOps_run]; rfl)).1 (by
    intro k e oe hm he
    simp only [List.mem_cons, Prod.mk.injEq, reduceCtorEq, and_false, List.not_mem_nil, or_false, Ref.dict.injEq] at hm
    obtain ⟨rfl, rfl⟩ := hm
    rw [exOps_run] at he
    cases he
    rfl)
  exact ⟨p, N, hp, by simp [exOps], hN⟩

/-- Non-vacuity of C70: an emptied dictionary inside another one, after a simplex; neither can be folded. -/
example (n : Nat) (x : NDArray Flt) (v : Val Flt) :
    foldFree n (run [] [.new none, .set 0 "a" (.leaf (.simplex 2 [] true none)), .del 0 "a", .new none,
      .set 1 "b" (.leaf (.simplex 2 [] true none)), .set 1 "c" (.dict 0)]) 1 x ≠ .ok v := by
  have hg : ∀ op ∈ [Op.new none, .set 0 "a" (.leaf (.simplex 2 [] true none)), .del 0 "a", .new none,
      .set 1 "b" (.leaf (.simplex 2 [] true none)), .set 1 "c" (.dict 0)], GoodOp op := by
    have h1 : Pattern.Built (.simplex 2 [] true none) := WF.built _ (by simp [Pattern.WF])
    simp [GoodOp, isDict, h1]
  have hr : run [] [Op.new none, .set 0 "a" (.leaf (.simplex 2 [] true none)), .del 0 "a", .new none,
      .set 1 "b" (.leaf (.simplex 2 [] true none)), .set 1 "c" (.dict 0)] =
      [⟨[], true, ⟨0, true⟩, ⟨0, true⟩, none⟩,
       ⟨[("b", .leaf (.simplex 2 [] true none)), ("c", .dict 0)], false, ⟨1, true⟩, ⟨2, true⟩, none⟩] := by
    simp [run, step, newDict, setItem, delItem, Ref.valid, setKey, eraseKey, refresh, updateLen, mapE, Ref.len, lock, bind,
      Except.bind, pure, Except.pure, Obj.len, flatLen, List.set]
  obtain ⟨p, hp, -⟩ := C71_denotes hg (d := 1) (by rw [hr]; decide)
  exact ((C70_fold hg hp (by rw [hr]; rfl)).2 "c" 0 _ (by simp) (by rw [hr]; rfl) rfl).1 n x v

example (ops : List Op) : (run (run [] exOps) ops)[0]? =
    some ⟨[("s", .leaf (.simplex 3 [2] true none))], true, ⟨4, false⟩, ⟨6, false⟩, some true⟩ :=
  (C25_locked_frozen (by rw [exOps_run]; rfl) rfl ops).1

example : ∃ oe, (setItem (run [] exOps) 1 "z" (.dict 2)).2[2]? = some oe ∧ oe.locked = true :=
  C25_insert_locks exOps (by rw [exOps_run]; rfl) rfl (by rw [exOps_run]; decide) "z"

example : (setItem (run [] exOps) 1 "b" .junk).1 = .error .attributeError :=
  (C26_non_pattern_stays exOps (by rw [exOps_run]; rfl) rfl "b").1

example : (setItem (run [] exOps) 0 "s" (.leaf (.simplex 2 [] true none))).2 = run [] exOps :=
  C26_failed_set exOps (d := 0) (by rw [exOps_run]; rfl) (by simp) (by simp) (e := lockedError)
    (by rw [exOps_run]; simp [setItem, Ref.valid])

example : (delItem (run [] exOps) 1 "nope").2 = run [] exOps :=
  C26_failed_del exOps (d := 1) (by rw [exOps_run]; rfl) (by simp) (e := .keyError "nope")
    (by rw [exOps_run]; simp [delItem])

example : (setItem (run [] exOps) 1 "q" (.leaf (.simplex 2 [] true none))).1 = .ok () :=
  (C26_when_raises exOps (by rw [exOps_run]; rfl) (by simp) rfl).1 _ _ (by simp) rfl

/-- The events of object 1 in a program like the example: the births of "b" and of the second "a". -/
example : Born [.set "a", .set "b", .set "a", .del "a", .set "a"] "b" 1 ∧
    Born [.set "a", .set "b", .set "a", .del "a", .set "a"] "a" 4 := by
  refine ⟨⟨rfl, fun j hj => ?_, fun i hi => ?_⟩, ⟨rfl, fun j hj => ?_, fun i hi _ => ⟨3, ?_, rfl⟩⟩⟩
  · rcases j with _ | _ | _ | _ | _ | _ <;> simp
  · have : i = 0 := by omega
    subst this; simp
  · rcases j with _ | _ | _ | _ | _ | _ <;> simp at hj ⊢
  · rcases i with _ | _ | _ | _ | _
    all_goals first | omega | simp_all

example : ∃ p, Denotes (run [] exOps) 1 p ∧ p.flatLen true = 10 ∧ Built p := by
  obtain ⟨p, h1, h2, _, h4⟩ := C71_denotes exOps_good (d := 1) (by rw [exOps_run]; decide)
  have h5 := h4 ⟨[("b", .dict 0), ("a", .leaf (.psd 3 (.int 0) true none))], false, ⟨10, false⟩, ⟨15, false⟩, none⟩
    (by rw [exOps_run]; rfl) true
  exact ⟨p, h1, h5.symm, h2⟩

/-- The shared dictionary's tree appears in the trees of both parents. -/
example : Denotes (run [] exOps) 2 (.dict (.cons "c" (.dict (.cons "s" (.simplex 3 [2] true none) .nil) true (some true)) .nil)
    false none) := by
  rw [exOps_run]
  exact ⟨_, _, rfl, .dict (o := ⟨[("s", .leaf (.simplex 3 [2] true none))], true, ⟨4, false⟩, ⟨6, false⟩, some true⟩) rfl
    (.leaf .nil) .nil, rfl⟩

end DictHeap

end Paragami
