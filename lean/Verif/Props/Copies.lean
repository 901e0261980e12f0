import Verif.Proofs.Copies

/-!
# Property C138: copies of a `PatternDict`
-/
namespace Paragami.Copies

open Pattern NDArray

/-- **C138.**  `copy.copy(d)` changes nothing of `d` and is an object with the attributes of `d`; whatever the program does
afterwards — statements on `d`, on the copy, on copies of the copy, on other dictionaries — the two have the same keys and the
same members. -/
theorem C138_shared {s : State} {d : Nat} {o : Obj} {es : Entries} (hd : look s d = some (o, es)) :
    (step s (.copy d)).1 = .ok () ∧ look (run s [.copy d]) d = some (o, es) ∧ look (run s [.copy d]) s.objs.length = some (o, es) ∧
    ∀ ops, ∃ od oc es', look (run s (.copy d :: ops)) d = some (od, es') ∧
      look (run s (.copy d :: ops)) s.objs.length = some (oc, es') := by
  obtain ⟨h1, h2⟩ := look_iff.mp hd
  have e : (step s (.copy d)).2 = ⟨s.inners, s.objs ++ [o]⟩ := by simp [step, hd]
  have hc : (s.objs ++ [o])[s.objs.length]? = some o := by simp
  refine ⟨by simp [step, hd], ?_, ?_, fun ops => ?_⟩
  · rw [run_cons, run_nil, e]; exact look_iff.mpr ⟨append_some h1, h2⟩
  · rw [run_cons, run_nil, e]; exact look_iff.mpr ⟨hc, h2⟩
  · rw [run_cons, e]
    obtain ⟨od, g1, g2, _⟩ := run_keeps (s := ⟨s.inners, s.objs ++ [o]⟩) ops (append_some h1)
    obtain ⟨oc, k1, k2, _⟩ := run_keeps (s := ⟨s.inners, s.objs ++ [o]⟩) ops hc
    obtain ⟨es', he⟩ := run_inner (s := ⟨s.inners, s.objs ++ [o]⟩) ops h2
    exact ⟨od, oc, es', look_iff.mpr ⟨g1, g2 ▸ he⟩, look_iff.mpr ⟨k1, k2 ▸ he⟩⟩

/-- **C138.**  The lengths that `flat_length` gives for a dictionary, its lock and its `free_default` change only by statements
on that very object: if nothing addresses `d`, then after any program `flat_length(free)`, the lock and `free_default` of `d`
are what they were, whatever became of its members. -/
theorem C138_own {s : State} {d : Nat} {o : Obj} {es : Entries} (hd : look s d = some (o, es)) {ops : List Op}
    (hn : ∀ op ∈ ops, op.target ≠ some d) : ∃ es', look (run s ops) d = some (o, es') := by
  obtain ⟨h1, h2⟩ := look_iff.mp hd
  obtain ⟨o', g1, _, g3⟩ := run_keeps ops h1
  obtain ⟨es', he⟩ := run_inner ops h2
  obtain rfl := g3 hn
  exact ⟨es', look_iff.mpr ⟨g1, he⟩⟩

/-- **C138.**  Setting a member of an unlocked dictionary puts it into the dictionary and into every other one with which it
shares its members; `flat_length` is then right for the dictionary addressed — the sum over the members it has now — and for
the others it is what it was. -/
theorem C138_set {s : State} {d : Nat} {o : Obj} {es : Entries} (hd : look s d = some (o, es)) (hl : o.locked = false)
    (k : String) (p : Pattern) :
    (step s (.set d k p)).1 = .ok () ∧
    (∃ o', look (run s [.set d k p]) d = some (o', es.set k p.lock) ∧ o'.locked = false ∧
      ∀ b, (Pattern.dict (es.set k p.lock) o'.locked o'.fd).flatLength (some b) = .ok (o'.len b)) ∧
    ∀ c oc, c ≠ d → look s c = some (oc, es) → oc.inner = o.inner → look (run s [.set d k p]) c = some (oc, es.set k p.lock) := by
  obtain ⟨h1, h2⟩ := look_iff.mp hd
  have e : (step s (.set d k p)).2 = store s d o (es.set k p.lock) := by simp [step, hd, hl]
  refine ⟨by simp [step, hd, hl], ?_, fun c oc hcd hc hi => ?_⟩
  · refine ⟨{ o with freeLen := flatLenEs (es.set k p.lock) true, flatLen := flatLenEs (es.set k p.lock) false }, ?_, hl, fun b => ?_⟩
    · rw [run_cons, run_nil, e]
      exact look_iff.mpr ⟨by simp [store, lt_of_some h1], by simp [store, lt_of_some h2]⟩
    · rw [flatLength_some, Pattern.flatLen]; cases b <;> rfl
  · rw [run_cons, run_nil, e]
    obtain ⟨g1, g2⟩ := look_iff.mp hc
    exact look_iff.mpr ⟨by simp [store, hcd.symm, g1], by simp [store, hi, lt_of_some h2]⟩

/-- **C138.**  Deleting likewise. -/
theorem C138_del {s : State} {d : Nat} {o : Obj} {es : Entries} (hd : look s d = some (o, es)) (hl : o.locked = false)
    {k : String} (hk : k ∈ es.keys) :
    (step s (.del d k)).1 = .ok () ∧
    (∃ o', look (run s [.del d k]) d = some (o', es.erase k) ∧ o'.locked = false ∧
      ∀ b, (Pattern.dict (es.erase k) o'.locked o'.fd).flatLength (some b) = .ok (o'.len b)) ∧
    ∀ c oc, c ≠ d → look s c = some (oc, es) → oc.inner = o.inner → look (run s [.del d k]) c = some (oc, es.erase k) := by
  obtain ⟨h1, h2⟩ := look_iff.mp hd
  have e : (step s (.del d k)).2 = store s d o (es.erase k) := by simp [step, hd, hl, hk]
  refine ⟨by simp [step, hd, hl, hk], ?_, fun c oc hcd hc hi => ?_⟩
  · refine ⟨{ o with freeLen := flatLenEs (es.erase k) true, flatLen := flatLenEs (es.erase k) false }, ?_, hl, fun b => ?_⟩
    · rw [run_cons, run_nil, e]
      exact look_iff.mpr ⟨by simp [store, lt_of_some h1], by simp [store, lt_of_some h2]⟩
    · rw [flatLength_some, Pattern.flatLen]; cases b <;> rfl
  · rw [run_cons, run_nil, e]
    obtain ⟨g1, g2⟩ := look_iff.mp hc
    exact look_iff.mpr ⟨by simp [store, hcd.symm, g1], by simp [store, hi, lt_of_some h2]⟩

/-- **C138.**  The members after setting and deleting, one by one: a new key comes last, a key that is there keeps its place
and gets the new pattern, a deleted key goes, and everything else stays where it was. -/
theorem C138_members {s : State} (hs : Reached s) {d : Nat} {o : Obj} {es : Entries} (hd : look s d = some (o, es))
    (hl : o.locked = false) (k : String) (p : Pattern) :
    (k ∉ es.toList.map (·.1) → ∃ o' es', look (run s [.set d k p]) d = some (o', es') ∧ es'.toList = es.toList ++ [(k, p.lock)]) ∧
    (∀ l q r, es.toList = l ++ (k, q) :: r →
      (∃ o' es', look (run s [.set d k p]) d = some (o', es') ∧ es'.toList = l ++ (k, p.lock) :: r) ∧
      ∃ o' es', look (run s [.del d k]) d = some (o', es') ∧ es'.toList = l ++ r) := by
  have hk := (hs.inv.members _ _ (look_iff.mp hd).2).1
  obtain ⟨_, ⟨o1, h1, _⟩, _⟩ := C138_set hd hl k p
  refine ⟨fun hn => ⟨o1, _, h1, ?_⟩, fun l q r he => ?_⟩
  · rw [set_toList hk, if_neg (by simpa [Entries.keys] using hn)]
  · have hmem : k ∈ es.keys := by simp [Entries.keys, he]
    have hnd : (l.map (·.1) ++ k :: r.map (·.1)).Nodup := by simpa [Entries.keys, he] using hk
    rw [List.nodup_middle, List.nodup_cons, List.mem_append, not_or] at hnd
    have hl' : ∀ kp ∈ l, kp.1 ≠ k := fun kp h hkp => hnd.1.1 (List.mem_map.mpr ⟨kp, h, hkp⟩)
    have hr' : ∀ kp ∈ r, kp.1 ≠ k := fun kp h hkp => hnd.1.2 (List.mem_map.mpr ⟨kp, h, hkp⟩)
    refine ⟨⟨o1, _, h1, ?_⟩, ?_⟩
    · rw [set_toList hk, if_pos hmem, he, List.map_append, List.map_cons, if_pos rfl]
      congr 1
      · conv_rhs => rw [← List.map_id l]
        exact List.map_congr_left fun kp h => by rw [if_neg (hl' kp h)]; rfl
      · congr 1
        conv_rhs => rw [← List.map_id r]
        exact List.map_congr_left fun kp h => by rw [if_neg (hr' kp h)]; rfl
    · obtain ⟨_, ⟨o2, h2, _⟩, _⟩ := C138_del hd hl hmem
      refine ⟨o2, _, h2, ?_⟩
      rw [erase_toList hk, he, List.filter_append, List.filter_cons_of_neg (by simp),
        List.filter_eq_self.mpr fun kp h => by simpa using hl' kp h, List.filter_eq_self.mpr fun kp h => by simpa using hr' kp h]

/-- **C138.**  On a locked dictionary setting and deleting raise `ValueError` and change nothing; deleting a key that is not
there raises `KeyError` and changes nothing. -/
theorem C138_raise {s : State} {d : Nat} {o : Obj} {es : Entries} (hd : look s d = some (o, es)) (k : String) (p : Pattern) :
    (o.locked = true → (∃ m, step s (.set d k p) = (.error (.valueError m), s)) ∧ ∃ m, step s (.del d k) = (.error (.valueError m), s)) ∧
    (o.locked = false → k ∉ es.keys → step s (.del d k) = (.error (.keyError k), s)) := by
  refine ⟨fun hl => ⟨⟨"The dictionary is locked, and its values cannot be changed.", by simp [step, hd, hl, lockedError]⟩,
    ⟨"The dictionary is locked, and its values cannot be changed.", by simp [step, hd, hl, lockedError]⟩⟩,
    fun hl hk => by simp [step, hd, hl, hk]⟩

/-- **C138.**  `copy.deepcopy(d)` is a dictionary of its own: it starts with the members, the lengths, the lock and the
`free_default` of `d`; no statement on objects that were there before changes it, and no statement on it changes `d`. -/
theorem C138_deepcopy {s : State} (hs : Reached s) {d : Nat} {o : Obj} {es : Entries} (hd : look s d = some (o, es)) :
    (step s (.deepcopy d)).1 = .ok () ∧
    ∃ o', (∀ b, o'.len b = o.len b) ∧ o'.locked = o.locked ∧ o'.fd = o.fd ∧
      (∀ ops, (∀ op ∈ ops, ∀ e, op.target = some e → e < s.objs.length) →
        look (run s (.deepcopy d :: ops)) s.objs.length = some (o', es)) ∧
      (∀ ops, (∀ op ∈ ops, ∀ e, op.target = some e → e = s.objs.length) →
        look (run s (.deepcopy d :: ops)) d = some (o, es)) := by
  obtain ⟨h1, h2⟩ := look_iff.mp hd
  have hi := hs.inv
  have e : (step s (.deepcopy d)).2 = ⟨s.inners ++ [es], s.objs ++ [{ o with inner := s.inners.length }]⟩ := by simp [step, hd]
  refine ⟨by simp [step, hd], { o with inner := s.inners.length }, fun b => rfl, rfl, rfl, fun ops hn => ?_, fun ops hn => ?_⟩
  · rw [run_cons, e]
    obtain ⟨oc, k1, k2, k3⟩ := run_keeps (s := ⟨s.inners ++ [es], s.objs ++ [{ o with inner := s.inners.length }]⟩) ops
      (d := s.objs.length) (o := { o with inner := s.inners.length }) (by simp)
    obtain rfl := k3 fun op hop ht => absurd (hn op hop _ ht) (by simp)
    refine look_iff.mpr ⟨k1, run_inner_other (by simp) fun op hop e' ht => ?_⟩
    have hlt := hn op hop e' ht
    have hg : s.objs[e']? = some s.objs[e'] := List.getElem?_eq_getElem hlt
    exact ⟨_, append_some hg, (hi.inner _ _ hg).ne⟩
  · rw [run_cons, e]
    obtain ⟨od, k1, k2, k3⟩ := run_keeps (s := ⟨s.inners ++ [es], s.objs ++ [{ o with inner := s.inners.length }]⟩) ops
      (d := d) (o := o) (append_some h1)
    have hlt := lt_of_some h1
    obtain rfl := k3 fun op hop ht => by have := hn op hop _ ht; omega
    refine look_iff.mpr ⟨k1, run_inner_other (append_some h2) fun op hop e' ht => ?_⟩
    obtain rfl := hn op hop e' ht
    exact ⟨_, List.getElem?_concat_length, (hi.inner _ _ h1).ne'⟩

/-- **C138.**  In a program without `copy.copy` — deep copies are allowed — every dictionary always has the right lengths,
and no statement on one of them changes the members of another. -/
theorem C138_without_copy {ops : List Op} (hop : ∀ d, Op.copy d ∉ ops) {d : Nat} {o : Obj} {es : Entries}
    (hd : look (run ⟨[], []⟩ ops) d = some (o, es)) :
    (∀ b, (Pattern.dict es o.locked o.fd).flatLength (some b) = .ok (o.len b)) ∧
    (∀ x b vv, o.fold es x (some b) vv = (Pattern.dict es o.locked o.fd).fold x (some b) vv) ∧
    (∀ op, op.target ≠ some d → look (run ⟨[], []⟩ (ops ++ [op])) d = some (o, es)) := by
  obtain ⟨h1, h2⟩ := look_iff.mp hd
  have hs : Apart (run ⟨[], []⟩ ops) := apart_run ⟨by simp, by simp, by simp⟩ hop
  have hl := hs.len _ _ _ h1 h2
  have hlen : ∀ b, flatLenEs es b = o.len b := by intro b; cases b <;> simp [Obj.len, hl]
  refine ⟨fun b => by rw [flatLength_some, Pattern.flatLen, hlen], fun x b vv => ?_, fun op ht => ?_⟩
  · simp only [Obj.fold, freeWithDefault, bind, Except.bind, ← hlen]
    cases b
    · rw [fold_false, foldNF_dict_unfold]; rfl
    · rw [fold_true, foldFree_dict_unfold]; rfl
  · have e : run ⟨[], []⟩ (ops ++ [op]) = (step (run ⟨[], []⟩ ops) op).2 := by simp [run]
    rw [e]
    obtain ⟨o', g1, _, g3⟩ := step_keeps op h1
    obtain ⟨es', k1, k2⟩ := step_inner op h2
    obtain rfl := g3 ht
    refine look_iff.mpr ⟨g1, k2 (fun e' o1 he' ho1 hi => ?_) ▸ k1⟩
    exact absurd (hs.own _ _ _ _ ho1 h1 hi ▸ he') ht

/-- **C138.**  The members of a dictionary stay as they are, whatever the program does, if it and every dictionary that shares
its members is locked. -/
theorem C138_frozen {s : State} {d : Nat} {o : Obj} {es : Entries} (hd : look s d = some (o, es))
    (hl : ∀ (c : Nat) (oc : Obj), s.objs[c]? = some oc → oc.inner = o.inner → oc.locked = true) (ops : List Op) :
    ∃ o', look (run s ops) d = some (o', es) := by
  obtain ⟨h1, h2⟩ := look_iff.mp hd
  obtain ⟨o', g1, g2, _⟩ := run_keeps ops h1
  exact ⟨o', look_iff.mpr ⟨g1, g2 ▸ run_locked ops h2 hl⟩⟩

/-- **C138.**  Locking one of them is not enough: a dictionary that was copied before it was locked gets new members through the
copy, and its own lengths are not brought up to date. -/
theorem C138_lock_leaks {s : State} {d : Nat} {o : Obj} {es : Entries} (hd : look s d = some (o, es)) (hl : o.locked = false)
    (k : String) (p : Pattern) :
    ∃ o', look (run s [.copy d, .lock d, .set s.objs.length k p]) d = some (o', es.set k p.lock) ∧ o'.locked = true ∧
      ∀ b, o'.len b = o.len b := by
  obtain ⟨h1, h2⟩ := look_iff.mp hd
  have hlt := lt_of_some h1
  have e1 : (step s (.copy d)).2 = ⟨s.inners, s.objs ++ [o]⟩ := by simp [step, hd]
  have l1 : look ⟨s.inners, s.objs ++ [o]⟩ d = some (o, es) := look_iff.mpr ⟨append_some h1, h2⟩
  have e2 : (step ⟨s.inners, s.objs ++ [o]⟩ (.lock d)).2 = ⟨s.inners, (s.objs ++ [o]).set d { o with locked := true }⟩ := by
    simp [step, l1]
  have l2 : look ⟨s.inners, (s.objs ++ [o]).set d { o with locked := true }⟩ s.objs.length = some (o, es) :=
    look_iff.mpr ⟨by rw [List.getElem?_set_ne (by omega)]; simp, h2⟩
  have l3 : look ⟨s.inners, (s.objs ++ [o]).set d { o with locked := true }⟩ d = some ({ o with locked := true }, es) :=
    look_iff.mpr ⟨by rw [List.getElem?_set_self (by simp; omega)], h2⟩
  obtain ⟨_, _, h⟩ := C138_set l2 hl k p
  rw [run_cons, e1, run_cons, e2]
  exact ⟨_, h d { o with locked := true } (by omega) l3 rfl, rfl, fun b => rfl⟩

/-- **C138.**  What `fold` does on a dictionary whose cached length is `m` although its members take `n` numbers.  A vector
with other than `m` elements raises `ValueError`.  If `m = n` it is `fold` of the dictionary with these members.  If `m > n`
the first `n` numbers are folded and the rest is ignored without a word.  If `m < n` every call raises. -/
theorem C138_fold {o : Obj} {es : Entries} (b : Bool) (vv : Option Bool) {n : Nat}
    (hn : (Pattern.dict es o.locked o.fd).flatLength (some b) = .ok n) (l : List Flt) :
    (l.length ≠ o.len b → ∃ m, o.fold es (vec l) (some b) vv = .error (.valueError m)) ∧
    (l.length = o.len b → n ≤ o.len b →
      o.fold es (vec l) (some b) vv = (Pattern.dict es o.locked o.fd).fold (vec (l.take n)) (some b) vv) ∧
    (o.len b < n → ∃ e, o.fold es (vec l) (some b) vv = .error e) := by
  rw [flatLength_some, Pattern.flatLen] at hn
  obtain rfl := Except.ok.inj hn
  have bad : l.length ≠ o.len b → ∃ m, o.fold es (vec l) (some b) vv = .error (.valueError m) := by
    intro h
    obtain ⟨m, hm⟩ := checkFlat_err (x := vec l) (n := o.len b) (by simpa [vec] using h)
    exact ⟨m, by simp only [Obj.fold, freeWithDefault, bind, Except.bind, hm]⟩
  refine ⟨bad, fun hl hle => ?_, fun hlt => ?_⟩
  · have hlen : (l.take (flatLenEs es b)).length = flatLenEs es b := by simp; omega
    simp only [Obj.fold, freeWithDefault, bind, Except.bind, checkFlat_vec hl, pure, Except.pure]
    cases b
    · rw [fold_false, foldNF_dict_unfold, checkFlat_vec hlen]
      simp only [bind, Except.bind, foldNFEs_take es l vv 0 _ (Nat.zero_add _).le, pure, Except.pure, Bool.false_eq_true, if_false]
    · rw [fold_true, foldFree_dict_unfold, checkFlat_vec hlen]
      simp only [bind, Except.bind, foldFreeEs_take es l 0 _ (Nat.zero_add _).le, pure, Except.pure, if_true]
  · by_cases hl : l.length = o.len b
    · simp only [Obj.fold, freeWithDefault, bind, Except.bind, checkFlat_vec hl, pure, Except.pure]
      cases b
      · obtain ⟨e, he⟩ := foldNFEs_short es l vv 0 (Nat.zero_le _) (by omega)
        exact ⟨e, by simp only [he, Bool.false_eq_true, if_false]⟩
      · obtain ⟨e, he⟩ := foldFreeEs_short es l 0 (Nat.zero_le _) (by omega)
        exact ⟨e, by simp only [he, if_true]⟩
    · obtain ⟨m, hm⟩ := bad hl
      exact ⟨_, hm⟩

/-- **C138.**  A dictionary whose cached length is not that of its members never folds what it flattens: `flatten` follows the
members it has now, and `fold` of the result raises `ValueError`. -/
theorem C138_round_trip {s : State} (hs : Reached s) {d : Nat} {o : Obj} {es : Entries} (hd : look s d = some (o, es))
    {b : Bool} {n : Nat} (hn : (Pattern.dict es o.locked o.fd).flatLength (some b) = .ok n) (hne : o.len b ≠ n)
    {v : Val Flt} (hv : v.WF) {vv vv' : Option Bool} {x : NDArray Flt}
    (hx : (Pattern.dict es o.locked o.fd).flatten v (some b) vv = .ok x) :
    ∃ m, o.fold es x (some b) vv' = .error (.valueError m) := by
  have hw := hs.inv.members _ _ (look_iff.mp hd).2
  obtain ⟨n', h1, h2, h3⟩ := C06_flatten_length (WF.built (.dict es o.locked o.fd) ⟨hw.1, hw.2⟩) hv hx
  rw [hn] at h1
  obtain rfl := Except.ok.inj h1
  obtain ⟨m, hm⟩ := checkFlat_err (x := x) (n := o.len b) (by rw [h3]; exact hne.symm)
  exact ⟨m, by simp only [Obj.fold, freeWithDefault, bind, Except.bind, hm]⟩

/-- Non-vacuity: `d = PatternDict(); d['a'] = NumericScalarPattern(); c = copy.copy(d); d.lock(); c['b'] = NumericScalarPattern()`.
Now `d`, although locked, has the members `a` and `b` and still says its length is 1, and a vector of one number cannot be folded
by it. -/
example : ∃ (o : Obj) (es : Entries) (s : State), Reached s ∧ look s 0 = some (o, es) ∧ o.locked = true ∧ es.keys = ["a", "b"] ∧
    o.len false = 1 ∧ (Pattern.dict es o.locked o.fd).flatLength (some false) = .ok 2 ∧
    ∃ e, o.fold es (vec [.fin 3]) (some false) none = .error e := by
  have hb : Built (.numeric .scalar [1] (.flt .ninf) (.flt .pinf) true none) :=
    WF.built _ (by simp [Pattern.WF, PyNum.toFlt, Flt.NotNaN, Flt.lt])
  let p : Pattern := .numeric .scalar [1] (.flt .ninf) (.flt .pinf) true none
  refine ⟨⟨0, true, 1, 1, none⟩, .cons "a" p (.cons "b" p .nil),
    run ⟨[], []⟩ [.new none, .set 0 "a" p, .copy 0, .lock 0, .set 1 "b" p], ⟨_, ?_, rfl⟩, ?_, rfl, rfl, rfl, ?_, ?_⟩
  · intro d k q h
    simp only [List.mem_cons, reduceCtorEq, Op.set.injEq, List.not_mem_nil, or_false, false_or] at h
    rcases h with ⟨_, _, rfl⟩ | ⟨_, _, rfl⟩ <;> exact hb
  · simp [run, step, look, store, Entries.set, Pattern.lock, p, flatLenEs, Pattern.flatLen]
  · simp [flatLength_some, Pattern.flatLen, flatLenEs, p]
  · exact (C138_fold false none (n := 2) (by simp [flatLength_some, Pattern.flatLen, flatLenEs, p]) _).2.2 (by simp [Obj.len])

end Paragami.Copies
