import Verif.Proofs.Messages

/-! # Which exception `fold` raises, and which message `validate_folded` gives -/

set_option linter.unusedSimpArgs false

namespace Paragami
open NDArray Pattern

namespace Messages
open Spec

variable {α : Type}

theorem ok_of_same {β : Type} {x y : Except Err β} (h : resultOrClass x = resultOrClass y) {b : β} : x = .ok b ↔ y = .ok b := by
  cases x <;> cases y <;> simp_all [resultOrClass]

theorem answer_of_same {x y : Except Err (Bool × String)} (h : answerOrClass x = answerOrClass y) {b : Bool} :
    (∃ m, x = .ok (b, m)) ↔ ∃ m, y = .ok (b, m) := by
  match x, y with
  | .error e, .error e' => simp
  | .error e, .ok (b, m) => simp [answerOrClass] at h
  | .ok (b, m), .error e => simp [answerOrClass] at h
  | .ok (b, m), .ok (b', m') =>
    simp only [answerOrClass, Except.ok.injEq] at h
    subst h
    simp

theorem mapE_first {β γ : Type} {f : β → Except Err γ} {e : Err} : ∀ {l : List β}, mapE f l = .error e ↔
    ∃ pre x post, l = pre ++ x :: post ∧ (∀ y ∈ pre, ∃ c, f y = .ok c) ∧ f x = .error e
  | [] => by simp [mapE]
  | b :: l => by
    have ih := mapE_first (f := f) (e := e) (l := l)
    simp only [mapE]
    constructor
    · intro h
      cases hb : f b with
      | error e' =>
        rw [hb] at h
        simp only [Except.error.injEq] at h
        exact ⟨[], b, l, rfl, by simp, by rw [hb, h]⟩
      | ok c =>
        rw [hb] at h
        cases hl : mapE f l with
        | ok d => rw [hl] at h; simp at h
        | error e' =>
          rw [hl] at h
          simp only [Except.error.injEq] at h
          obtain ⟨pre, x, post, h1, h2, h3⟩ := ih.mp (h ▸ hl)
          refine ⟨b :: pre, x, post, by rw [h1]; rfl, ?_, h3⟩
          simp only [List.mem_cons, forall_eq_or_imp]
          exact ⟨⟨c, hb⟩, h2⟩
    · rintro ⟨pre, x, post, h1, h2, h3⟩
      cases pre with
      | nil =>
        simp only [List.nil_append, List.cons.injEq] at h1
        rw [h1.1, h3]
      | cons y pre =>
        simp only [List.cons_append, List.cons.injEq] at h1
        obtain ⟨c, hc⟩ := h2 y (by simp)
        have := ih.mpr ⟨pre, x, post, h1.2, fun y hy => h2 y (by simp [hy]), h3⟩
        rw [h1.1, hc, this]

theorem range_first {P Q : Nat → Prop} {n : Nat} : (∃ pre x post, List.range n = pre ++ x :: post ∧ (∀ y ∈ pre, P y) ∧ Q x) ↔
    ∃ i < n, (∀ j < i, P j) ∧ Q i := by
  constructor
  · rintro ⟨pre, x, post, h1, h2, h3⟩
    have hlen : pre.length < n := by have := congrArg List.length h1; simp at this; omega
    have hx : x = pre.length := by
      have := congrArg (fun l => l[pre.length]?) h1
      simp [List.getElem?_range hlen] at this
      exact this.symm
    have hpre : pre = List.range pre.length := by
      have := congrArg (fun l => l.take pre.length) h1
      simpa [List.take_range, Nat.min_eq_left hlen.le] using this.symm
    refine ⟨x, by omega, fun j hj => h2 j ?_, h3⟩
    rw [hpre]; simpa [hx] using hj
  · rintro ⟨i, hi, h1, h2⟩
    refine ⟨List.range i, i, (List.range n).drop (i + 1), ?_, fun y hy => h1 y (List.mem_range.mp hy), h2⟩
    have h := List.take_append_drop i (List.range n)
    rw [List.take_range, Nat.min_eq_left hi.le, List.drop_eq_getElem_cons (by simpa using hi)] at h
    simpa using h.symm

variable [Elem α]

theorem acc_of_fold {p : Pattern} (hw : p.WF) {fmt : Flt → String} {l : List α} {vv : Option Bool} {v : Val α}
    (h : p.foldText fmt (vec l) vv = .ok v) : v = p.unflat l ∧ Acc p v vv := by
  have := foldNF_ok_imp p hw (vec l) vv v ((ok_of_same (fold_same fmt p (vec l) vv)).mp h)
  exact ⟨this.2.1, this.2.2⟩

theorem fold_of_acc {p : Pattern} (hw : p.WF) (fmt : Flt → String) {l : List α} {vv : Option Bool} (hl : l.length = p.flatLen false)
    (h : Acc p (p.unflat l) vv) : p.foldText fmt (vec l) vv = .ok (p.unflat l) :=
  (ok_of_same (fold_same fmt p (vec l) vv)).mpr (foldNF_eq p hw l vv hl h)

/-- The exception of an array is the exception of its first element that raises. -/
theorem array_error {s : List Nat} {b : Pattern} {fd : Option Bool} (hw : (Pattern.array s b fd).WF) (fmt : Flt → String) {l : List α}
    {vv : Option Bool} (hl : l.length = s.prod * b.flatLen false) {e : Err} :
    (Pattern.array s b fd).foldText fmt (vec l) vv = .error e ↔
      ∃ i < s.prod, (∀ j < i, ∃ v, b.foldText fmt (vec (chunk (b.flatLen false) l j)) vv = .ok v) ∧
        b.foldText fmt (vec (chunk (b.flatLen false) l i)) vv = .error e := by
  simp only [Pattern.WF] at hw
  have hbl := flatLen_false hw.2.1 hw.2.2
  have hcl : ∀ i < s.prod, (chunk (b.flatLen false) l i).length = b.flatLen false := fun i hi => length_chunk hl hi
  have harr : ∀ i, (b.foldText fmt (vec (chunk (b.flatLen false) l i)) vv >>= fun v => v.asArr) = .error e ↔
      b.foldText fmt (vec (chunk (b.flatLen false) l i)) vv = .error e := by
    intro i
    cases h : b.foldText fmt (vec (chunk (b.flatLen false) l i)) vv with
    | error e' => simp [bind, Except.bind]
    | ok v =>
      have := (acc_of_fold hw.2.2 h).1
      rw [unflat_of_not_dict hw.2.1] at this
      subst this
      simp [bind, Except.bind, Val.asArr]
  have harr' : ∀ i, (∃ c, (b.foldText fmt (vec (chunk (b.flatLen false) l i)) vv >>= fun v => v.asArr) = .ok c) ↔
      ∃ v, b.foldText fmt (vec (chunk (b.flatLen false) l i)) vv = .ok v := by
    intro i
    cases h : b.foldText fmt (vec (chunk (b.flatLen false) l i)) vv with
    | error e' => simp [bind, Except.bind]
    | ok v =>
      have := (acc_of_fold hw.2.2 h).1
      rw [unflat_of_not_dict hw.2.1] at this
      subst this
      simp [bind, Except.bind, Val.asArr]
  have h1 := mapE_productRanges s (fun i => (b.foldText fmt ((vec l).slice (i * b.flatLen false) (b.flatLen false)) vv >>= fun v => v.asArr))
  have h2 : mapE (fun i => (b.foldText fmt ((vec l).slice (i * b.flatLen false) (b.flatLen false)) vv >>= fun v => v.asArr))
      (List.range s.prod) = .error e ↔ ∃ i < s.prod, (∀ j < i, ∃ v, b.foldText fmt (vec (chunk (b.flatLen false) l j)) vv = .ok v) ∧
        b.foldText fmt (vec (chunk (b.flatLen false) l i)) vv = .error e := by
    rw [mapE_first, range_first]
    simp only [slice_eq_chunk, vec_data, harr, harr']
  have hc : checkText fmt (.array s b fd) (vec l) (s.prod * b.flatLen false) = .ok (vec l) := by
    simp [checkText, hl, pure, Except.pure, bind, Except.bind]
  rw [foldText, hc]
  simp only [bind, Except.bind]
  rw [← h2]
  constructor
  · intro h
    by_cases hall : ∀ i < s.prod, ∃ v, b.foldText fmt (vec (chunk (b.flatLen false) l i)) vv = .ok v
    · exfalso
      have hacc : Acc (.array s b fd) ((Pattern.array s b fd).unflat l) vv := by
        rw [unflat_of_not_dict (by rfl), acc_array]
        refine ⟨_, rfl, rfl, fun i hi => ?_⟩
        obtain ⟨v, hv⟩ := hall i hi
        obtain ⟨h3, h4⟩ := acc_of_fold hw.2.2 hv
        rw [h3, unflat_of_not_dict hw.2.1] at h4
        rw [← hbl]; exact h4
      have := fold_of_acc (p := .array s b fd) hw fmt (l := l) (by simpa [flatLen] using hl) hacc
      rw [foldText, hc] at this
      simp only [bind, Except.bind] at this
      rw [this] at h
      cases h
    · have : ∃ e', mapE (fun i => (b.foldText fmt ((vec l).slice (i * b.flatLen false) (b.flatLen false)) vv >>= fun v => v.asArr))
          (List.range s.prod) = .error e' := by
        cases hm : mapE (fun i => (b.foldText fmt ((vec l).slice (i * b.flatLen false) (b.flatLen false)) vv >>= fun v => v.asArr))
          (List.range s.prod) with
        | error e' => exact ⟨e', rfl⟩
        | ok c =>
          exfalso
          apply hall
          intro i hi
          obtain ⟨d, hd⟩ := mapE_ok_mem hm (List.mem_range.mpr hi)
          rw [slice_eq_chunk] at hd
          exact (harr' i).mp ⟨d, hd⟩
      obtain ⟨e', he'⟩ := this
      unfold foldItems at h
      rw [h1, he'] at h
      simp only [bind, Except.bind, Except.error.injEq] at h
      rw [he', h]
  · intro h
    unfold foldItems
    rw [h1, h]
    simp [bind, Except.bind]

/-- The members of a dictionary with their pieces of a flat value. -/
theorem es_error (fmt : Flt → String) {vv : Option Bool} {e : Err} : ∀ (es : Entries) (x : NDArray α) (off : Nat),
    foldTextEs fmt es x vv off = .error e ↔ ∃ pre q post,
      es.toList.zip (cut (es.toList.map fun q => q.2.flatLen false) (x.data.drop off)) = pre ++ q :: post ∧
      (∀ y ∈ pre, ∃ v, y.1.2.foldText fmt (vec y.2) vv = .ok v) ∧ q.1.2.foldText fmt (vec q.2) vv = .error e
  | .nil, x, off => by simp [foldTextEs, Entries.toList]
  | .cons k p r, x, off => by
    have ih := es_error fmt (vv := vv) (e := e) r x (off + p.flatLen false)
    have hs : x.slice off (p.flatLen false) = vec ((x.data.drop off).take (p.flatLen false)) := rfl
    simp only [foldTextEs, Entries.toList, List.map_cons, cut, List.zip_cons_cons, List.drop_drop, hs]
    constructor
    · intro h
      cases hp : p.foldText fmt (vec ((x.data.drop off).take (p.flatLen false))) vv with
      | error e' =>
        rw [hp] at h
        simp only [bind, Except.bind, Except.error.injEq] at h
        exact ⟨[], _, _, rfl, by simp, by rw [← h]; exact hp⟩
      | ok v =>
        rw [hp] at h
        simp only [bind, Except.bind] at h
        cases hr : foldTextEs fmt r x vv (off + p.flatLen false) with
        | ok vs => rw [hr] at h; simp [pure, Except.pure] at h
        | error e' =>
          rw [hr] at h
          simp only [Except.error.injEq] at h
          obtain ⟨pre, q, post, h1, h2, h3⟩ := ih.mp (h ▸ hr)
          refine ⟨_ :: pre, q, post, by rw [h1]; rfl, ?_, h3⟩
          simp only [List.mem_cons, forall_eq_or_imp]
          exact ⟨⟨v, hp⟩, h2⟩
    · rintro ⟨pre, q, post, h1, h2, h3⟩
      cases pre with
      | nil =>
        simp only [List.nil_append, List.cons.injEq] at h1
        rw [← h1.1] at h3
        simp only at h3
        rw [h3]; rfl
      | cons y pre =>
        simp only [List.cons_append, List.cons.injEq] at h1
        obtain ⟨v, hv⟩ := h2 y (by simp)
        rw [← h1.1] at hv
        simp only at hv
        have := ih.mpr ⟨pre, q, post, h1.2, fun y hy => h2 y (by simp [hy]), h3⟩
        rw [hv, this]; rfl

theorem es_acc (fmt : Flt → String) {vv : Option Bool} : ∀ (es : Entries) (_ : WFEs es) (_ : es.keys.Nodup) (x : NDArray α) (off : Nat)
    (vs : List (String × Val α)), foldTextEs fmt es x vv off = .ok vs → AccEs es vs vv
  | .nil, _, _, _, _, _, _ => trivial
  | .cons k p r, hw, hk, x, off, vs, h => by
    obtain ⟨hk1, hk2⟩ := nodup_keys_cons hk
    rw [foldTextEs] at h
    obtain ⟨v, hv, h⟩ := bind_ok h
    obtain ⟨vs', hvs, h⟩ := bind_ok h
    cases h
    have ih := es_acc fmt (vv := vv) r hw.2.2 hk2 x _ vs' hvs
    have hv' : p.foldText fmt (vec ((x.data.drop off).take (p.flatLen false))) vv = .ok v := hv
    refine ⟨⟨v, by simp, (acc_of_fold hw.1 hv').2⟩, ?_⟩
    rw [accEs_cons_irrel hk1]
    exact ih

/-- The exception of a dictionary is the exception of its first member that raises. -/
theorem dict_error {es : Entries} {lk : Bool} {fd : Option Bool} (hw : (Pattern.dict es lk fd).WF) (fmt : Flt → String) {l : List α}
    {vv : Option Bool} (hl : l.length = flatLenEs es false) {e : Err} :
    (Pattern.dict es lk fd).foldText fmt (vec l) vv = .error e ↔ ∃ pre q post,
      es.toList.zip (cut (es.toList.map fun q => q.2.flatLen false) l) = pre ++ q :: post ∧
      (∀ y ∈ pre, ∃ v, y.1.2.foldText fmt (vec y.2) vv = .ok v) ∧ q.1.2.foldText fmt (vec q.2) vv = .error e := by
  simp only [Pattern.WF] at hw
  have hc : checkText fmt (.dict es lk fd) (vec l) (flatLenEs es false) = .ok (vec l) := by
    simp [checkText, hl, pure, Except.pure, bind, Except.bind]
  have := es_error fmt (vv := vv) (e := e) es (vec l) 0
  simp only [vec_data, List.drop_zero] at this
  rw [← this, foldText, hc]
  simp only [bind, Except.bind]
  cases h : foldTextEs fmt es (vec l) vv 0 with
  | error e' => simp
  | ok vs =>
    have ha : Acc (.dict es lk fd) (.dict vs) vv := acc_dict.mpr ⟨vs, rfl, es_acc fmt es hw.2 hw.1 _ _ _ h⟩
    have hv : requireValid ((Pattern.dict es lk fd).validateText fmt (.dict vs) vv) = .ok () := by
      obtain ⟨m, hm⟩ := (answer_of_same (validate_same fmt (.dict es lk fd) (.dict vs) vv)).mpr ha
      rw [hm]; rfl
    simp [hv, pure, Except.pure]

omit [Elem α] in
theorem cut_lengths : ∀ (ns : List Nat) (l : List α), ns.sum = l.length → (cut ns l).map List.length = ns
  | [], _, _ => rfl
  | n :: ns, l, h => by
    simp only [List.sum_cons] at h
    simp only [cut, List.map_cons, List.length_take, cut_lengths ns (l.drop n) (by simp; omega), List.cons.injEq, and_true]
    omega

omit [Elem α] in
/-- The message of an array. -/
theorem items_false {f : NDArray α → Except Err (Bool × String)} {a : NDArray α} {s rest : List Nat} (ha : a.shape = s ++ rest) {m : String} :
    ∀ {items : List (List Nat)}, (∀ it ∈ items, it ∈ productRanges s) → (itemsText f a items = .ok (false, m) ↔
      ∃ pre it post m', items = pre ++ it :: post ∧ (∀ i ∈ pre, ∃ n, f ⟨rest, chunk rest.prod a.data (ravel s i)⟩ = .ok (true, n)) ∧
        f ⟨rest, chunk rest.prod a.data (ravel s it)⟩ = .ok (false, m') ∧
        m = "Bad value in location " ++ tupleStr it ++ ": " ++ m')
  | [], _ => by simp [itemsText]
  | it :: items, hi => by
    have hit := getItem_eq ha (hi it (by simp))
    have ih := items_false (f := f) ha (m := m) (items := items) (fun i h => hi i (by simp [h]))
    simp only [itemsText, hit, bind, Except.bind]
    constructor
    · intro h
      rcases hf : f ⟨rest, chunk rest.prod a.data (ravel s it)⟩ with e | ⟨b, n⟩
      · rw [hf] at h; simp at h
      · rw [hf] at h
        cases b
        · simp only [Bool.not_false, if_true, pure, Except.pure, Except.ok.injEq, Prod.mk.injEq, true_and, pyFormat] at h
          exact ⟨[], it, items, n, rfl, by simp, hf, by rw [← h]; simp [String.append_assoc]⟩
        · simp only [Bool.not_true, Bool.false_eq_true, if_false] at h
          obtain ⟨pre, j, post, m', h1, h2, h3, h4⟩ := ih.mp h
          refine ⟨it :: pre, j, post, m', by rw [h1]; rfl, ?_, h3, h4⟩
          simp only [List.mem_cons, forall_eq_or_imp]
          exact ⟨⟨n, hf⟩, h2⟩
    · rintro ⟨pre, j, post, m', h1, h2, h3, h4⟩
      cases pre with
      | nil =>
        simp only [List.nil_append, List.cons.injEq] at h1
        rw [h1.1, h3, h4]
        simp [pyFormat, pure, Except.pure, String.append_assoc]
      | cons y pre =>
        simp only [List.cons_append, List.cons.injEq] at h1
        obtain ⟨n, hn⟩ := h2 y (by simp)
        rw [h1.1, hn]
        simp only [Bool.not_true, Bool.false_eq_true, if_false]
        exact ih.mpr ⟨pre, j, post, m', h1.2, fun y hy => h2 y (by simp [hy]), h3, h4⟩

/-- The message of a dictionary. -/
theorem es_false (fmt : Flt → String) {vs : List (String × Val α)} {vv : Option Bool} {m : String} : ∀ (es : Entries),
    validateTextEs fmt es vs vv = .ok (false, m) ↔ ∃ pre q post, es.toList = pre ++ q :: post ∧
      (∀ y ∈ pre, ∃ v n, vs.lookup y.1 = some v ∧ y.2.validateText fmt v vv = .ok (true, n)) ∧
      ((vs.lookup q.1 = none ∧ m = q.1 ++ " not in folded_val dictionary.") ∨
        ∃ v m', vs.lookup q.1 = some v ∧ q.2.validateText fmt v vv = .ok (false, m') ∧ m = m' ++ " is not valid.")
  | .nil => by simp [validateTextEs, Entries.toList]
  | .cons k p r => by
    have ih := es_false fmt (vs := vs) (vv := vv) (m := m) r
    simp only [validateTextEs, Entries.toList]
    constructor
    · intro h
      cases hl : vs.lookup k with
      | none =>
        rw [hl] at h
        simp only [Except.ok.injEq, Prod.mk.injEq, true_and, pyFormat] at h
        exact ⟨[], (k, p), _, rfl, by simp, .inl ⟨hl, by rw [← h]; simp⟩⟩
      | some v =>
        rw [hl] at h
        simp only [bind, Except.bind] at h
        rcases hf : p.validateText fmt v vv with e | ⟨b, n⟩
        · rw [hf] at h; simp at h
        · rw [hf] at h
          cases b
          · simp only [Bool.not_false, if_true, pure, Except.pure, Except.ok.injEq, Prod.mk.injEq, true_and, pyFormat] at h
            exact ⟨[], (k, p), _, rfl, by simp, .inr ⟨v, n, hl, hf, by rw [← h]; simp⟩⟩
          · simp only [Bool.not_true, Bool.false_eq_true, if_false] at h
            obtain ⟨pre, q, post, h1, h2, h3⟩ := ih.mp h
            refine ⟨(k, p) :: pre, q, post, by rw [h1]; rfl, ?_, h3⟩
            simp only [List.mem_cons, forall_eq_or_imp]
            exact ⟨⟨v, n, hl, hf⟩, h2⟩
    · rintro ⟨pre, q, post, h1, h2, h3⟩
      cases pre with
      | nil =>
        simp only [List.nil_append, List.cons.injEq] at h1
        obtain ⟨rfl, _⟩ := h1
        rcases h3 with ⟨hl, hm⟩ | ⟨v, m', hl, hf, hm⟩
        · simp only [hl, hm, pyFormat]; simp
        · simp only [hl, hm, hf, bind, Except.bind, pyFormat, pure, Except.pure]; simp
      | cons y pre =>
        simp only [List.cons_append, List.cons.injEq] at h1
        obtain ⟨v, n, hl, hf⟩ := h2 y (by simp)
        rw [← h1.1] at hl hf
        simp only at hl hf
        simp only [hl, hf, bind, Except.bind, Bool.not_true, Bool.false_eq_true, if_false]
        exact ih.mpr ⟨pre, q, post, h1.2, fun y hy => h2 y (by simp [hy]), h3⟩

end Messages
end Paragami
