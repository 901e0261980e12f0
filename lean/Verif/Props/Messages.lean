import Verif.Proofs.MessagesFold
import Verif.Props.FunctionPatterns

/-! # The texts of exceptions (C133, C134) -/

set_option linter.unusedSimpArgs false

namespace Paragami
open NDArray Pattern Messages

variable {α : Type} [Elem α]

/-- **C133.**  Putting the values into the messages changes nothing else: `validate_folded`, `fold` and `flatten` give the same answers
and raise exceptions of the same classes. -/
theorem C133_outcome (fmt : Flt → String) (p : Pattern) (v : Val α) (x : NDArray α) (vv : Option Bool) :
    Spec.answerOrClass (p.validateText fmt v vv) = Spec.answerOrClass (p.validate v vv) ∧
    Spec.resultOrClass (p.foldText fmt x vv) = Spec.resultOrClass (p.foldNF x vv) ∧
    Spec.resultOrClass (p.flattenText fmt v vv) = Spec.resultOrClass (p.flattenNF v vv) :=
  ⟨validate_same fmt p v vv, fold_same fmt p x vv, flatten_same fmt p v vv⟩

theorem append_ne_left {a b : String} (h : a ≠ "") : a ++ b ≠ "" := by
  intro e
  have := congrArg String.toList e
  simp only [String.toList_append, String.toList_empty, List.append_eq_nil_iff] at this
  exact h (String.toList_inj.mp (by simpa using this.1))

theorem append_ne_right {a b : String} (h : b ≠ "") : a ++ b ≠ "" := by
  intro e
  have := congrArg String.toList e
  simp only [String.toList_append, String.toList_empty, List.append_eq_nil_iff] at this
  exact h (String.toList_inj.mp (by simpa using this.2))

/-- **C133.**  The message is empty exactly when the value is valid. -/
theorem C133_empty_message (fmt : Flt → String) (p : Pattern) (v : Val α) (vv : Option Bool) {b : Bool} {m : String}
    (h : p.validateText fmt v vv = .ok (b, m)) : (b = true ↔ m = "") := by
  suffices h : (b = true → m = "") ∧ (b = false → m ≠ "") by
    cases b <;> simp_all
  revert v vv b m h
  induction p using Pattern.ind (Q := fun es => ∀ (vs : List (String × Val α)) (vv : Option Bool) {b : Bool} {m : String},
      validateTextEs fmt es vs vv = .ok (b, m) → (b = true → m = "") ∧ (b = false → m ≠ "")) with
  | hnum c s lb ub dv fd =>
    intro v vv b m h
    cases v with
    | dict d => simp [validateText, Val.asArr, bind, Except.bind] at h
    | arr a =>
      simp only [validateText, Val.asArr, bind, Except.bind, pure, Except.pure, Except.ok.injEq, numericText] at h
      split_ifs at h <;> cases h <;> simp
  | hsim k s dv fd =>
    intro v vv b m h
    cases v with
    | dict d => simp [validateText, Val.asArr, bind, Except.bind] at h
    | arr a =>
      simp only [validateText, Val.asArr, bind, Except.bind, Simplex.validate, Simplex.validateShape] at h
      split_ifs at h <;> cases h <;> simp
  | hpsd n lb dv fd =>
    intro v vv b m h
    cases v with
    | dict d => simp [validateText, Val.asArr, bind, Except.bind] at h
    | arr a =>
      simp only [validateText, Val.asArr, bind, Except.bind, psdText] at h
      split_ifs at h <;> cases h <;> simp
      exact append_ne_left (append_ne_left (by decide))
  | harr s base fd ih =>
    intro v vv b m h
    cases v with
    | dict d => simp [validateText, Val.asArr, bind, Except.bind] at h
    | arr a =>
      simp only [validateText, Val.asArr, bind, Except.bind, pure, Except.pure] at h
      split_ifs at h
      · cases h; simp only [Bool.false_eq_true, false_implies, true_and]
        exact fun _ => append_ne_left (append_ne_left (by decide))
      · cases h; simp only [Bool.false_eq_true, false_implies, true_and]
        exact fun _ => append_ne_left (append_ne_left (by decide))
      · generalize NDArray.productRanges s = items at h
        induction items with
        | nil => cases h; simp
        | cons it items ihi =>
          simp only [itemsText, bind, Except.bind] at h
          split at h
          · cases h
          · split at h
            · cases h
            · next w _ =>
              split_ifs at h
              · cases h; simp only [Bool.false_eq_true, false_implies, true_and]
                exact fun _ => append_ne_left (append_ne_left (by decide))
              · exact ihi h
  | hdict es l fd ih =>
    intro v vv b m h
    cases v with
    | arr a => simp [validateText, Val.asDict, bind, Except.bind] at h
    | dict vs => exact ih vs vv h
  | hnil vs vv h => cases h; simp
  | hcons k p r ihp ihr vs vv h =>
    simp only [validateTextEs] at h
    split at h
    · cases h; simp only [Bool.false_eq_true, false_implies, true_and]
      exact fun _ => append_ne_right (by decide)
    · simp only [bind, Except.bind] at h
      split at h
      · cases h
      · split_ifs at h
        · cases h; simp only [Bool.false_eq_true, false_implies, true_and]
          exact fun _ => append_ne_right (by decide)
        · exact ihr vs vv h

/-- **C133, arrays.**  With the right shape, the message of a `PatternArray` gives the position of the first element that is not valid,
in the order of `itertools.product`, and the message for that element. -/
theorem C133_array {s : List Nat} {base : Pattern} {fd : Option Bool} {a : NDArray α} (fmt : Flt → String) (ha : a.shape = s ++ base.shape)
    (vv : Option Bool) (m : String) :
    (Pattern.array s base fd).validateText fmt (.arr a) vv = .ok (false, m) ↔ ∃ pre it post m',
      NDArray.productRanges s = pre ++ it :: post ∧
      (∀ i ∈ pre, ∃ n, base.validateText fmt (.arr ⟨base.shape, (a.data.drop (ravel s i * base.shape.prod)).take base.shape.prod⟩) vv =
        .ok (true, n)) ∧
      base.validateText fmt (.arr ⟨base.shape, (a.data.drop (ravel s it * base.shape.prod)).take base.shape.prod⟩) vv = .ok (false, m') ∧
      m = "Bad value in location " ++ tupleStr it ++ ": " ++ m' := by
  have hn : a.ndim = (s ++ base.shape).length := by simp [ndim, ha]
  rw [show (Pattern.array s base fd).validateText fmt (.arr a) vv =
    itemsText (fun sub => base.validateText fmt (.arr sub) vv) a (NDArray.productRanges s) by
      simp [validateText, Val.asArr, bind, Except.bind, hn, ha]]
  exact items_false ha (fun _ h => h)

/-- **C133, arrays.**  The position and the inner message can be read off the message. -/
theorem C133_location {it it' : List Nat} {m m' : String}
    (h : "Bad value in location " ++ tupleStr it ++ ": " ++ m = "Bad value in location " ++ tupleStr it' ++ ": " ++ m') :
    it = it' ∧ m = m' := by
  have h := congrArg String.toList h
  simp only [String.toList_append, List.append_assoc, List.append_cancel_left_eq] at h
  obtain ⟨h1, h2⟩ := Str.tuple_split h
  exact ⟨h1, String.toList_inj.mp (List.append_cancel_left h2)⟩

/-- **C133, arrays.**  With the wrong shape the message of a `PatternArray` has the two shapes the wrong way round: what it calls
expected is the value's, and what it calls the one it got is the pattern's.  A `NumericArrayPattern` has them the right way round. -/
theorem C133_swapped (fmt : Flt → String) (a : NDArray α) (vv : Option Bool) :
    (∀ {s base fd}, a.shape.length ≠ (s ++ base.shape).length → (Pattern.array s base fd).validateText fmt (.arr a) vv =
      .ok (false, "Wrong number of dimensions.  Expected " ++ toString a.shape.length ++ ", got " ++
        toString (s ++ base.shape).length ++ ".")) ∧
    (∀ {s base fd}, a.shape.length = (s ++ base.shape).length → a.shape ≠ s ++ base.shape →
      (Pattern.array s base fd).validateText fmt (.arr a) vv =
        .ok (false, "Wrong shape.  Expected " ++ tupleStr a.shape ++ ", got " ++ tupleStr (s ++ base.shape) ++ ".")) ∧
    (∀ {c s lb ub dv fd}, a.shape ≠ [] → a.shape ≠ s → (Pattern.numeric c s lb ub dv fd).validateText fmt (.arr a) vv =
      .ok (false, "Wrong size for array. Expected shape: " ++ tupleStr s ++ " Got shape: " ++ tupleStr a.shape)) := by
  refine ⟨fun {s base fd} h => ?_, fun {s base fd} h h' => ?_, fun {c s lb ub dv fd} h h' => ?_⟩
  · simp only [validateText, Val.asArr, bind, Except.bind, ndim, ne_eq, h, not_false_eq_true, if_true, pure, Except.pure, pyFormat,
      String.append_assoc]
  · simp only [validateText, Val.asArr, bind, Except.bind, ndim, ne_eq, h, h', not_false_eq_true, not_true_eq_false, if_false, if_true,
      pure, Except.pure, pyFormat, String.append_assoc]
  · have e : a.atleast1d = a := by
      unfold atleast1d; split
      · next h1 => simp_all
      · rfl
    simp only [validateText, Val.asArr, bind, Except.bind, pure, Except.pure, numericText, e, ne_eq, h', not_false_eq_true, if_true]
    rfl

/-- **C133, matrices.**  A matrix of the wrong shape is not called invalid: `validate_folded` raises, and the message has the shape it should
have.  With the right shape, the first rule that is broken is named, the lower bound of the diagonal with its value. -/
theorem C133_matrix (fmt : Flt → String) {n : Nat} {lb : PyNum} {dv : Bool} {fd : Option Bool} (a : NDArray α) (vv : Option Bool) :
    (a.shape ≠ [n, n] → (Pattern.psd n lb dv fd).validateText fmt (.arr a) vv =
      .error (.valueError ("The matrix is not of shape " ++ tupleStr [n, n]))) ∧
    (a.shape = [n, n] → vv.getD dv = true →
      ((∃ i < n, (entry n (a.data.map Elem.toFlt) i i).lt lb.toFlt = true) → (Pattern.psd n lb dv fd).validateText fmt (.arr a) vv =
        .ok (false, "Diagonal is less than the lower bound " ++ lb.str fmt ++ ".")) ∧
      ((∀ i < n, (entry n (a.data.map Elem.toFlt) i i).lt lb.toFlt = false) →
        (∃ i < n, ∃ j < n, (entry n (a.data.map Elem.toFlt) j i).eq (entry n (a.data.map Elem.toFlt) i j) = false) →
        (Pattern.psd n lb dv fd).validateText fmt (.arr a) vv = .ok (false, "Matrix is not symmetric."))) := by
  rw [show (Pattern.psd n lb dv fd).validateText fmt (.arr a) vv = psdText fmt n lb dv a vv from rfl, psdText]
  refine ⟨fun h => ?_, fun h hv => ?_⟩
  · rw [if_pos h]
    simp only [pyFormat, String.append_empty]
  · rw [if_neg (not_not.2 h), if_pos hv]
    generalize a.data.map Elem.toFlt = d
    refine ⟨fun hd => ?_, fun hd hs => ?_⟩
    · have e : (List.range n).any (fun i => (entry n d i i).lt lb.toFlt) = true := by
        obtain ⟨i, hi, hl⟩ := hd
        exact List.any_eq_true.2 ⟨i, List.mem_range.2 hi, hl⟩
      rw [if_pos e]
      simp only [pyFormat, String.append_assoc]
    · have e : (List.range n).any (fun i => (entry n d i i).lt lb.toFlt) = false :=
        List.any_eq_false.2 fun i hi => by rw [hd i (List.mem_range.1 hi)]; exact Bool.false_ne_true
      have e' : ((List.range n).all fun i => (List.range n).all fun j => (entry n d j i).eq (entry n d i j)) = false := by
        obtain ⟨i, hi, j, hj, hl⟩ := hs
        refine List.all_eq_false.2 ⟨i, List.mem_range.2 hi, ?_⟩
        rw [Bool.not_eq_true]
        exact List.all_eq_false.2 ⟨j, List.mem_range.2 hj, by rw [hl]; exact Bool.false_ne_true⟩
      rw [if_neg (by rw [e]; exact Bool.false_ne_true), if_pos (by rw [e']; rfl)]

/-- **C133, matrices.**  The exception passes through the containers unchanged: for a dictionary it names no key. -/
theorem C133_matrix_member (fmt : Flt → String) {n : Nat} {lb : PyNum} {dv : Bool} {fd fd' : Option Bool} {k : String} {r : Entries} {lk : Bool}
    {vs : List (String × Val α)} {a : NDArray α} (hk : vs.lookup k = some (.arr a)) (ha : a.shape ≠ [n, n]) (vv : Option Bool) :
    (Pattern.dict (.cons k (.psd n lb dv fd) r) lk fd').validateText fmt (.dict vs) vv =
      .error (.valueError ("The matrix is not of shape " ++ tupleStr [n, n])) := by
  simp only [validateText, Val.asDict, bind, Except.bind, validateTextEs, hk]
  have := (C133_matrix fmt (n := n) (lb := lb) (dv := dv) (fd := fd) a vv).1 ha
  simp only [validateText, Val.asArr, bind, Except.bind] at this
  simp only [Val.asArr, this]

/-- C133 for matrices is not vacuous: a matrix of shape `(1, 2)` where `(2, 2)` is wanted. -/
example : (Pattern.psd 2 (.int 0) true none).validateText (fun _ => "") (.arr (⟨[1, 2], [.fin 1, .fin 0]⟩ : NDArray Flt)) none =
    .error (.valueError ("The matrix is not of shape " ++ tupleStr [2, 2])) :=
  (C133_matrix _ _ _).1 (by simp)

/-- **C133, dictionaries.**  The message of a `PatternDict` names the first member that is missing.  For the first member that is not valid it
repeats the member's message and does not name it. -/
theorem C133_dict {es : Entries} {lk : Bool} {fd : Option Bool} {vs : List (String × Val α)} (fmt : Flt → String) (vv : Option Bool) (m : String) :
    (Pattern.dict es lk fd).validateText fmt (.dict vs) vv = .ok (false, m) ↔ ∃ pre q post, es.toList = pre ++ q :: post ∧
      (∀ y ∈ pre, ∃ v n, vs.lookup y.1 = some v ∧ y.2.validateText fmt v vv = .ok (true, n)) ∧
      ((vs.lookup q.1 = none ∧ m = q.1 ++ " not in folded_val dictionary.") ∨
        ∃ v m', vs.lookup q.1 = some v ∧ q.2.validateText fmt v vv = .ok (false, m') ∧ m = m' ++ " is not valid.") :=
  es_false fmt es

theorem rename_shape (σ : String → String) (p : Pattern) : (Spec.relabelKeys σ p).shape = p.shape := by
  induction p using Pattern.ind (Q := fun _ => True) with
  | harr s b fd ih => simp [Spec.relabelKeys, Pattern.shape, ih]
  | _ => first | rfl | trivial

omit [Elem α] in
theorem rename_lookup {σ : String → String} (hσ : Function.Injective σ) (k : String) : ∀ vs : List (String × Val α),
    (Spec.relabelVals σ vs).lookup (σ k) = (vs.lookup k).map (Spec.relabelVal σ)
  | [] => rfl
  | (k', v) :: vs => by
    simp only [Spec.relabelVals, List.lookup_cons, rename_lookup hσ k vs]
    by_cases h : k = k'
    · simp [h]
    · have h' : σ k ≠ σ k' := fun e => h (hσ e)
      simp [beq_eq_false_iff_ne.mpr h, beq_eq_false_iff_ne.mpr h']

/-- **C133, dictionaries.**  As long as no key is missing, the keys play no part in what `validate_folded` says: with other keys in the
pattern and the value, at any level, the answer and the message are the same. -/
theorem C133_keys_not_named {σ : String → String} (hσ : Function.Injective σ) (fmt : Flt → String) (p : Pattern) (v : Val α)
    (hv : Spec.HasKeys p v) (vv : Option Bool) :
    (Spec.relabelKeys σ p).validateText fmt (Spec.relabelVal σ v) vv = p.validateText fmt v vv := by
  revert v vv
  induction p using Pattern.ind (Q := fun es => ∀ (vs : List (String × Val α)), Spec.HasKeysEs es vs → ∀ vv : Option Bool,
      validateTextEs fmt (Spec.relabelEntries σ es) (Spec.relabelVals σ vs) vv = validateTextEs fmt es vs vv) with
  | hnum c s lb ub dv fd => intro v _ vv; cases v <;> rfl
  | hsim k s dv fd => intro v _ vv; cases v <;> rfl
  | hpsd n lb dv fd => intro v _ vv; cases v <;> rfl
  | harr s b fd ih =>
    intro v _ vv
    cases v with
    | dict d => rfl
    | arr a =>
      have : ∀ sub : NDArray α, (Spec.relabelKeys σ b).validateText fmt (.arr sub) vv = b.validateText fmt (.arr sub) vv := fun sub => by
        have := ih (.arr sub) (by cases b <;> trivial) vv
        simpa [Spec.relabelVal] using this
      simp only [Spec.relabelKeys, Spec.relabelVal, validateText, rename_shape, this]
  | hdict es l fd ih =>
    intro v hv vv
    cases v with
    | arr a => rfl
    | dict vs => simpa [Spec.relabelKeys, Spec.relabelVal, validateText, Val.asDict, bind, Except.bind] using ih vs hv vv
  | hnil vs hv vv => rfl
  | hcons k p r ihp ihr vs hv vv =>
    obtain ⟨⟨v, hl, hp⟩, hr⟩ := hv
    simp only [Spec.relabelEntries, validateTextEs, rename_lookup hσ, hl, Option.map_some, ihp v hp vv, ihr vs hr vv]

/-- **C133, `fold`.**  A `PatternArray` raises, unchanged, the exception of the first element that cannot be folded.  So the message has no
position in it. -/
theorem C133_fold_array {s : List Nat} {base : Pattern} {fd : Option Bool} (hp : Built (Pattern.array s base fd)) (fmt : Flt → String)
    {l : List α} (hl : l.length = s.prod * base.flatLen false) (vv : Option Bool) (e : Err) :
    (Pattern.array s base fd).foldText fmt (vec l) vv = .error e ↔
      ∃ i < s.prod, (∀ j < i, ∃ v, base.foldText fmt (vec ((l.drop (j * base.flatLen false)).take (base.flatLen false))) vv = .ok v) ∧
        base.foldText fmt (vec ((l.drop (i * base.flatLen false)).take (base.flatLen false))) vv = .error e :=
  array_error hp.wf fmt hl

theorem sum_flatLen : ∀ es : Entries, (es.toList.map fun q => q.2.flatLen false).sum = flatLenEs es false
  | .nil => rfl
  | .cons k p r => by simp [Entries.toList, flatLenEs, sum_flatLen r]

omit [Elem α] in
theorem zip_cut : ∀ (ps : List (String × Pattern)) (l : List α), (ps.map fun q => q.2.flatLen false).sum = l.length →
    ∀ q ∈ ps.zip (Spec.cut (ps.map fun q => q.2.flatLen false) l), q.2.length = q.1.2.flatLen false
  | [], _, _, q, h => by simp at h
  | p :: ps, l, hs, q, h => by
    simp only [List.map_cons, List.sum_cons] at hs
    simp only [List.map_cons, Spec.cut, List.zip_cons_cons, List.mem_cons] at h
    rcases h with rfl | h
    · simp; omega
    · exact zip_cut ps _ (by simp; omega) q h

/-- **C133, `fold`.**  A `PatternDict` raises, unchanged, the exception of the first member that cannot be folded. -/
theorem C133_fold_dict {es : Entries} {lk : Bool} {fd : Option Bool} (hp : Built (Pattern.dict es lk fd)) (fmt : Flt → String)
    {l : List α} (hl : l.length = (es.toList.map fun q => q.2.flatLen false).sum) (vv : Option Bool) (e : Err) :
    (Pattern.dict es lk fd).foldText fmt (vec l) vv = .error e ↔ ∃ pre q post,
      es.toList.zip (Spec.cut (es.toList.map fun q => q.2.flatLen false) l) = pre ++ q :: post ∧
      (∀ y ∈ pre, ∃ v, y.1.2.foldText fmt (vec y.2) vv = .ok v) ∧ q.1.2.foldText fmt (vec q.2) vv = .error e := by
  exact dict_error hp.wf fmt (hl.trans (sum_flatLen es))

theorem requireValid_error {r : Except Err (Bool × String)} {β : Type} {b : β} {e : Err}
    (h : (requireValid r >>= fun _ => Except.ok b) = .error e) : r = .error e ∨ ∃ m, r = .ok (false, m) ∧ e = .valueError m := by
  rcases r with e' | ⟨_ | _, m⟩
  · left; simpa [requireValid, bind, Except.bind] using h
  · right
    simp only [requireValid, bind, Except.bind, throw, throwThe, MonadExceptOf.throw, Bool.not_false, if_true, Except.error.injEq] at h
    exact ⟨m, rfl, h.symm⟩
  · simp [requireValid, bind, Except.bind, pure, Except.pure] at h

theorem fold_leaf_rule {p : Pattern} {fmt : Flt → String} {l : List α} (hl : l.length = p.flatLen false) {vv : Option Bool} {e : Err}
    (h : p.foldText fmt (vec l) vv = .error e) (hd : ∀ s b fd, p ≠ .array s b fd) (hd' : p.isDict = false) (hw : p.WF) :
    ∃ m, e = .valueError m ∧ Spec.RuleOf fmt p m := by
  cases p with
  | numeric c s lb ub dv fd =>
    have hl : l.length = s.prod := by simpa [flatLen] using hl
    have hc : checkText fmt (.numeric c s lb ub dv fd) (vec l) s.prod = .ok (vec l) := by
      simp [checkText, hl, pure, Except.pure, bind, Except.bind]
    have hr : (vec l).reshape s = .ok ⟨s, l⟩ := by simp [reshape, hl]
    rw [foldText, hc] at h
    change ((vec l).reshape s >>= _) = _ at h
    rw [hr] at h
    rcases requireValid_error (b := Val.arr (⟨s, l⟩ : NDArray α)) h with h | ⟨m, h, rfl⟩
    · simp [validateText, Val.asArr, bind, Except.bind, pure, Except.pure] at h
    · refine ⟨m, rfl, ?_⟩
      simp only [validateText, Val.asArr, bind, Except.bind, pure, Except.pure, Except.ok.injEq, numericText] at h
      split_ifs at h with h1
      · exfalso
        apply h1
        simp [atleast1d, hw.1]
      all_goals cases h <;> simp [Spec.RuleOf]
  | simplex k s dv fd =>
    have hl : l.length = (s ++ [k]).prod := by simpa [flatLen] using hl
    have hr : (vec l).reshape (s ++ [k]) = .ok ⟨s ++ [k], l⟩ := by simp only [reshape, vec_data, hl, if_true]
    rw [foldText, vec_len] at h
    simp only [bind, Except.bind, hl, ne_eq, not_true_eq_false, if_false, pure, Except.pure, hr] at h
    rcases requireValid_error (b := Val.arr (⟨s ++ [k], l⟩ : NDArray α)) h with h | ⟨m, h, rfl⟩
    · simp only [validateText, Val.asArr, bind, Except.bind, Simplex.validate, Simplex.validateShape, if_true, Bool.not_true, Bool.false_eq_true,
        if_false] at h
      split_ifs at h
    · refine ⟨m, rfl, ?_⟩
      simp only [validateText, Val.asArr, bind, Except.bind, Simplex.validate, Simplex.validateShape, if_true, Bool.not_true, Bool.false_eq_true,
        if_false] at h
      split_ifs at h
      all_goals cases h <;> simp [Spec.RuleOf]
  | psd n lb dv fd =>
    have hl : l.length = n ^ 2 := by simpa [flatLen] using hl
    have hc : checkText fmt (.psd n lb dv fd) (vec l) (n ^ 2) = .ok (vec l) := by
      simp [checkText, hl, pure, Except.pure, bind, Except.bind]
    have hr : (vec l).reshape [n, n] = .ok ⟨[n, n], l⟩ := by simp [reshape, hl, pow_two]
    rw [foldText, hc] at h
    change ((vec l).reshape [n, n] >>= _) = _ at h
    rw [hr] at h
    rcases requireValid_error (b := Val.arr (⟨[n, n], l⟩ : NDArray α)) h with h | ⟨m, h, rfl⟩
    · simp only [validateText, Val.asArr, bind, Except.bind, psdText, ne_eq, not_true_eq_false, if_false] at h
      split_ifs at h
    · refine ⟨m, rfl, ?_⟩
      simp only [validateText, Val.asArr, bind, Except.bind, psdText, ne_eq, not_true_eq_false, if_false] at h
      split_ifs at h
      all_goals cases h <;> simp [Spec.RuleOf, pyFormat, String.append_assoc]
  | array s b fd => exact absurd rfl (hd s b fd)
  | dict es lk fd => simp [isDict] at hd'

theorem ruleEs_of_mem {fmt : Flt → String} {m : String} : ∀ {es : Entries} {q : String × Pattern}, q ∈ es.toList → Spec.RuleOf fmt q.2 m →
    Spec.RuleOfEs fmt es m
  | .nil, _, h, _ => by simp [Entries.toList] at h
  | .cons k p r, q, h, hr => by
    simp only [Entries.toList, List.mem_cons] at h
    rcases h with rfl | h
    · exact .inl hr
    · exact .inr (ruleEs_of_mem h hr)

/-- **C133, `fold`.**  For a flat value of the right length the only exception is `ValueError`, and its message is the rule of one of the
leaves: it names no key and no position, however deep the leaf is. -/
theorem C133_fold_rule {p : Pattern} (hp : Built p) (fmt : Flt → String) {l : List α} (hl : l.length = p.flatLen false) (vv : Option Bool)
    {e : Err} (h : p.foldText fmt (vec l) vv = .error e) : ∃ m, e = .valueError m ∧ Spec.RuleOf fmt p m := by
  have hw := hp.wf
  clear hp
  revert hw l vv e
  induction p using Pattern.ind (Q := fun es => WFEs es → ∀ q ∈ es.toList, ∀ {l : List α}, l.length = q.2.flatLen false →
      ∀ (vv : Option Bool) {e : Err}, q.2.foldText fmt (vec l) vv = .error e → ∃ m, e = .valueError m ∧ Spec.RuleOf fmt q.2 m) with
  | hnum c s lb ub dv fd => intro l hl vv e h hw; exact fold_leaf_rule hl h (by simp) rfl hw
  | hsim k s dv fd => intro l hl vv e h hw; exact fold_leaf_rule hl h (by simp) rfl hw
  | hpsd n lb dv fd => intro l hl vv e h hw; exact fold_leaf_rule hl h (by simp) rfl hw
  | harr s b fd ih =>
    intro l hl vv e h hw
    have hl' : l.length = s.prod * b.flatLen false := by simpa [flatLen] using hl
    obtain ⟨i, hi, _, h⟩ := (array_error hw fmt hl').mp h
    exact ih (length_chunk hl' hi) vv h hw.2.2
  | hdict es lk fd ih =>
    intro l hl vv e h hw
    have hl' : l.length = flatLenEs es false := by simpa [flatLen] using hl
    obtain ⟨pre, q, post, h1, _, h⟩ := (dict_error hw fmt hl').mp h
    have hq : q ∈ es.toList.zip (Spec.cut (es.toList.map fun q => q.2.flatLen false) l) := by rw [h1]; simp
    have hlen : q.2.length = q.1.2.flatLen false := by
      have hs : (es.toList.map fun q => q.2.flatLen false).sum = l.length := by rw [sum_flatLen, hl']
      exact zip_cut es.toList l hs q hq
    obtain ⟨m, hm, hr⟩ := ih hw.2 q.1 (List.of_mem_zip hq).1 hlen vv h
    exact ⟨m, hm, ruleEs_of_mem (List.of_mem_zip hq).1 hr⟩
  | hnil _ q hq => simp [Entries.toList] at hq
  | hcons k p r ihp ihr hw q hq hl vv h =>
    simp only [Entries.toList, List.mem_cons] at hq
    rcases hq with rfl | hq
    · exact ihp hl vv h hw.1
    · exact ihr hw.2.2 q hq hl vv h

/-- **C133, `fold`.**  What is said of a flat value of the wrong length: numeric patterns and the containers give both lengths, a dictionary
also its own description, simplexes and matrices none. -/
theorem C133_fold_size {p : Pattern} (fmt : Flt → String) {l : List α} (hl : l.length ≠ p.flatLen false) (vv : Option Bool) :
    p.foldText fmt (vec l) vv = .error (.valueError (match p with
      | .numeric .. => "Wrong size for array.  Expected " ++ toString (p.flatLen false) ++ ", got " ++ toString l.length
      | .simplex .. => "flat_val is the wrong length."
      | .psd .. => "Wrong length for PSDSymmetricMatrix flat value."
      | .array .. => "Wrong size for parameter.  Expected " ++ toString (p.flatLen false) ++ ", got " ++ toString l.length
      | .dict .. => "Wrong size for pattern dictionary " ++ p.str fmt ++ ".\nExpected " ++ toString (p.flatLen false) ++ ", got " ++
          toString l.length ++ ".")) := by
  cases p with
  | numeric c s lb ub dv fd =>
    have hl' : l.length ≠ s.prod := by simpa [flatLen] using hl
    simp [foldText, checkText, bind, Except.bind, throw, throwThe, MonadExceptOf.throw, hl', sizeText, pyFormat, flatLen,
      String.append_assoc]
  | simplex k s dv fd =>
    have hl' : l.length ≠ (s ++ [k]).prod := by simpa [flatLen] using hl
    rw [foldText, vec_len]
    simp only [bind, Except.bind, throw, throwThe, MonadExceptOf.throw, hl', sizeText, ne_eq, not_false_eq_true, if_true]
  | psd n lb dv fd =>
    have hl' : l.length ≠ n ^ 2 := by simpa [flatLen] using hl
    simp [foldText, checkText, bind, Except.bind, throw, throwThe, MonadExceptOf.throw, hl', sizeText]
  | array s b fd =>
    have hl' : l.length ≠ s.prod * b.flatLen false := by simpa [flatLen] using hl
    simp [foldText, checkText, bind, Except.bind, throw, throwThe, MonadExceptOf.throw, hl', sizeText, pyFormat, flatLen,
      String.append_assoc]
  | dict es lk fd =>
    have hl' : l.length ≠ flatLenEs es false := by simpa [flatLen] using hl
    simp [foldText, checkText, bind, Except.bind, throw, throwThe, MonadExceptOf.throw, hl', sizeText, pyFormat, flatLen,
      String.append_assoc]

/-- **C133, `flatten`.**  The message of `flatten` is the message of `validate_folded`. -/
theorem C133_flatten (fmt : Flt → String) (p : Pattern) (v : Val α) (vv : Option Bool) {m : String}
    (h : p.validateText fmt v vv = .ok (false, m)) : p.flattenText fmt v vv = .error (.valueError m) := by
  have hr : requireValid (p.validateText fmt v vv) = .error (.valueError m) := by rw [h]; rfl
  cases p with
  | numeric c s lb ub dv fd =>
    cases v with
    | dict d => simp [validateText, Val.asArr, bind, Except.bind] at h
    | arr a =>
      have e : (Pattern.numeric c s lb ub dv fd).validateText fmt (.arr a.atleast1d) vv =
          (Pattern.numeric c s lb ub dv fd).validateText fmt (.arr a) vv := by
        simp only [validateText, Val.asArr, bind, Except.bind, numericText, atleast1d_of_ne (atleast1d_shape_ne_nil a)]
      simp only [flattenText, Val.asArr, bind, Except.bind, e, hr]
  | simplex k s dv fd =>
    cases v with
    | dict d => simp [validateText, Val.asArr, bind, Except.bind] at h
    | arr a => simp only [flattenText, Val.asArr, bind, Except.bind, hr]
  | psd n lb dv fd =>
    cases v with
    | dict d => simp [validateText, Val.asArr, bind, Except.bind] at h
    | arr a => simp only [flattenText, Val.asArr, bind, Except.bind, hr]
  | array s b fd => simp only [flattenText, bind, Except.bind, hr]
  | dict es lk fd => simp only [flattenText, bind, Except.bind, hr]

/-- Two vectors of one number that must not be negative, under a key of a dictionary, under a key of a dictionary. -/
def exTexts (k : String) : Pattern :=
  .dict (.cons "outer" (.dict (.cons k (.array [2] (.numeric .vector [1] (.int 0) (.flt .pinf) true none) none) .nil) true none) .nil)
    false none

theorem exTexts_built (k : String) : Built (exTexts k) := by
  refine WF.built _ ?_
  simp [exTexts, Pattern.WF, Pattern.WFEs, Entries.keys, Entries.toList, Pattern.isDict, Pattern.lock, PyNum.toFlt, Flt.NotNaN, Flt.lt]

theorem exVector (fmt : Flt → String) (r : ℝ) : (Pattern.numeric .vector [1] (.int 0) (.flt .pinf) true none).validateText fmt
    (.arr ⟨[1], [Flt.fin r]⟩) none = .ok (if r < 0 then (false, "Value beneath lower bound.") else (true, "")) := by
  by_cases h : r < 0 <;>
    simp [validateText, Val.asArr, bind, Except.bind, pure, Except.pure, numericText, atleast1d, PyNum.toFlt, Flt.lt, Flt.gt, Elem.toFlt, h]

theorem exVectorFold (fmt : Flt → String) (r : ℝ) : (Pattern.numeric .vector [1] (.int 0) (.flt .pinf) true none).foldText fmt
    (vec [Flt.fin r]) none = if r < 0 then .error (.valueError "Value beneath lower bound.") else .ok (.arr ⟨[1], [Flt.fin r]⟩) := by
  have hc : checkText fmt (.numeric .vector [1] (.int 0) (.flt .pinf) true none) (vec [Flt.fin r]) [1].prod = .ok (vec [Flt.fin r]) := by
    simp [checkText, pure, Except.pure, bind, Except.bind]
  have hr : (vec [Flt.fin r]).reshape [1] = .ok ⟨[1], [Flt.fin r]⟩ := by simp [reshape]
  rw [foldText, hc]
  change ((vec [Flt.fin r]).reshape [1] >>= _) = _
  rw [hr]
  change (requireValid _ >>= _) = _
  rw [exVector]
  by_cases h : r < 0 <;> simp [h, requireValid, bind, Except.bind, pure, Except.pure, throw, throwThe, MonadExceptOf.throw]

/-- The numbers 1 and -1: `flatten` and `validate_folded` give the position and that something is not valid twice, but no key;
`fold` gives the rule only. -/
example (fmt : Flt → String) (k : String) :
    (exTexts k).flattenText fmt (.dict [("outer", .dict [(k, .arr ⟨[2, 1], [Flt.fin 1, Flt.fin (-1)]⟩)])]) none =
      .error (.valueError "Bad value in location (1,): Value beneath lower bound. is not valid. is not valid.") ∧
    (exTexts k).foldText fmt (vec [Flt.fin 1, Flt.fin (-1)]) none = .error (.valueError "Value beneath lower bound.") := by
  constructor
  · apply C133_flatten
    have h : (Pattern.array [2] (.numeric .vector [1] (.int 0) (.flt .pinf) true none) none).validateText fmt
        (.arr ⟨[2, 1], [Flt.fin 1, Flt.fin (-1)]⟩) none = .ok (false, "Bad value in location (1,): Value beneath lower bound.") := by
      rw [C133_array fmt rfl]
      refine ⟨[[0]], [1], [], "Value beneath lower bound.", rfl, ?_, ?_, by decide +kernel⟩
      · simp only [List.mem_singleton, forall_eq]
        have := exVector fmt 1
        rw [if_neg (by norm_num)] at this
        exact ⟨"", by simpa [Pattern.shape, ravel] using this⟩
      · have := exVector fmt (-1)
        rw [if_pos (by norm_num)] at this
        simpa [Pattern.shape, ravel] using this
    have h2 : (Pattern.dict (.cons k (.array [2] (.numeric .vector [1] (.int 0) (.flt .pinf) true none) none) .nil) true none).validateText fmt
        (.dict [(k, .arr ⟨[2, 1], [Flt.fin 1, Flt.fin (-1)]⟩)]) none =
        .ok (false, "Bad value in location (1,): Value beneath lower bound. is not valid.") := by
      rw [C133_dict]
      exact ⟨[], _, [], rfl, by simp, .inr ⟨_, _, by simp, h, by decide +kernel⟩⟩
    rw [exTexts, C133_dict]
    exact ⟨[], _, [], rfl, by simp, .inr ⟨_, _, by simp, h2, by decide +kernel⟩⟩
  · rw [exTexts, C133_fold_dict (exTexts_built k) fmt (by simp [Entries.toList, flatLen, flatLenEs])]
    refine ⟨[], _, [], rfl, by simp, ?_⟩
    change (Pattern.dict _ true none).foldText fmt (vec [Flt.fin 1, Flt.fin (-1)]) none = _
    have hw : (Pattern.dict (.cons k (.array [2] (.numeric .vector [1] (.int 0) (.flt .pinf) true none) none) .nil) true none).WF := by
      simp [Pattern.WF, Pattern.WFEs, Entries.keys, Entries.toList, Pattern.isDict, Pattern.lock, PyNum.toFlt, Flt.NotNaN, Flt.lt]
    rw [C133_fold_dict (WF.built _ hw) fmt (by simp [Entries.toList, flatLen])]
    refine ⟨[], _, [], rfl, by simp, ?_⟩
    change (Pattern.array _ _ none).foldText fmt (vec [Flt.fin 1, Flt.fin (-1)]) none = _
    rw [C133_fold_array (WF.built _ hw.2.1) fmt (by simp [flatLen])]
    refine ⟨1, by simp, fun j hj => ?_, ?_⟩
    · obtain rfl : j = 0 := by omega
      refine ⟨.arr ⟨[1], [Flt.fin 1]⟩, ?_⟩
      have := exVectorFold fmt 1
      rw [if_neg (by norm_num)] at this
      simpa [flatLen] using this
    · have := exVectorFold fmt (-1)
      rw [if_pos (by norm_num)] at this
      simpa [flatLen] using this

end Paragami
