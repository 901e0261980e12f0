import Verif.Proofs.FunctionPatterns
import Verif.Props.RoundTrip

/-! # C46–C50: function wrappers -/

namespace Paragami
open Pattern NDArray FunctionPatterns

variable {X : Type}

/-! ### C46 -/

/-- **C46, construction.** The constructor succeeds exactly for good arguments, otherwise it raises `ValueError`; the wrapper pairs
positions, patterns and flags as the caller wrote them. -/
theorem C46_construct {P : NDArray Pattern} {F : NDArray (Option Bool)} (flat : Bool) {A : Option (NDArray ℤ)} (hP : P.WF) (hF : F.WF)
    (hA : ∀ a, A = some a → a.WF) :
    (Spec.GoodArguments P F A → ∃ s, construct P F flat A = .ok s ∧ Spec.Constructed s ∧ s.originalIsFlat = flat ∧
      ∀ k p fr, Spec.Targets s k p fr ↔ Spec.Named P F A k p fr) ∧
    (¬ Spec.GoodArguments P F A → ∃ msg, construct P F flat A = .error (.valueError msg)) := by
  obtain ⟨h1, h2⟩ := construct_iff (F := F) (flat := flat) hP hA
  refine ⟨fun hg => ⟨_, h1 hg, ⟨P, F, flat, A, hP, hF, hA, h1 hg⟩, rfl, fun k p fr => ?_⟩, h2⟩
  obtain ⟨-, hs, -, hl⟩ := good_iff.mp hg
  refine exists_congr fun i => ?_
  obtain ⟨-, hb⟩ := broadcastData_vec hF hs
  by_cases hi : i < P.data.length
  · rw [numList_getElem? _ _ _ _ hi, hb i hi]; tauto
  · have : P.data[i]? = none := List.getElem?_eq_none (by omega)
    simp [this]

/-- **C46, calls.** A call in which every named argument is there and can be transformed calls the wrapped function on the arguments
with exactly the named ones replaced. -/
theorem C46_call {s : Wrapper} (hs : Spec.Constructed s) (h0 : ∀ k ∈ s.nums, 0 ≤ k) {args : List (Arg X)}
    (ht : ∀ k p fr, Spec.Targets s k p fr → ∃ a v, args[k.toNat]? = some a ∧ Spec.inputTr s p fr a = .ok v) :
    ∃ new, Spec.Replaced (Spec.inputTr s) s args new ∧ ∀ (f : Fn X) (kw : Kwargs X), callInput s f args kw = f.call new kw := by
  obtain ⟨T, h1, h2⟩ := loop_replaced (constructed_ok hs) h0 ht
  exact ⟨T, h2, callInput_of h1⟩

/-- **C46, the replacement is determined.** -/
theorem C46_unique {s : Wrapper} (hs : Spec.Constructed s) {args new new' : List (Arg X)}
    (h : Spec.Replaced (Spec.inputTr s) s args new) (h' : Spec.Replaced (Spec.inputTr s) s args new') : new = new' :=
  replaced_unique (constructed_ok hs) h h'

/-- **C46, missing arguments.** If a named argument is missing the wrapped function is not called (the outcome is an exception that
does not depend on it), and it is `IndexError` if the arguments that are there can be transformed. -/
theorem C46_missing {s : Wrapper} (hs : Spec.Constructed s) (h0 : ∀ k ∈ s.nums, 0 ≤ k) {args : List (Arg X)}
    (hm : ∃ k ∈ s.nums, (args.length : ℤ) ≤ k) :
    (∃ e, ∀ (f : Fn X) (kw : Kwargs X), callInput s f args kw = .error e) ∧
    ((∀ k p fr a, Spec.Targets s k p fr → args[k.toNat]? = some a → ∃ v, Spec.inputTr s p fr a = .ok v) →
      ∀ (f : Fn X) (kw : Kwargs X), callInput s f args kw = .error .indexError) := by
  have hok := constructed_ok hs
  obtain ⟨k, hk, hlt⟩ := hm
  obtain ⟨p, fr, hkt⟩ := exists_target hok hk
  refine ⟨?_, fun ht => callInput_error (inputLoop_missing _ _ _ (fun it hit => ?_) ⟨(k, p, fr), ?_, hlt⟩)⟩
  · cases hR : newArgs s args with
    | error e => exact ⟨e, callInput_error hR⟩
    | ok R =>
      obtain ⟨a, v, ha, -⟩ := loop_imp hok hR hkt
      rw [pyGet_error hlt] at ha; cases ha
  · have := (mem_items hok).mp ((sorted_perm hok).mem_iff.mp hit)
    exact ⟨h0 _ (target_mem this), fun a ha => ht _ _ _ _ this ha⟩
  · exact (sorted_perm hok).mem_iff.mpr ((mem_items hok).mpr hkt)

/-- **C46, failures.** If the wrapped function is called at all, every named argument was there and was transformed. -/
theorem C46_only_if {s : Wrapper} (hs : Spec.Constructed s) (h0 : ∀ k ∈ s.nums, 0 ≤ k) {args : List (Arg X)} :
    (∃ e, ∀ (f : Fn X) (kw : Kwargs X), callInput s f args kw = .error e) ∨
    ∀ k p fr, Spec.Targets s k p fr → ∃ a v, args[k.toNat]? = some a ∧ Spec.inputTr s p fr a = .ok v := by
  cases hR : newArgs s args with
  | error e => exact .inl ⟨e, callInput_error hR⟩
  | ok R =>
    refine .inr fun k p fr hk => ?_
    obtain ⟨a, v, ha, hv⟩ := loop_imp (constructed_ok hs) hR hk
    obtain ⟨-, -, h3⟩ := pyGet_ok ha
    rw [pos_nonneg (h0 k (target_mem hk))] at h3
    exact ⟨a, v, h3, hv⟩

/-! The running example: a scalar pattern for the third argument and the nested one for the first, both free, given in this order. -/

/-- A positive scalar. -/
noncomputable def exScalar : Pattern := .numeric .scalar [1] (.flt (.fin 0)) (.flt .pinf) true none

/-- The wrapper. -/
noncomputable def exWrapper (flat : Bool) : Wrapper := ⟨[exScalar, exPat], [some true, some true], [2, 0], flat⟩

theorem exWrapper_eq (flat : Bool) :
    construct (vec [exScalar, exPat]) ⟨[], [some true]⟩ flat (some (vec [2, 0])) = .ok (exWrapper flat) := by
  rw [(construct_iff (P := vec [exScalar, exPat]) (F := ⟨[], [some true]⟩) (A := some (vec [2, 0])) (by simp [NDArray.WF, vec])
    (by rintro a h; cases h; simp [NDArray.WF, vec])).1 (by
      refine ⟨by simp [ndim, vec], .inl rfl, ?_⟩
      rintro a h; cases h; simp [ndim, vec])]
  rfl

theorem exWrapper_constructed (flat : Bool) : Spec.Constructed (exWrapper flat) :=
  ⟨_, _, _, _, by simp [NDArray.WF, vec], by simp [NDArray.WF], by rintro a h; cases h; simp [NDArray.WF, vec], exWrapper_eq flat⟩

theorem exWrapper_targets (flat : Bool) (k : ℤ) (p : Pattern) (fr : Option Bool) : Spec.Targets (exWrapper flat) k p fr ↔
    (k = 2 ∧ p = exScalar ∧ fr = some true) ∨ (k = 0 ∧ p = exPat ∧ fr = some true) := by
  constructor
  · rintro ⟨i, h1, h2, h3⟩
    match i with
    | 0 => left; simp [exWrapper] at h1 h2 h3; exact ⟨h1.symm, h2.symm, h3.symm⟩
    | 1 => right; simp [exWrapper] at h1 h2 h3; exact ⟨h1.symm, h2.symm, h3.symm⟩
    | _ + 2 => simp [exWrapper] at h1
  · rintro (⟨rfl, rfl, rfl⟩ | ⟨rfl, rfl, rfl⟩)
    · exact ⟨0, rfl, rfl, rfl⟩
    · exact ⟨1, rfl, rfl, rfl⟩

theorem exScalar_built : Built exScalar := WF.built _ (by simp [exScalar, Pattern.WF, PyNum.toFlt, Flt.lt])

/-- Values for which both patterns go back and forth. -/
theorem exWrapper_values : ∃ u w : Val Flt, Spec.RoundTrips exPat (some true) u ∧ Spec.RoundTrips exScalar (some true) w := by
  obtain ⟨u, h1, h2⟩ := C10_free_vector exPat_built exPat_finiteLb exPat_noEmpty (r := List.replicate 11 0)
    (by rw [List.length_replicate]; exact exPat_lengths.1) none none
  obtain ⟨w, h3, h4⟩ := C10_free_vector exScalar_built (by simp [exScalar, FiniteLb]) (by simp [exScalar, NoEmpty]) (r := [0])
    (by simp [exScalar, flatLength_some, flatLen]) none none
  exact ⟨u, w, ⟨_, h2, h1⟩, ⟨_, h4, h3⟩⟩

/-- Non-vacuity of C46: with three arguments, the second of which is not touched, the hypotheses hold. -/
example (x : X) : Spec.Constructed (exWrapper true) ∧ (∀ k ∈ (exWrapper true).nums, 0 ≤ k) ∧ ∃ args : List (Arg X), args.length = 3 ∧
    args[1]? = some (.other x) ∧ ∀ k p fr, Spec.Targets (exWrapper true) k p fr →
      ∃ a v, args[k.toNat]? = some a ∧ Spec.inputTr (exWrapper true) p fr a = .ok v := by
  obtain ⟨u, w, ⟨y, hy, _⟩, ⟨z, hz, _⟩⟩ := exWrapper_values
  refine ⟨exWrapper_constructed true, by simp [exWrapper], [.val u, .other x, .val w], rfl, rfl, fun k p fr h => ?_⟩
  rw [exWrapper_targets] at h
  rcases h with ⟨rfl, rfl, rfl⟩ | ⟨rfl, rfl, rfl⟩
  · exact ⟨.val w, .val (.arr z), rfl, by simp [Spec.inputTr, exWrapper, flattenArg, hz, bind, Except.bind, pure, Except.pure]⟩
  · exact ⟨.val u, .val (.arr y), rfl, by simp [Spec.inputTr, exWrapper, flattenArg, hy, bind, Except.bind, pure, Except.pure]⟩

/-- Non-vacuity: a good and a bad list of arguments for the constructor. -/
example : Spec.GoodArguments (vec [exScalar, exPat]) ⟨[], [some true]⟩ (some (vec [2, 0])) ∧
    ¬ Spec.GoodArguments (vec [exScalar, exPat]) ⟨[], [some true]⟩ (some (vec [2, 2])) := by
  constructor
  · refine ⟨by simp [ndim, vec], .inl rfl, ?_⟩
    rintro a h; cases h; simp [ndim, vec]
  · rintro ⟨-, -, h⟩
    have := (h _ rfl).2.1
    simp [vec] at this

/-! ### C47 -/

/-- **C47.** Wrappers that pair the same positions with the same patterns and flags are the same function of the wrapped function
and the arguments, whatever the order they were given in. -/
theorem C47_order {s t : Wrapper} (hs : Spec.Constructed s) (ht : Spec.Constructed t) (hf : s.originalIsFlat = t.originalIsFlat)
    (h : ∀ k p fr, Spec.Targets s k p fr ↔ Spec.Targets t k p fr) (f : Fn X) (args : List (Arg X)) (kw : Kwargs X) :
    callInput s f args kw = callInput t f args kw ∧ callOutput s f args kw = callOutput t f args kw := by
  have hs := constructed_ok hs
  have ht := constructed_ok ht
  have hp := sorted_eq_of_targets hs ht h
  refine ⟨by rw [callInput, callInput, newArgs_perm hs ht hf hp], ?_⟩
  rw [callOutput, callOutput]
  simp only [transformRet_perm hs ht hf hp]

/-- What the caller passes for the list `l` of positions with patterns and flags. -/
def passed {Y : Type} (mk : NDArray Pattern → NDArray (Option Bool) → Option (NDArray ℤ) → Y) (l : List (ℤ × Pattern × Option Bool)) : Y :=
  mk (vec (l.map (·.2.1))) (vec (l.map (·.2.2))) (some (vec (l.map (·.1))))

/-- **C47, at the constructors.** Passing patterns, flags and positions in another order makes no difference at all, not even when
the construction fails. -/
theorem C47_permute {l l' : List (ℤ × Pattern × Option Bool)} (h : l.Perm l') (f : Fn X) :
    passed (foldFunctionInput f) l = passed (foldFunctionInput f) l' ∧
    passed (flattenFunctionInput f) l = passed (flattenFunctionInput f) l' ∧
    passed (foldFunctionOutput f) l = passed (foldFunctionOutput f) l' ∧
    passed (flattenFunctionOutput f) l = passed (flattenFunctionOutput f) l' := by
  have wf : ∀ {α : Type} (d : List α), (vec d).WF := fun d => by simp [NDArray.WF, vec]
  have wfA : ∀ (d : List ℤ) a, some (vec d) = some a → a.WF := fun d a e => by cases e; exact wf d
  have key : ∀ flat, (∃ e, passed (fun P F A => construct P F flat A) l = .error e ∧ passed (fun P F A => construct P F flat A) l' = .error e) ∨
      ∃ s t, passed (fun P F A => construct P F flat A) l = .ok s ∧ passed (fun P F A => construct P F flat A) l' = .ok t ∧
        wrapInput s f = wrapInput t f ∧ wrapOutput s f = wrapOutput t f := by
    intro flat
    have hg : ∀ l : List (ℤ × Pattern × Option Bool), (l.map (·.1)).Nodup →
        Spec.GoodArguments (vec (l.map (·.2.1))) (vec (l.map (·.2.2))) (some (vec (l.map (·.1)))) := by
      intro l hn
      refine ⟨by simp [ndim, vec], .inr (.inr (by simp [vec])), ?_⟩
      rintro a e; cases e
      exact ⟨by simp [ndim, vec], hn, by simp [vec]⟩
    have hT : ∀ (l : List (ℤ × Pattern × Option Bool)) k p fr,
        Spec.Named (vec (l.map (·.2.1))) (vec (l.map (·.2.2))) (some (vec (l.map (·.1)))) k p fr ↔ (k, p, fr) ∈ l := by
      intro l k p fr
      rw [List.mem_iff_getElem?, Spec.Named]
      refine exists_congr fun i => ?_
      have e : (if (vec (l.map (·.2.2))).data.length = 1 then (vec (l.map (·.2.2))).data[0]? else (vec (l.map (·.2.2))).data[i]?) = some fr ↔
          (if l.length = 1 then l[0]? else l[i]?).map (·.2.2) = some fr := by
        simp only [vec, List.length_map, List.getElem?_map]; split <;> rfl
      rw [e]
      simp only [vec, List.getElem?_map]
      by_cases h1 : l.length = 1
      · obtain ⟨x, rfl⟩ := List.length_eq_one_iff.mp h1
        cases i with
        | zero => simp [Prod.ext_iff]; tauto
        | succ i => simp
      · rw [if_neg h1]
        cases l[i]? with
        | none => simp
        | some x => simp [Prod.ext_iff]; tauto
    by_cases hn : (l.map (·.1)).Nodup
    · have hn' : (l'.map (·.1)).Nodup := (h.map _).nodup_iff.mp hn
      obtain ⟨s, s1, s2, s3, s4⟩ := (C46_construct flat (wf _) (wf _) (wfA _)).1 (hg l hn)
      obtain ⟨t, t1, t2, t3, t4⟩ := (C46_construct flat (wf _) (wf _) (wfA _)).1 (hg l' hn')
      have e := C47_order (X := X) s2 t2 (s3.trans t3.symm) (fun k p fr => by rw [s4, t4, hT, hT]; exact h.mem_iff) f
      refine .inr ⟨s, t, s1, t1, ?_, ?_⟩
      · simp only [wrapInput, Fn.mk.injEq, and_true]; exact funext fun args => funext fun kw => (e args kw).1
      · simp only [wrapOutput, Fn.mk.injEq, and_true]; exact funext fun args => funext fun kw => (e args kw).2
    · have hn' : ¬ (l'.map (·.1)).Nodup := fun h' => hn ((h.map _).nodup_iff.mpr h')
      refine .inl ⟨.valueError "argnums must not contain duplicated values.", ?_, ?_⟩ <;>
      · unfold passed
        beta_reduce
        rw [construct_vec (wf _) (wfA _) (by simp [ndim, vec]) (by rintro a e; cases e; simp [ndim, vec]),
          if_neg (by simp [vec]), if_pos (by simpa [numList, vec] using ‹¬ _›)]
  refine ⟨?_, ?_, ?_, ?_⟩
  · rcases key true with ⟨e, h1, h2⟩ | ⟨s, t, h1, h2, h3, h4⟩ <;> simp only [passed] at h1 h2 <;> simp only [passed, foldFunctionInput, h1, h2]
    simp only [bind, Except.bind, h3]
  · rcases key false with ⟨e, h1, h2⟩ | ⟨s, t, h1, h2, h3, h4⟩ <;> simp only [passed] at h1 h2 <;> simp only [passed, flattenFunctionInput, h1, h2]
    simp only [bind, Except.bind, h3]
  · rcases key true with ⟨e, h1, h2⟩ | ⟨s, t, h1, h2, h3, h4⟩ <;> simp only [passed] at h1 h2 <;> simp only [passed, foldFunctionOutput, h1, h2]
    simp only [bind, Except.bind, h4]
  · rcases key false with ⟨e, h1, h2⟩ | ⟨s, t, h1, h2, h3, h4⟩ <;> simp only [passed] at h1 h2 <;> simp only [passed, flattenFunctionOutput, h1, h2]
    simp only [bind, Except.bind, h4]

/-- Non-vacuity of C47: the example wrapper, and the same one given in the other order. -/
example : [(2, exScalar, some true), (0, exPat, some true)].Perm [((0 : ℤ), exPat, some true), (2, exScalar, some true)] ∧
    passed (fun P F A => construct P F true A) [(2, exScalar, some true), (0, exPat, some true)] = .ok (exWrapper true) := by
  refine ⟨List.Perm.swap .., ?_⟩
  unfold passed
  beta_reduce
  rw [construct_vec (by simp [NDArray.WF, vec]) (by rintro a h; cases h; simp [NDArray.WF, vec]) (by simp [ndim, vec])
    (by rintro a h; cases h; simp [ndim, vec])]
  simp [vec, numList, broadcastData, productRanges_vec, exWrapper, ravel, List.range_succ]

/-! ### C48 -/

/-- **C48, what works.** In a call with `n` arguments, if no position is -1 and each negative one stands for an earlier argument than
all the non-negative ones, positions follow Python's indexing. -/
theorem C48_python_indexing {s : Wrapper} (hs : Spec.Constructed s) {args : List (Arg X)} (hg : Spec.GoodNegatives args.length s.nums)
    (ht : ∀ k p fr, Spec.Targets s k p fr → ∃ a v, 0 ≤ Spec.pyIndex args.length k ∧
      args[(Spec.pyIndex args.length k).toNat]? = some a ∧ Spec.inputTr s p fr a = .ok v) :
    ∃ new, Spec.ReplacedPy (Spec.inputTr s) s args new ∧ ∀ (f : Fn X) (kw : Kwargs X), callInput s f args kw = f.call new kw := by
  obtain ⟨T, h1, h2⟩ := loop_replacedPy (constructed_ok hs) hg ht
  exact ⟨T, h2, callInput_of h1⟩

/-- **C48, what does not work.** Otherwise nothing is rejected on account of it, but the wrapped function is called with too many
arguments (if at all). -/
theorem C48_too_many {s : Wrapper} (hs : Spec.Constructed s) {args : List (Arg X)} (hg : ¬ Spec.GoodNegatives args.length s.nums) :
    (∃ e, ∀ (f : Fn X) (kw : Kwargs X), callInput s f args kw = .error e) ∨
    ∃ new, args.length < new.length ∧ ∀ (f : Fn X) (kw : Kwargs X), callInput s f args kw = f.call new kw := by
  cases hR : newArgs s args with
  | error e => exact .inl ⟨e, callInput_error hR⟩
  | ok R => exact .inr ⟨R, loop_too_many (constructed_ok hs) hg hR, callInput_of hR⟩

/-- **C48, the last argument.** `argnums=-1` with `n + 1` arguments: the function gets `2 n + 2` of them, the transformed value followed by
all the arguments once more. -/
theorem C48_minus_one {s : Wrapper} {p : Pattern} {fr : Option Bool} (hp : s.patterns = [p]) (hf : s.free = [fr]) (hn : s.nums = [-1])
    {args : List (Arg X)} {a v : Arg X} (hv : Spec.inputTr s p fr a = .ok v) (f : Fn X) (kw : Kwargs X) :
    callInput s f (args ++ [a]) kw = f.call (args ++ [v] ++ (args ++ [a])) kw := by
  refine callInput_of ?_ f kw
  have hs : s.sorted = [(-1, p, fr)] := by
    rw [Wrapper.sorted, hp, hf, hn, argsort]; simp
  rw [newArgs, hs]
  have h1 : pyGet (args ++ [a]) (-1) = .ok a := by
    refine pyGet_eq (by simp) ?_
    simp [pos]
  have h2 : pySlice (args ++ [a]) 0 (-1) = args := by simp [pySlice, clip]
  have h3 : pySlice (args ++ [a]) 0 (args.length + 1) = args ++ [a] := by
    have : clip (args ++ [a]).length (args.length + 1) = args.length + 1 := by
      rw [clip, if_neg (by omega), List.length_append, List.length_singleton]; omega
    rw [pySlice, this]; simp [clip]
  simp only [inputLoop, h1, bind, Except.bind, inputTr_eq, hv, h2, List.nil_append, List.length_append, List.length_singleton]
  rw [show (-1 : ℤ) + 1 = 0 from rfl, Nat.cast_add, Nat.cast_one, h3]

/-- **C48, there is a difference.** With `argnums=-1` on a function of any number of arguments (at least one), a call the original
would accept after transformation is made with another number of arguments. -/
theorem C48_minus_one_length {s : Wrapper} {p : Pattern} {fr : Option Bool} (hp : s.patterns = [p]) (hf : s.free = [fr])
    (hn : s.nums = [-1]) {args : List (Arg X)} {a v : Arg X} (hv : Spec.inputTr s p fr a = .ok v) (r : Ret X) (kw : Kwargs X) :
    callInput s ⟨fun l _ => if l.length = args.length + 1 then .ok r else .error .typeError, true⟩ (args ++ [a]) kw = .error .typeError := by
  rw [C48_minus_one hp hf hn hv]
  simp

/-- Non-vacuity of C48: with four arguments the positions -3 and 3 work, while with three -1 does not, and neither do -2 and 0. -/
example : Spec.GoodNegatives 4 [3, -3] ∧ ¬ Spec.GoodNegatives 3 [-1] ∧ ¬ Spec.GoodNegatives 3 [-2, 0] := by
  simp [Spec.GoodNegatives]

/-- Non-vacuity of C48: the wrapper that is asked to transform the last argument can be constructed. -/
example : Spec.Constructed ⟨[exScalar], [some true], [-1], true⟩ ∧ ∃ w v, Spec.inputTr (X := X) ⟨[exScalar], [some true], [-1], true⟩ exScalar (some true)
    (.val w) = .ok v := by
  obtain ⟨u, w, _, ⟨z, hz, _⟩⟩ := exWrapper_values
  refine ⟨⟨vec [exScalar], ⟨[], [some true]⟩, true, some (vec [-1]), by simp [NDArray.WF, vec], by simp [NDArray.WF], ?_, ?_⟩, w, .val (.arr z), ?_⟩
  · rintro a h; cases h; simp [NDArray.WF, vec]
  · rw [construct_vec (by simp [NDArray.WF, vec]) (by rintro a h; cases h; simp [NDArray.WF, vec]) (by simp [ndim, vec])
      (by rintro a h; cases h; simp [ndim, vec])]
    simp [vec, numList, broadcastData, productRanges_vec, ravel, List.range_succ]
  · simp [Spec.inputTr, flattenArg, hz, bind, Except.bind, pure, Except.pure]

/-! ### C49 -/

/-- **C49, tuples.** If the wrapped function returns a tuple that has all the named values, and they can be transformed, the wrapper
returns it with exactly those replaced. -/
theorem C49_tuple {s : Wrapper} (hs : Spec.Constructed s) (h0 : ∀ k ∈ s.nums, 0 ≤ k) {f : Fn X} {args rets : List (Arg X)} {kw : Kwargs X}
    (hf : f.call args kw = .ok (.tuple rets))
    (ht : ∀ k p fr, Spec.Targets s k p fr → ∃ a v, rets[k.toNat]? = some a ∧ Spec.outputTr s p fr a = .ok v) :
    ∃ new, callOutput s f args kw = .ok (.tuple new) ∧ Spec.Replaced (Spec.outputTr s) s rets new := by
  have hok := constructed_ok hs
  obtain ⟨T, h1, h2⟩ := loop_replaced hok h0 ht
  refine ⟨T, ?_, h2⟩
  rw [callOutput, hf]
  simp only [bind, Except.bind, transformRet, outputTr_eq]
  rw [outputLoop_eq, h1]; · rfl
  intro it hit
  have hk := (mem_items hok).mp ((sorted_perm hok).mem_iff.mp hit)
  obtain ⟨a, v, ha, -⟩ := ht _ _ _ hk
  have := (List.getElem?_eq_some_iff.mp ha).1
  have := h0 _ (target_mem hk)
  omega

/-- **C49, too few values.** A tuple without one of the named values is an exception: `ValueError` if those that are there can be
transformed and the wrapped function has a name (as a `def` or `lambda` has), `AttributeError` if it is, for example, another wrapper. -/
theorem C49_too_few {s : Wrapper} (hs : Spec.Constructed s) (h0 : ∀ k ∈ s.nums, 0 ≤ k) {f : Fn X} {args rets : List (Arg X)} {kw : Kwargs X}
    (hf : f.call args kw = .ok (.tuple rets)) (hm : ∃ k ∈ s.nums, (rets.length : ℤ) ≤ k) :
    (∃ e, callOutput s f args kw = .error e) ∧
    ((∀ k p fr a, Spec.Targets s k p fr → rets[k.toNat]? = some a → ∃ v, Spec.outputTr s p fr a = .ok v) →
      if f.named then ∃ msg, callOutput s f args kw = .error (.valueError msg) else callOutput s f args kw = .error .attributeError) := by
  have hok := constructed_ok hs
  obtain ⟨k, hk, hlt⟩ := hm
  obtain ⟨p, fr, hkt⟩ := exists_target hok hk
  have hmem := (sorted_perm hok).mem_iff.mpr ((mem_items hok).mpr hkt)
  simp only [callOutput, hf, bind, Except.bind, transformRet, outputTr_eq]
  constructor
  · cases hR : outputLoop f.named (Spec.outputTr s) rets s.sorted 0 [] with
    | error e => exact ⟨e, rfl⟩
    | ok R =>
      have := outputLoop_imp _ _ _ _ _ hR _ hmem
      simp only at this; omega
  · intro ht
    rw [outputLoop_missing f.named _ _ _ (fun it hit => ?_) ⟨_, hmem, hlt⟩]
    · cases f.named
      · simp [nameErr]
      · simp [nameErr]
    · have := (mem_items hok).mp ((sorted_perm hok).mem_iff.mp hit)
      exact ⟨h0 _ (target_mem this), fun a ha => ht _ _ _ _ this ha⟩

/-- **C49, a single value.** A value that is not a tuple is transformed by the only pattern if the positions are `[0]`, and is an
exception otherwise: `ValueError` from a named function. -/
theorem C49_single {s : Wrapper} (hs : Spec.Constructed s) {f : Fn X} {args : List (Arg X)} {kw : Kwargs X} {a : Arg X} (hf : f.call args kw = .ok (.single a)) :
    (s.nums = [0] → ∃ p fr, Spec.Targets s 0 p fr ∧ callOutput s f args kw = (Spec.outputTr s p fr a).map .single) ∧
    (s.nums ≠ [0] → (∃ e, callOutput s f args kw = .error e) ∧ (f.named = true → ∃ msg, callOutput s f args kw = .error (.valueError msg))) := by
  have hok := constructed_ok hs
  simp only [callOutput, hf, bind, Except.bind, transformRet, outputTr_eq]
  constructor
  · intro hn
    obtain ⟨p, fr, hk⟩ := exists_target hok (k := 0) (by simp [hn])
    refine ⟨p, fr, hk, ?_⟩
    obtain ⟨i, h1, h2, h3⟩ := hk
    obtain rfl : i = 0 := by
      rw [hn] at h1
      have := (List.getElem?_eq_some_iff.mp h1).1
      simpa using this
    simp only [hn, h2, h3, ne_eq, not_true, if_false]
    cases Spec.outputTr s p fr a <;> rfl
  · intro hn
    match e : s.nums with
    | [] => exact ⟨⟨_, rfl⟩, fun h => ⟨_, by rw [h]; rfl⟩⟩
    | [k] =>
      have : k ≠ 0 := fun h => hn (by rw [e, h])
      simp only [ne_eq, this, not_false_eq_true, if_true]
      exact ⟨⟨_, rfl⟩, fun h => ⟨_, by rw [h]; rfl⟩⟩
    | _ :: _ :: _ => simp

/-- **C49, exceptions.** An exception of the wrapped function is the outcome. -/
theorem C49_raises (s : Wrapper) {f : Fn X} {args : List (Arg X)} {kw : Kwargs X} {e : Err} (hf : f.call args kw = .error e) :
    callOutput s f args kw = .error e := by
  rw [callOutput, hf]; rfl

/-- Non-vacuity of C49: a function that returns three values, two of which are named. -/
example (x : X) : ∃ (f : Fn X) (args rets : List (Arg X)) (kw : Kwargs X), f.call args kw = .ok (.tuple rets) ∧ rets.length = 3 ∧ rets[1]? = some (.other x) ∧
    Spec.Constructed (exWrapper false) ∧ ∀ k p fr, Spec.Targets (exWrapper false) k p fr →
      ∃ a v, rets[k.toNat]? = some a ∧ Spec.outputTr (exWrapper false) p fr a = .ok v := by
  obtain ⟨u, w, ⟨y, hy, _⟩, ⟨z, hz, _⟩⟩ := exWrapper_values
  refine ⟨⟨fun l _ => .ok (.tuple l), true⟩, _, [.val u, .other x, .val w], [("scale", .other x)], rfl, rfl, rfl, exWrapper_constructed false, fun k p fr h => ?_⟩
  rw [exWrapper_targets] at h
  rcases h with ⟨rfl, rfl, rfl⟩ | ⟨rfl, rfl, rfl⟩
  · exact ⟨.val w, .val (.arr z), rfl, by simp [Spec.outputTr, exWrapper, flattenArg, hz, bind, Except.bind, pure, Except.pure]⟩
  · exact ⟨.val u, .val (.arr y), rfl, by simp [Spec.outputTr, exWrapper, flattenArg, hy, bind, Except.bind, pure, Except.pure]⟩

/-! ### C50 -/

/-- **C50, inputs.** A function of folded values that has been wrapped to take flat ones and then again to take folded ones is the
original function on arguments that survive the round trip. -/
theorem C50_fold_flatten_input {P : NDArray Pattern} {F : NDArray (Option Bool)} {A : Option (NDArray ℤ)} (hP : P.WF) (hF : F.WF)
    (hA : ∀ a, A = some a → a.WF) (hg : Spec.GoodArguments P F A) (f : Fn X) : ∃ g h, flattenFunctionInput f P F A = .ok g ∧
    foldFunctionInput g P F A = .ok h ∧ ∀ (args : List (Arg X)) (kw : Kwargs X),
      (∀ k p fr, Spec.Named P F A k p fr → ∃ v, 0 ≤ k ∧ args[k.toNat]? = some (.val v) ∧ Spec.RoundTrips p fr v) →
      h.call args kw = f.call args kw := by
  obtain ⟨s, s1, s2, s3, s4⟩ := (C46_construct false hP hF hA).1 hg
  obtain ⟨t, t1, t2, t3, t4⟩ := (C46_construct true hP hF hA).1 hg
  refine ⟨wrapInput s f, wrapInput t (wrapInput s f), by rw [flattenFunctionInput, s1]; rfl, by rw [foldFunctionInput, t1]; rfl, ?_⟩
  intro args kw ha
  have hs := constructed_ok s2
  have ht := constructed_ok t2
  have n0 : ∀ {w : Wrapper}, w.Ok → (∀ k p fr, Spec.Targets w k p fr ↔ Spec.Named P F A k p fr) → ∀ k ∈ w.nums, 0 ≤ k := by
    intro w hw h4 k hk
    obtain ⟨p, fr, h⟩ := exists_target hw hk
    obtain ⟨v, h0, _⟩ := ha k p fr ((h4 _ _ _).mp h)
    exact h0
  refine inverse_call (tr := flattenArg) (tr' := foldArg) ht hs (by rw [Spec.inputTr, t3]; rfl) (by rw [Spec.inputTr, s3]; rfl) (n0 ht t4) (n0 hs s4)
    (fun k p fr => (t4 k p fr).trans (s4 k p fr).symm) (fun k p fr hk => ?_) f kw
  obtain ⟨v, h0, h1, x, h2, h3⟩ := ha k p fr ((t4 _ _ _).mp hk)
  exact ⟨.val v, .val (.arr x), h1, by simp [flattenArg, h2, bind, Except.bind, pure, Except.pure],
    by simp [foldArg, h3, bind, Except.bind, pure, Except.pure]⟩

/-- **C50, inputs, the other way round.** -/
theorem C50_flatten_fold_input {P : NDArray Pattern} {F : NDArray (Option Bool)} {A : Option (NDArray ℤ)} (hP : P.WF) (hF : F.WF)
    (hA : ∀ a, A = some a → a.WF) (hg : Spec.GoodArguments P F A) (f : Fn X) : ∃ g h, foldFunctionInput f P F A = .ok g ∧
    flattenFunctionInput g P F A = .ok h ∧ ∀ (args : List (Arg X)) (kw : Kwargs X),
      (∀ k p fr, Spec.Named P F A k p fr → ∃ x, 0 ≤ k ∧ args[k.toNat]? = some (.val (.arr x)) ∧ Spec.RoundTripsFlat p fr x) →
      h.call args kw = f.call args kw := by
  obtain ⟨s, s1, s2, s3, s4⟩ := (C46_construct true hP hF hA).1 hg
  obtain ⟨t, t1, t2, t3, t4⟩ := (C46_construct false hP hF hA).1 hg
  refine ⟨wrapInput s f, wrapInput t (wrapInput s f), by rw [foldFunctionInput, s1]; rfl, by rw [flattenFunctionInput, t1]; rfl, ?_⟩
  intro args kw ha
  have hs := constructed_ok s2
  have ht := constructed_ok t2
  have n0 : ∀ {w : Wrapper}, w.Ok → (∀ k p fr, Spec.Targets w k p fr ↔ Spec.Named P F A k p fr) → ∀ k ∈ w.nums, 0 ≤ k := by
    intro w hw h4 k hk
    obtain ⟨p, fr, h⟩ := exists_target hw hk
    obtain ⟨v, h0, _⟩ := ha k p fr ((h4 _ _ _).mp h)
    exact h0
  refine inverse_call (tr := foldArg) (tr' := flattenArg) ht hs (by rw [Spec.inputTr, t3]; rfl) (by rw [Spec.inputTr, s3]; rfl) (n0 ht t4) (n0 hs s4)
    (fun k p fr => (t4 k p fr).trans (s4 k p fr).symm) (fun k p fr hk => ?_) f kw
  obtain ⟨x, h0, h1, v, h2, h3⟩ := ha k p fr ((t4 _ _ _).mp hk)
  exact ⟨.val (.arr x), .val v, h1, by simp [foldArg, h2, bind, Except.bind, pure, Except.pure],
    by simp [flattenArg, h3, bind, Except.bind, pure, Except.pure]⟩

/-- The values of a return that a wrapper at the given positions touches have the property `Q`. -/
def Spec.ReturnsOk (P : NDArray Pattern) (F : NDArray (Option Bool)) (A : Option (NDArray ℤ)) (Q : Pattern → Option Bool → Arg X → Prop) :
    Ret X → Prop
  | .single a => (∀ k p fr, Spec.Named P F A k p fr → k = 0 ∧ Q p fr a) ∧ ∃ p fr, Spec.Named P F A 0 p fr
  | .tuple rets => ∀ k p fr, Spec.Named P F A k p fr → ∃ a, 0 ≤ k ∧ rets[k.toNat]? = some a ∧ Q p fr a

/-- **C50, outputs.** Likewise for the returned values: wrapping the output to be flat and then again to be folded gives a function
with the same outcome, exceptions included, for all arguments on which the returned values survive the round trip. -/
theorem C50_fold_flatten_output {P : NDArray Pattern} {F : NDArray (Option Bool)} {A : Option (NDArray ℤ)} (hP : P.WF) (hF : F.WF)
    (hA : ∀ a, A = some a → a.WF) (hg : Spec.GoodArguments P F A) (f : Fn X) : ∃ g h, flattenFunctionOutput f P F A = .ok g ∧
    foldFunctionOutput g P F A = .ok h ∧ ∀ (args : List (Arg X)) (kw : Kwargs X),
      (∀ r, f.call args kw = .ok r → Spec.ReturnsOk P F A (fun p fr a => ∃ v, a = .val v ∧ Spec.RoundTrips p fr v) r) →
      h.call args kw = f.call args kw := by
  obtain ⟨s, s1, s2, s3, s4⟩ := (C46_construct false hP hF hA).1 hg
  obtain ⟨t, t1, t2, t3, t4⟩ := (C46_construct true hP hF hA).1 hg
  refine ⟨wrapOutput s f, wrapOutput t (wrapOutput s f), by rw [flattenFunctionOutput, s1]; rfl, by rw [foldFunctionOutput, t1]; rfl, ?_⟩
  intro args kw ha
  refine inverse_output (tr := flattenArg) (tr' := foldArg) (constructed_ok s2) (constructed_ok t2) (by rw [Spec.outputTr, s3]; rfl) (by rw [Spec.outputTr, t3]; rfl)
    (fun k p fr => (s4 k p fr).trans (t4 k p fr).symm) f args kw (fun r hr => ?_)
  have key : ∀ p fr (a : Arg X), (∃ v, a = .val v ∧ Spec.RoundTrips p fr v) →
      ∃ v, flattenArg p fr a = .ok v ∧ foldArg p fr v = .ok a := by
    rintro p fr a ⟨v, rfl, x, h2, h3⟩
    exact ⟨.val (.arr x), by simp [flattenArg, h2, bind, Except.bind, pure, Except.pure],
      by simp [foldArg, h3, bind, Except.bind, pure, Except.pure]⟩
  have := ha r hr
  cases r with
  | single a =>
    obtain ⟨h1, p, fr, h2⟩ := this
    exact ⟨fun k p fr hk => (h1 k p fr ((s4 _ _ _).mp hk)).imp_right (key p fr a), p, fr, (s4 _ _ _).mpr h2⟩
  | tuple rets =>
    intro k p fr hk
    obtain ⟨a, h0, h1, h2⟩ := this k p fr ((s4 _ _ _).mp hk)
    exact ⟨a, h0, h1, key p fr a h2⟩

/-- **C50, outputs, the other way round.** -/
theorem C50_flatten_fold_output {P : NDArray Pattern} {F : NDArray (Option Bool)} {A : Option (NDArray ℤ)} (hP : P.WF) (hF : F.WF)
    (hA : ∀ a, A = some a → a.WF) (hg : Spec.GoodArguments P F A) (f : Fn X) : ∃ g h, foldFunctionOutput f P F A = .ok g ∧
    flattenFunctionOutput g P F A = .ok h ∧ ∀ (args : List (Arg X)) (kw : Kwargs X),
      (∀ r, f.call args kw = .ok r → Spec.ReturnsOk P F A (fun p fr a => ∃ x, a = .val (.arr x) ∧ Spec.RoundTripsFlat p fr x) r) →
      h.call args kw = f.call args kw := by
  obtain ⟨s, s1, s2, s3, s4⟩ := (C46_construct true hP hF hA).1 hg
  obtain ⟨t, t1, t2, t3, t4⟩ := (C46_construct false hP hF hA).1 hg
  refine ⟨wrapOutput s f, wrapOutput t (wrapOutput s f), by rw [foldFunctionOutput, s1]; rfl, by rw [flattenFunctionOutput, t1]; rfl, ?_⟩
  intro args kw ha
  refine inverse_output (tr := foldArg) (tr' := flattenArg) (constructed_ok s2) (constructed_ok t2) (by rw [Spec.outputTr, s3]; rfl) (by rw [Spec.outputTr, t3]; rfl)
    (fun k p fr => (s4 k p fr).trans (t4 k p fr).symm) f args kw (fun r hr => ?_)
  have key : ∀ p fr (a : Arg X), (∃ x, a = .val (.arr x) ∧ Spec.RoundTripsFlat p fr x) →
      ∃ v, foldArg p fr a = .ok v ∧ flattenArg p fr v = .ok a := by
    rintro p fr a ⟨x, rfl, v, h2, h3⟩
    exact ⟨.val v, by simp [foldArg, h2, bind, Except.bind, pure, Except.pure],
      by simp [flattenArg, h3, bind, Except.bind, pure, Except.pure]⟩
  have := ha r hr
  cases r with
  | single a =>
    obtain ⟨h1, p, fr, h2⟩ := this
    exact ⟨fun k p fr hk => (h1 k p fr ((s4 _ _ _).mp hk)).imp_right (key p fr a), p, fr, (s4 _ _ _).mpr h2⟩
  | tuple rets =>
    intro k p fr hk
    obtain ⟨a, h0, h1, h2⟩ := this k p fr ((s4 _ _ _).mp hk)
    exact ⟨a, h0, h1, key p fr a h2⟩

/-- **C50, which values.** What survives the round trip: non-free, every value that flattens and is written as the pattern does it, and
every vector that folds; free, every interior value and every vector of finite numbers of the right length. -/
theorem C50_admissible {p : Pattern} (hp : Built p) :
    (∀ v x, v.WF → p.flatten v (some false) none = .ok x → Spec.canon p v = v → Spec.RoundTrips p (some false) v) ∧
    (p.NoEmpty → ∀ l v, p.fold (vec l) (some false) none = .ok v → Spec.RoundTripsFlat p (some false) (vec l)) ∧
    (p.NoEmpty → p.FiniteLb → (∀ v, Spec.Interior p v → Spec.canon p v = v → Spec.RoundTrips p (some true) v) ∧
      ∀ r : List ℝ, p.flatLength (some true) = .ok r.length → Spec.RoundTripsFlat p (some true) (vec (r.map .fin))) := by
  refine ⟨fun v x hv h hc => ⟨x, h, ?_⟩, fun hne l v h => ⟨v, h, C05_nonfree_vector hp hne h⟩, fun hne hf => ⟨fun v hv hc => ?_, fun r hr => ?_⟩⟩
  · rw [C04_nonfree_value hp hv h, hc]
  · obtain ⟨r, -, h⟩ := C11_free_value hp hf hne hv
    obtain ⟨h1, h2⟩ := h none none
    exact ⟨_, h1, by rw [h2, hc]⟩
  · exact C10_free_vector hp hf hne hr none none

/-- **C50, both.** The combined wrappers, if both constructions succeed, do the output transformation on the result of the call with the
transformed input. -/
theorem C50_both (ip op : NDArray Pattern) (ifr ofr : NDArray (Option Bool)) (ia ora : Option (NDArray ℤ)) (f h : Fn X) :
    (foldFunctionInputAndOutput f ip ifr ia op ofr ora = .ok h ↔ ∃ s t, construct op ofr true ora = .ok s ∧ construct ip ifr true ia = .ok t ∧
      h.named = false ∧ ∀ args kw, h.call args kw = newArgs t args >>= fun new => f.call new kw >>= fun r => transformRet s f.named r) ∧
    (flattenFunctionInputAndOutput f ip ifr ia op ofr ora = .ok h ↔ ∃ s t, construct op ofr false ora = .ok s ∧ construct ip ifr false ia = .ok t ∧
      h.named = false ∧ ∀ args kw, h.call args kw = newArgs t args >>= fun new => f.call new kw >>= fun r => transformRet s f.named r) := by
  obtain ⟨hc, hn⟩ := h
  constructor
  · simp only [foldFunctionInputAndOutput, foldFunctionOutput, foldFunctionInput, bind, Except.bind, pure, Except.pure]
    cases construct op ofr true ora with
    | error e => simp
    | ok s =>
      cases construct ip ifr true ia with
      | error e => simp
      | ok t =>
        simp only [Except.ok.injEq, Fn.mk.injEq, exists_and_left, exists_eq_left']
        exact ⟨fun ⟨e1, e2⟩ => ⟨e2.symm, fun args kw => by rw [← e1]; rfl⟩, fun ⟨e1, e2⟩ => ⟨funext fun args => funext fun kw => by rw [e2]; rfl, e1.symm⟩⟩
  · simp only [flattenFunctionInputAndOutput, flattenFunctionOutput, flattenFunctionInput, bind, Except.bind, pure, Except.pure]
    cases construct op ofr false ora with
    | error e => simp
    | ok s =>
      cases construct ip ifr false ia with
      | error e => simp
      | ok t =>
        simp only [Except.ok.injEq, Fn.mk.injEq, exists_and_left, exists_eq_left']
        exact ⟨fun ⟨e1, e2⟩ => ⟨e2.symm, fun args kw => by rw [← e1]; rfl⟩, fun ⟨e1, e2⟩ => ⟨funext fun args => funext fun kw => by rw [e2]; rfl, e1.symm⟩⟩

/-- **C50, both, inverse.** Flattening inputs and outputs and then folding both again gives the original function on arguments that
survive the round trip and on which the returned values do. -/
theorem C50_both_inverse {ip op : NDArray Pattern} {ifr ofr : NDArray (Option Bool)} {ia ora : Option (NDArray ℤ)} (hP : ip.WF) (hF : ifr.WF)
    (hA : ∀ a, ia = some a → a.WF) (hP' : op.WF) (hF' : ofr.WF) (hA' : ∀ a, ora = some a → a.WF) (hg : Spec.GoodArguments ip ifr ia)
    (hg' : Spec.GoodArguments op ofr ora) (f : Fn X) : ∃ g h, flattenFunctionInputAndOutput f ip ifr ia op ofr ora = .ok g ∧
    foldFunctionInputAndOutput g ip ifr ia op ofr ora = .ok h ∧ ∀ (args : List (Arg X)) (kw : Kwargs X),
      (∀ k p fr, Spec.Named ip ifr ia k p fr → ∃ v, 0 ≤ k ∧ args[k.toNat]? = some (.val v) ∧ Spec.RoundTrips p fr v) →
      (∀ r, f.call args kw = .ok r → Spec.ReturnsOk op ofr ora (fun p fr a => ∃ v, a = .val v ∧ Spec.RoundTrips p fr v) r) →
      h.call args kw = f.call args kw := by
  obtain ⟨s, s1, s2, s3, s4⟩ := (C46_construct false hP hF hA).1 hg
  obtain ⟨t, t1, t2, t3, t4⟩ := (C46_construct true hP hF hA).1 hg
  obtain ⟨g', h', e1, e2, e3⟩ := C50_fold_flatten_output hP' hF' hA' hg' f
  obtain ⟨w, w1, -⟩ := (C46_construct false hP' hF' hA').1 hg'
  obtain ⟨w', w1', -⟩ := (C46_construct true hP' hF' hA').1 hg'
  have e1' : g' = wrapOutput w f := by
    rw [flattenFunctionOutput, w1] at e1; exact (Except.ok.inj e1).symm
  have e2' : h' = wrapOutput w' g' := by
    rw [foldFunctionOutput, w1'] at e2; exact (Except.ok.inj e2).symm
  refine ⟨wrapInput s (wrapOutput w f), wrapInput t (wrapOutput w' (wrapInput s (wrapOutput w f))), ?_, ?_, fun args kw ha hr => ?_⟩
  · simp only [flattenFunctionInputAndOutput, flattenFunctionInput, flattenFunctionOutput, w1, s1]; rfl
  · simp only [foldFunctionInputAndOutput, foldFunctionInput, foldFunctionOutput, w1', t1]; rfl
  · rw [← e3 args kw hr, e2', e1']
    have hs := constructed_ok s2
    have ht := constructed_ok t2
    have n0 : ∀ {w : Wrapper}, w.Ok → (∀ k p fr, Spec.Targets w k p fr ↔ Spec.Named ip ifr ia k p fr) → ∀ k ∈ w.nums, 0 ≤ k := by
      intro w hw h4 k hk
      obtain ⟨p, fr, h⟩ := exists_target hw hk
      obtain ⟨v, h0, _⟩ := ha k p fr ((h4 _ _ _).mp h)
      exact h0
    refine inverse_both (tr := flattenArg) (tr' := foldArg) ht hs (by rw [Spec.inputTr, t3]; rfl) (by rw [Spec.inputTr, s3]; rfl) (n0 ht t4)
      (n0 hs s4) (fun k p fr => (t4 k p fr).trans (s4 k p fr).symm) (fun k p fr hk => ?_) f w' w kw
    obtain ⟨v, h0, h1, x, h2, h3⟩ := ha k p fr ((t4 _ _ _).mp hk)
    exact ⟨.val v, .val (.arr x), h1, by simp [flattenArg, h2, bind, Except.bind, pure, Except.pure],
      by simp [foldArg, h3, bind, Except.bind, pure, Except.pure]⟩

/-- **C50, both, the other way round.** Wrapping inputs and outputs to be folded and then again to be flat gives a function with the same
outcome, exceptions included, for all flat arguments and returned vectors that survive the round trip. -/
theorem C50_both_inverse_flat {ip op : NDArray Pattern} {ifr ofr : NDArray (Option Bool)} {ia ora : Option (NDArray ℤ)} (hP : ip.WF)
    (hF : ifr.WF) (hA : ∀ a, ia = some a → a.WF) (hP' : op.WF) (hF' : ofr.WF) (hA' : ∀ a, ora = some a → a.WF)
    (hg : Spec.GoodArguments ip ifr ia) (hg' : Spec.GoodArguments op ofr ora) (f : Fn X) : ∃ g h,
    foldFunctionInputAndOutput f ip ifr ia op ofr ora = .ok g ∧
    flattenFunctionInputAndOutput g ip ifr ia op ofr ora = .ok h ∧ ∀ (args : List (Arg X)) (kw : Kwargs X),
      (∀ k p fr, Spec.Named ip ifr ia k p fr → ∃ x, 0 ≤ k ∧ args[k.toNat]? = some (.val (.arr x)) ∧ Spec.RoundTripsFlat p fr x) →
      (∀ r, f.call args kw = .ok r → Spec.ReturnsOk op ofr ora (fun p fr a => ∃ x, a = .val (.arr x) ∧ Spec.RoundTripsFlat p fr x) r) →
      h.call args kw = f.call args kw := by
  obtain ⟨s, s1, s2, s3, s4⟩ := (C46_construct true hP hF hA).1 hg
  obtain ⟨t, t1, t2, t3, t4⟩ := (C46_construct false hP hF hA).1 hg
  obtain ⟨g', h', e1, e2, e3⟩ := C50_flatten_fold_output hP' hF' hA' hg' f
  obtain ⟨w, w1, -⟩ := (C46_construct true hP' hF' hA').1 hg'
  obtain ⟨w', w1', -⟩ := (C46_construct false hP' hF' hA').1 hg'
  have e1' : g' = wrapOutput w f := by
    rw [foldFunctionOutput, w1] at e1; exact (Except.ok.inj e1).symm
  have e2' : h' = wrapOutput w' g' := by
    rw [flattenFunctionOutput, w1'] at e2; exact (Except.ok.inj e2).symm
  refine ⟨wrapInput s (wrapOutput w f), wrapInput t (wrapOutput w' (wrapInput s (wrapOutput w f))), ?_, ?_, fun args kw ha hr => ?_⟩
  · simp only [foldFunctionInputAndOutput, foldFunctionInput, foldFunctionOutput, w1, s1]; rfl
  · simp only [flattenFunctionInputAndOutput, flattenFunctionInput, flattenFunctionOutput, w1', t1]; rfl
  · rw [← e3 args kw hr, e2', e1']
    have hs := constructed_ok s2
    have ht := constructed_ok t2
    have n0 : ∀ {w : Wrapper}, w.Ok → (∀ k p fr, Spec.Targets w k p fr ↔ Spec.Named ip ifr ia k p fr) → ∀ k ∈ w.nums, 0 ≤ k := by
      intro w hw h4 k hk
      obtain ⟨p, fr, h⟩ := exists_target hw hk
      obtain ⟨v, h0, _⟩ := ha k p fr ((h4 _ _ _).mp h)
      exact h0
    refine inverse_both (tr := foldArg) (tr' := flattenArg) ht hs (by rw [Spec.inputTr, t3]; rfl) (by rw [Spec.inputTr, s3]; rfl) (n0 ht t4)
      (n0 hs s4) (fun k p fr => (t4 k p fr).trans (s4 k p fr).symm) (fun k p fr hk => ?_) f w' w kw
    obtain ⟨x, h0, h1, v, h2, h3⟩ := ha k p fr ((t4 _ _ _).mp hk)
    exact ⟨.val (.arr x), .val v, h1, by simp [foldArg, h2, bind, Except.bind, pure, Except.pure],
      by simp [flattenArg, h3, bind, Except.bind, pure, Except.pure]⟩

/-- Non-vacuity of C50: three arguments, of which the first and last are named and survive. -/
example (x : X) : ∃ args : List (Arg X), args.length = 3 ∧
    ∀ k p fr, Spec.Named (vec [exScalar, exPat]) ⟨[], [some true]⟩ (some (vec [2, 0])) k p fr →
      ∃ v, 0 ≤ k ∧ args[k.toNat]? = some (.val v) ∧ Spec.RoundTrips p fr v := by
  obtain ⟨u, w, hu, hw⟩ := exWrapper_values
  refine ⟨[.val u, .other x, .val w], rfl, ?_⟩
  rintro k p fr ⟨i, h1, h2, h3⟩
  match i with
  | 0 =>
    simp [vec] at h1 h2 h3
    subst h1 h2 h3
    exact ⟨w, by decide, rfl, hw⟩
  | 1 =>
    simp [vec] at h1 h2 h3
    subst h1 h2 h3
    exact ⟨u, by decide, rfl, hu⟩
  | _ + 2 => simp [vec] at h1

end Paragami
