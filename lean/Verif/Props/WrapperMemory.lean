import Verif.Proofs.WrapperMemory
import Verif.Props.Memory

/-!
# C116: which arrays function wrappers pass on
-/

set_option linter.unusedSimpArgs false

namespace Paragami
open Memory Spec FunctionPatterns

variable {X : Type}

/-- All patterns of a wrapper can be built. -/
def BuiltTargets (s : Wrapper) : Prop := ∀ k p fr, Targets s k p fr → Pattern.Built p

theorem sorted_targets {s : Wrapper} (hs : Constructed s) {k : ℤ} {p : Pattern} {fr : Option Bool} :
    (k, p, fr) ∈ s.sorted ↔ Targets s k p fr := by
  rw [(sorted_perm (constructed_ok hs)).mem_iff, mem_items (constructed_ok hs)]

theorem input_ref {s : Wrapper} (hs : Constructed s) (hb : BuiltTargets s) {args : List (MArg X)} {m : Mem}
    (ha : Allocated m (cells args)) :
    Ref (Memory.inputLoop (if s.originalIsFlat then Memory.flattenArg else Memory.foldArg) args s.sorted 0 [])
      (newArgs s (args.map (argRead m))) m (LoopR (!s.originalIsFlat) args s.sorted 0 [] m) := by
  have hg : ∀ it ∈ s.sorted, it.2.1.WF := fun it hit => (hb it.1 it.2.1 it.2.2 ((sorted_targets hs).mp hit)).wf
  have hnil : Allocated m (cells ([] : List (MArg X))) := by simp [cells, Allocated]
  rw [newArgs]
  cases s.originalIsFlat with
  | true => exact inputLoop_ref (Good := Pattern.WF) (fun p fr a m _ h => flattenArg_ref h) s.sorted hg 0 [] m ha hnil
  | false => exact inputLoop_ref (Good := Pattern.WF) (fun p fr a m hp h => foldArg_ref hp h) s.sorted hg 0 [] m ha hnil

theorem output_ref {s : Wrapper} (hs : Constructed s) (hb : BuiltTargets s) {args : List (MArg X)} {m : Mem}
    (ha : Allocated m (cells args)) (named : Bool) :
    Ref (Memory.outputLoop named (if s.originalIsFlat then Memory.foldArg else Memory.flattenArg) args s.sorted 0 [])
      (FunctionPatterns.outputLoop named (if s.originalIsFlat then FunctionPatterns.foldArg else FunctionPatterns.flattenArg)
        (args.map (argRead m)) s.sorted 0 []) m (LoopR s.originalIsFlat args s.sorted 0 [] m) := by
  have hg : ∀ it ∈ s.sorted, it.2.1.WF := fun it hit => (hb it.1 it.2.1 it.2.2 ((sorted_targets hs).mp hit)).wf
  have hnil : Allocated m (cells ([] : List (MArg X))) := by simp [cells, Allocated]
  cases s.originalIsFlat with
  | true => exact outputLoop_ref (Good := Pattern.WF) (fun p fr a m hp h => foldArg_ref hp h) named s.sorted hg 0 [] m ha hnil
  | false => exact outputLoop_ref (Good := Pattern.WF) (fun p fr a m _ h => flattenArg_ref h) named s.sorted hg 0 [] m ha hnil

theorem loop_exposed {s : Wrapper} (hs : Constructed s) (h0 : ∀ k ∈ s.nums, 0 ≤ k) {folding : Bool} {args new : List (MArg X)}
    {m m' : Mem} {g : List (Arg X)} (h : LoopR folding args s.sorted 0 [] m new m' g) {c : Addr} (hc : c < m.length) :
    c ∈ cells new ↔ Exposed folding s args c := by
  rw [h.2.2 le_rfl (sorted_sorted (constructed_ok hs))
    (fun it hit => h0 _ (target_mem ((sorted_targets hs (k := it.1) (p := it.2.1) (fr := it.2.2)).mp hit))) c hc]
  have e : c ∉ cells ([] : List (MArg X)) := by simp [cells]
  simp only [e, false_or, Exposed]
  refine or_congr ?_ ?_
  · refine exists_congr fun j => exists_congr fun b => and_congr_right fun hj => ?_
    rw [← and_assoc]
    refine and_congr_left fun _ => ?_
    constructor
    · rintro ⟨-, h1⟩ hm
      obtain ⟨p, fr, ht⟩ := exists_target (constructed_ok hs) hm
      exact h1 (j, p, fr) ((sorted_targets hs).mpr ht) rfl
    · intro h1
      refine ⟨by omega, fun it hit hj => h1 ?_⟩
      rw [← hj]
      exact target_mem ((sorted_targets hs (k := it.1) (p := it.2.1) (fr := it.2.2)).mp hit)
  · constructor
    · rintro ⟨it, hit, b, hb, hf, x, i, rfl, h1, h2, h3⟩
      exact ⟨hf, it.1, it.2.1, it.2.2, x, i, (sorted_targets hs).mp hit, hb, h1, h2, h3⟩
    · rintro ⟨hf, k, p, fr, x, i, ht, hb, h1, h2, h3⟩
      exact ⟨(k, p, fr), (sorted_targets hs).mpr ht, _, hb, hf, x, i, rfl, h1, h2, h3⟩

theorem kwRead_prefix {m m' : Mem} (h : m <+: m') {kw : MKwargs X} (ha : Allocated m (kwCells kw)) :
    (kw.map fun e => (e.1, argRead m' e.2)) = kw.map fun e => (e.1, argRead m e.2) := by
  refine List.map_congr_left fun e he => ?_
  rw [argRead_prefix h fun c hc => ha c (List.mem_flatMap.mpr ⟨e, he, hc⟩)]

/-- **C116, values.**  Wrapping a function that does not write to its arguments gives such a function, and it computes what the
value-level model of the wrapper says: with arrays as objects an input wrapper still transforms exactly the named arguments, raises in
the same cases, and changes no array of the caller. -/
theorem C116_computes_input {s : Wrapper} (hs : Constructed s) (hb : BuiltTargets s) {f : MFn X} {g : Fn X} (hf : Computes f g) :
    Computes ⟨Memory.callInput s f, false⟩ (wrapInput s g) := by
  refine ⟨rfl, fun args kw m ha hk => ?_⟩
  have hr := input_ref hs hb ha
  unfold Ref at hr
  simp only [Memory.callInput, wrapInput, FunctionPatterns.callInput, andThen]
  cases hl : Memory.inputLoop (if s.originalIsFlat then Memory.flattenArg else Memory.foldArg) args s.sorted 0 [] m with
  | error e => simp only [hl] at hr ⊢; rw [hr]; rfl
  | ok nm =>
    obtain ⟨new, m1⟩ := nm
    simp only [hl] at hr ⊢
    obtain ⟨hm, g', hg', rfl, hn, -⟩ := hr
    rw [hg']
    have h2 := hf.2 new kw m1 hn (Allocated.mono hm hk)
    rw [kwRead_prefix hm hk] at h2
    cases hc : f.call new kw m1 with
    | error e => rw [hc] at h2; exact h2
    | ok rm =>
      obtain ⟨r, m2⟩ := rm
      rw [hc] at h2
      exact ⟨hm.trans h2.1, h2.2.1, h2.2.2⟩

theorem transform_ref {s : Wrapper} (hs : Constructed s) (hb : BuiltTargets s) {r : MRet X} {m : Mem} (ha : Allocated m (cells (retList r)))
    (named : Bool) :
    Ref (Memory.transformRet s named r) (FunctionPatterns.transformRet s named (retRead m r)) m
      (fun r' m' g => g = retRead m' r' ∧ Allocated m' (cells (retList r')) ∧
        ((∀ k ∈ s.nums, 0 ≤ k) → ∀ c < m.length, c ∈ cells (retList r') ↔ Exposed s.originalIsFlat s (retList r) c)) := by
  cases r with
  | tuple l =>
    simp only [Memory.transformRet, retRead, FunctionPatterns.transformRet]
    refine Ref.bind (output_ref hs hb ha named) ?_
    rintro new m1 g hm h
    exact Ref.ret ⟨by rw [h.1], h.2.1, fun h0 c hc => loop_exposed hs h0 h hc⟩
  | single a =>
    have haa : Allocated m (argCells a) := by simpa [retList, cells] using ha
    simp only [Memory.transformRet, retRead, FunctionPatterns.transformRet]
    rcases hk : s.nums with _ | ⟨k, _ | ⟨k', t⟩⟩
    · exact Ref.error
    · by_cases h0 : k = 0
      · subst h0
        simp only [ne_eq, not_true_eq_false, if_false]
        rcases hp : s.patterns[0]? with _ | p
        · exact Ref.error
        · rcases hfr : s.free[0]? with _ | fr
          · exact Ref.error
          · have ht : Targets s 0 p fr := ⟨0, by rw [hk]; rfl, hp, hfr⟩
            have hw := (hb 0 p fr ht).wf
            have key : Ref ((if s.originalIsFlat then Memory.foldArg else Memory.flattenArg) p fr a)
                ((if s.originalIsFlat then FunctionPatterns.foldArg else FunctionPatterns.flattenArg) p fr (argRead m a)) m
                (ArgR s.originalIsFlat p fr a m) := by
              cases s.originalIsFlat with
              | true => exact foldArg_ref hw haa
              | false => exact flattenArg_ref haa
            refine Ref.bind key ?_
            rintro v m1 g hm h
            refine Ref.ret ⟨by rw [h.1], by simpa [retList, cells] using h.2.1, fun _ c hc => ?_⟩
            simp only [retList, cells_single]
            rw [h.2.2 c hc, Out, Exposed]
            constructor
            · rintro ⟨hf, x, i, rfl, h1, h2, h3⟩
              exact .inr ⟨hf, 0, p, fr, x, i, ht, rfl, h1, h2, h3⟩
            · rintro (⟨j, b, hj, hn, -⟩ | ⟨hf, k, p', fr', x, i, ht', hx, h1, h2, h3⟩)
              · exfalso
                cases j with
                | zero => exact hn (by rw [hk]; simp)
                | succ j => simp at hj
              · have hk0 : k = 0 := by
                  have := target_mem ht'
                  rw [hk] at this; simpa using this
                subst hk0
                obtain ⟨rfl, rfl⟩ := target_unique (constructed_ok hs) ht ht'
                simp only [Int.toNat_zero, List.getElem?_cons_zero, Option.some.injEq] at hx
                exact ⟨hf, x, i, hx, h1, h2, h3⟩
      · simp only [ne_eq, h0, not_false_eq_true, if_true]
        exact Ref.error
    · exact Ref.error

/-- **C116, values.**  The same for output wrappers. -/
theorem C116_computes_output {s : Wrapper} (hs : Constructed s) (hb : BuiltTargets s) {f : MFn X} {g : Fn X} (hf : Computes f g) :
    Computes ⟨Memory.callOutput s f, false⟩ (wrapOutput s g) := by
  refine ⟨rfl, fun args kw m ha hk => ?_⟩
  have h1 := hf.2 args kw m ha hk
  simp only [Memory.callOutput, wrapOutput, FunctionPatterns.callOutput, andThen]
  cases hc : f.call args kw m with
  | error e => simp only [hc] at h1 ⊢; rw [h1]; rfl
  | ok rm =>
    obtain ⟨r, m1⟩ := rm
    simp only [hc] at h1 ⊢
    rw [h1.2.2, ← hf.1]
    have h2 := transform_ref hs hb h1.2.1 f.named
    unfold Ref at h2
    cases ht : Memory.transformRet s f.named r m1 with
    | error e => simp only [ht] at h2 ⊢; exact h2
    | ok rm' =>
      obtain ⟨r', m2⟩ := rm'
      simp only [ht] at h2 ⊢
      obtain ⟨hm, g', hg', rfl, hn, -⟩ := h2
      exact ⟨h1.1.trans hm, hn, hg'⟩

/-- **C116, protection.**  A wrapped function that writes to its arguments cannot change any array of the caller, except those of
arguments the wrapper does not transform, those passed by keyword, and, when the wrapper folds non-free vectors, the entries of those
outside `PatternArray`s. -/
theorem C116_protects {s : Wrapper} (hs : Constructed s) (hb : BuiltTargets s) (h0 : ∀ k ∈ s.nums, 0 ≤ k) {f : MFn X}
    (hf : WritesArguments f) {args : List (MArg X)} {kw : MKwargs X} {m : Mem} (ha : Allocated m (cells args)) {r m'}
    (h : Memory.callInput s f args kw m = .ok (r, m')) {a : Addr} (hm : a < m.length)
    (hE : ¬ Exposed (!s.originalIsFlat) s args a) (hk : a ∉ kwCells kw) : rd m' a = rd m a := by
  have hr := input_ref hs hb ha
  unfold Ref at hr
  simp only [Memory.callInput, andThen] at h
  cases hl : Memory.inputLoop (if s.originalIsFlat then Memory.flattenArg else Memory.foldArg) args s.sorted 0 [] m with
  | error e => rw [hl] at h; cases h
  | ok nm =>
    obtain ⟨new, m1⟩ := nm
    simp only [hl] at hr h
    obtain ⟨hp, g', -, hR⟩ := hr
    rw [hf new kw m1 r m' h a (lt_of_lt_of_le hm hp.length_le) (by rwa [loop_exposed hs h0 hR hm]) hk, rd_prefix hp hm]

theorem rd_write_all {m : Mem} {l : List Addr} {a : Addr} (y : Flt) (hm : a < m.length) (hl : a ∈ l) :
    rd (write m (l.map fun c => (c, y))) a = y := by
  induction l using List.reverseRecOn with
  | nil => cases hl
  | append_singleton l c ih =>
    have e : write m ((l ++ [c]).map fun c => (c, y)) = (write m (l.map fun c => (c, y))).set c y := by simp [write]
    rw [e]
    by_cases hc : c = a
    · subst hc
      have := rd_write_one (m := write m (l.map fun c => (c, y))) (a := c) (by rwa [write_length]) y
      simpa [write] using this
    · have h1 : a ∈ l := by
        rcases List.mem_append.mp hl with h | h
        · exact h
        · exact absurd (List.mem_singleton.mp h).symm hc
      refine Eq.trans ?_ (ih h1)
      have := rd_write_other (m := write m (l.map fun c => (c, y))) (ws := [(c, y)]) (a := a) (by simpa using hc)
      simpa [write] using this

/-- **C116, exactly these.**  Wrap the function that overwrites all its positional arguments with `y`.  It is called exactly when
transforming the arguments succeeds.  Afterwards every exposed cell of the caller holds `y`, and every other one what it held. -/
theorem C116_overwrites {s : Wrapper} (hs : Constructed s) (hb : BuiltTargets s) (h0 : ∀ k ∈ s.nums, 0 ≤ k) (x : X) (y : Flt)
    {args : List (MArg X)} (kw : MKwargs X) {m : Mem} (ha : Allocated m (cells args)) :
    ((∃ r m', Memory.callInput s (overwrite x y) args kw m = .ok (r, m')) ↔ ∃ new, newArgs s (args.map (argRead m)) = .ok new) ∧
    ∀ r m', Memory.callInput s (overwrite x y) args kw m = .ok (r, m') → ∀ a < m.length,
      (Exposed (!s.originalIsFlat) s args a → rd m' a = y) ∧ (¬ Exposed (!s.originalIsFlat) s args a → rd m' a = rd m a) := by
  have hr := input_ref hs hb ha
  unfold Ref at hr
  simp only [Memory.callInput, andThen]
  cases hl : Memory.inputLoop (if s.originalIsFlat then Memory.flattenArg else Memory.foldArg) args s.sorted 0 [] m with
  | error e =>
    simp only [hl] at hr ⊢
    refine ⟨?_, ?_⟩
    · rw [hr]; simp
    · intro r m' h; cases h
  | ok nm =>
    obtain ⟨new, m1⟩ := nm
    simp only [hl] at hr ⊢
    obtain ⟨hp, g', hg', hR⟩ := hr
    refine ⟨⟨fun _ => ⟨g', hg'⟩, fun _ => ⟨_, _, rfl⟩⟩, ?_⟩
    intro r m' h a hm
    simp only [overwrite, Except.ok.injEq, Prod.mk.injEq] at h
    obtain ⟨-, rfl⟩ := h
    rw [← loop_exposed hs h0 hR hm]
    refine ⟨fun hc => rd_write_all y (lt_of_lt_of_le hm hp.length_le) hc, fun hc => ?_⟩
    rw [rd_write_other, rd_prefix hp hm]
    rintro w hw rfl
    obtain ⟨c, h1, rfl⟩ := List.mem_map.mp hw
    exact hc h1

/-- **C116, outputs.**  An output wrapper changes no array, and its result contains, of the arrays that existed when the wrapped
function returned, exactly those of the returned values that are not named and, when the wrapper folds non-free vectors, the entries
of those outside `PatternArray`s.  Everything else in the result is new. -/
theorem C116_output {s : Wrapper} (hs : Constructed s) (hb : BuiltTargets s) {f : MFn X} {args : List (MArg X)} {kw : MKwargs X} {m : Mem}
    {rets : MRet X} {m1 : Mem} (hf : f.call args kw m = .ok (rets, m1)) (ha : Allocated m1 (cells (retList rets))) :
    (∀ e, Memory.callOutput s f args kw m = .error e ↔ FunctionPatterns.transformRet s f.named (retRead m1 rets) = .error e) ∧
    ∀ r m', Memory.callOutput s f args kw m = .ok (r, m') → m1 <+: m' ∧
      FunctionPatterns.transformRet s f.named (retRead m1 rets) = .ok (retRead m' r) ∧
      ((∀ k ∈ s.nums, 0 ≤ k) → ∀ a < m1.length, a ∈ cells (retList r) ↔ Exposed s.originalIsFlat s (retList rets) a) := by
  have e : Memory.callOutput s f args kw m = Memory.transformRet s f.named rets m1 := by
    simp only [Memory.callOutput, andThen, hf]
  have ht := transform_ref hs hb ha f.named
  refine ⟨fun err => by rw [e]; exact ht.err, fun r m' h => ?_⟩
  rw [e] at h
  obtain ⟨hm, g, hg, rfl, -, hE⟩ := ht.ok h
  exact ⟨hm, hg, hE⟩

/-- A dictionary of a plain vector and a `PatternArray`, with `default_validate=False`. -/
def exPlain : Pattern :=
  .dict (.cons "a" (.numeric .vector [2] (.flt .ninf) (.flt .pinf) false none)
    (.cons "b" (.array [2] (.numeric .vector [1] (.flt .ninf) (.flt .pinf) false none) none) .nil)) true none

theorem exPlain_built : Pattern.Built exPlain := by
  refine Pattern.WF.built _ ?_
  simp [exPlain, Pattern.WF, Pattern.WFEs, Entries.keys, Entries.toList, Pattern.isDict, Pattern.lock, PyNum.toFlt,
    Flt.NotNaN, Flt.lt]

/-- `FlattenFunctionInput(f, exPlain, free=False, argnums=1)` (and, with `flat`, `FoldFunctionInput`). -/
def exPlainWrapper (flat : Bool) : Wrapper := ⟨[exPlain], [some false], [1], flat⟩

theorem exPlainWrapper_constructed (flat : Bool) : Constructed (exPlainWrapper flat) := by
  refine ⟨⟨[], [exPlain]⟩, ⟨[], [some false]⟩, flat, some ⟨[], [1]⟩, by simp [NDArray.WF], by simp [NDArray.WF], ?_, ?_⟩
  · rintro a h; cases h; simp [NDArray.WF]
  · rw [(construct_iff (P := ⟨[], [exPlain]⟩) (F := ⟨[], [some false]⟩) (A := some ⟨[], [1]⟩) (by simp [NDArray.WF])
      (by rintro a h; cases h; simp [NDArray.WF])).1 (by
        refine ⟨by simp [NDArray.ndim], .inl rfl, ?_⟩
        rintro a h; cases h; simp [NDArray.ndim])]
    rfl

theorem exPlainWrapper_targets (flat : Bool) (k : ℤ) (p : Pattern) (fr : Option Bool) :
    Targets (exPlainWrapper flat) k p fr ↔ k = 1 ∧ p = exPlain ∧ fr = some false := by
  constructor
  · rintro ⟨i, h1, h2, h3⟩
    match i with
    | 0 => simp [exPlainWrapper] at h1 h2 h3; exact ⟨h1.symm, h2.symm, h3.symm⟩
    | _ + 1 => simp [exPlainWrapper] at h1
  · rintro ⟨rfl, rfl, rfl⟩
    exact ⟨0, rfl, rfl, rfl⟩

/-- The C116 theorems are not vacuous: a function of two arguments, the second folded from the vector with cells `0, 1, 2, 3`.  If the
function overwrites its arguments with 9, the call succeeds, the caller's vector becomes `9, 9, 3, 4` (the last two entries are below a
`PatternArray`), the array passed as the first argument is overwritten too, and a vector that was not passed is not. -/
example : Constructed (exPlainWrapper false) ∧ BuiltTargets (exPlainWrapper false) ∧
    ∃ (r : MRet Unit) (m' : Mem), Memory.callInput (exPlainWrapper false) (overwrite () 9)
        [.val (.arr ⟨[1], [4]⟩), .val (.arr ⟨[4], [0, 1, 2, 3]⟩)] [] [1, 2, 3, 4, 5, 6] = .ok (r, m') ∧
      [0, 1, 2, 3, 4, 5].map (rd m') = [9, 9, 3, 4, 9, 6] := by
  refine ⟨exPlainWrapper_constructed _, ?_, ?_⟩
  · rintro k p fr h
    obtain ⟨-, rfl, -⟩ := (exPlainWrapper_targets _ _ _ _).mp h
    exact exPlain_built
  · have hs : (exPlainWrapper false).sorted = [(1, exPlain, some false)] := by
      simp [Wrapper.sorted, exPlainWrapper, argsort]
    simp only [Memory.callInput, hs]
    exact ⟨_, _, rfl, rfl⟩

end Paragami
