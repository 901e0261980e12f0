import Verif.Props.FunctionPatterns
import Verif.Props.Json
/-!
# C142: which pattern objects a wrapper holds does not matter

A wrapper only folds and flattens with its patterns, always with the `free` it was given.  So wrappers made of patterns that were
written to JSON and read back, or of patterns that compare equal, are the same functions.
-/
namespace Paragami
open Pattern NDArray FunctionPatterns
variable {X : Type}

namespace WrapperPatterns

/-- The same attributes but for the patterns, which behave the same; every `free` is given. -/
structure Alike (s t : Wrapper) : Prop where
  patterns : List.Forall₂ Spec.SameBehaviour s.patterns t.patterns
  free : s.free = t.free
  nums : s.nums = t.nums
  flat : s.originalIsFlat = t.originalIsFlat
  given : ∀ f ∈ s.free, f ≠ none

theorem foldArg_same {p q : Pattern} (h : Spec.SameBehaviour p q) {f : Option Bool} (hf : f ≠ none) (a : Arg X) :
    foldArg p f a = foldArg q f a := by
  obtain ⟨b, rfl⟩ := Option.ne_none_iff_exists'.mp hf
  cases a with
  | val v =>
    cases v with
    | arr x => simp only [foldArg, (h b x (.arr x) none).1]
    | dict es => rfl
  | other x => rfl

theorem flattenArg_same {p q : Pattern} (h : Spec.SameBehaviour p q) {f : Option Bool} (hf : f ≠ none) (a : Arg X) :
    flattenArg p f a = flattenArg q f a := by
  obtain ⟨b, rfl⟩ := Option.ne_none_iff_exists'.mp hf
  cases a with
  | val v => simp only [flattenArg, (h b ⟨[], []⟩ v none).2.1]
  | other x => rfl

/-- Two transformations that agree on the items of two wrappers. -/
def AlikeItem (i j : ℤ × Pattern × Option Bool) : Prop :=
  i.1 = j.1 ∧ Spec.SameBehaviour i.2.1 j.2.1 ∧ i.2.2 = j.2.2 ∧ i.2.2 ≠ none

theorem getElem?_alike {s t : Wrapper} (h : Alike s t) (i : Nat) :
    Option.Rel Spec.SameBehaviour s.patterns[i]? t.patterns[i]? := by
  have hl := h.patterns.length_eq
  by_cases hi : i < s.patterns.length
  · rw [List.getElem?_eq_getElem hi, List.getElem?_eq_getElem (hl ▸ hi)]
    exact .some (h.patterns.get hi (hl ▸ hi))
  · rw [List.getElem?_eq_none (not_lt.mp hi), List.getElem?_eq_none (hl ▸ not_lt.mp hi)]
    exact .none

theorem sorted_alike {s t : Wrapper} (h : Alike s t) : List.Forall₂ AlikeItem s.sorted t.sorted := by
  unfold Wrapper.sorted
  rw [← h.nums, ← h.free]
  induction argsort s.nums with
  | nil => exact .nil
  | cons i r ih =>
    simp only [List.filterMap_cons]
    have hr := getElem?_alike h i
    cases hk : s.nums[i]? with
    | none => simpa using ih
    | some k =>
      generalize s.patterns[i]? = a at hr
      generalize t.patterns[i]? = b at hr
      cases hr with
      | none => simpa using ih
      | some hpq =>
        cases hf : s.free[i]? with
        | none => simpa using ih
        | some f => exact .cons ⟨rfl, hpq, rfl, h.given f (List.mem_of_getElem? hf)⟩ ih

theorem inputLoop_alike {tr : Pattern → Option Bool → Arg X → Except Err (Arg X)}
    (htr : ∀ p q : Pattern, Spec.SameBehaviour p q → ∀ f, f ≠ none → ∀ a, tr p f a = tr q f a) (args : List (Arg X))
    {l m : List (ℤ × Pattern × Option Bool)} (h : List.Forall₂ AlikeItem l m) (last : ℤ) (acc : List (Arg X)) :
    inputLoop tr args l last acc = inputLoop tr args m last acc := by
  induction h generalizing last acc with
  | nil => rfl
  | @cons i j _ _ hij _ ih =>
    obtain ⟨k, p, f⟩ := i
    obtain ⟨k', q, f'⟩ := j
    obtain ⟨rfl, hpq, rfl, hf⟩ := hij
    simp only [inputLoop, htr p q hpq f hf, ih]

theorem outputLoop_alike {tr : Pattern → Option Bool → Arg X → Except Err (Arg X)}
    (htr : ∀ p q : Pattern, Spec.SameBehaviour p q → ∀ f, f ≠ none → ∀ a, tr p f a = tr q f a) (named : Bool) (rets : List (Arg X))
    {l m : List (ℤ × Pattern × Option Bool)} (h : List.Forall₂ AlikeItem l m) (last : ℤ) (acc : List (Arg X)) :
    outputLoop named tr rets l last acc = outputLoop named tr rets m last acc := by
  induction h generalizing last acc with
  | nil => rfl
  | @cons i j _ _ hij _ ih =>
    obtain ⟨k, p, f⟩ := i
    obtain ⟨k', q, f'⟩ := j
    obtain ⟨rfl, hpq, rfl, hf⟩ := hij
    simp only [outputLoop, htr p q hpq f hf, ih]

theorem wrapInput_alike {s t : Wrapper} (h : Alike s t) (f : Fn X) : wrapInput s f = wrapInput t f := by
  have hn (args : List (Arg X)) : newArgs s args = newArgs t args := by
    unfold newArgs
    rw [← h.flat]
    apply inputLoop_alike _ _ (sorted_alike h)
    intro p q hpq g hg a
    split
    · exact flattenArg_same hpq hg a
    · exact foldArg_same hpq hg a
  simp only [wrapInput, Fn.mk.injEq, and_true]
  funext args kwargs
  simp only [callInput, hn]

theorem transformRet_alike {s t : Wrapper} (h : Alike s t) (named : Bool) (r : Ret X) :
    transformRet s named r = transformRet t named r := by
  have htr : ∀ p q : Pattern, Spec.SameBehaviour p q → ∀ f, f ≠ none → ∀ a : Arg X,
      (if s.originalIsFlat then foldArg else flattenArg) p f a = (if s.originalIsFlat then foldArg else flattenArg) q f a := by
    intro p q hpq g hg a
    split
    · exact foldArg_same hpq hg a
    · exact flattenArg_same hpq hg a
  cases r with
  | tuple rets => simp only [transformRet, ← h.flat, outputLoop_alike htr named rets (sorted_alike h)]
  | single a =>
    unfold transformRet
    rw [← h.nums, ← h.free, ← h.flat]
    have hr := getElem?_alike h 0
    have hg : ∀ f, s.free[0]? = some f → f ≠ none := fun f hf => h.given f (List.mem_of_getElem? hf)
    generalize s.free[0]? = o at hg
    generalize s.patterns[0]? = a' at hr
    generalize t.patterns[0]? = b' at hr
    dsimp only
    cases hr with
    | none => rfl
    | some hpq =>
      cases o with
      | none => rfl
      | some f => simp only [htr _ _ hpq f (hg f rfl)]

theorem wrapOutput_alike {s t : Wrapper} (h : Alike s t) (f : Fn X) : wrapOutput s f = wrapOutput t f := by
  simp only [wrapOutput, Fn.mk.injEq, and_true]
  funext args kwargs
  simp only [callOutput, transformRet_alike h]

theorem given_broadcast {a : NDArray (Option Bool)} {t : List Nat} {b : NDArray (Option Bool)} (h : broadcastTo a t = .ok b)
    (ha : ∀ f ∈ a.data, f ≠ none) : ∀ f ∈ b.data, f ≠ none := by
  unfold broadcastTo at h
  split at h
  · obtain rfl := Except.ok.inj h
    intro f hf
    obtain ⟨_, _, hi⟩ := List.mem_filterMap.mp hf
    exact ha f (List.mem_of_getElem? hi)
  · cases h

/-- Construction looks at the patterns only through the shape of their array. -/
theorem construct_alike {P Q : NDArray Pattern} (hs : P.shape = Q.shape) (hd : List.Forall₂ Spec.SameBehaviour P.data Q.data)
    {free : NDArray (Option Bool)} (hf : ∀ f ∈ free.data, f ≠ none) (b : Bool) (nums : Option (NDArray ℤ)) :
    (∃ e, construct P free b nums = .error e ∧ construct Q free b nums = .error e) ∨
    ∃ s t, construct P free b nums = .ok s ∧ construct Q free b nums = .ok t ∧ Alike s t := by
  obtain ⟨sh, dp⟩ := P
  obtain ⟨sh', dq⟩ := Q
  obtain rfl : sh = sh' := hs
  have e1 : (NDArray.atleast1d ⟨sh, dp⟩).shape = (NDArray.atleast1d ⟨sh, dq⟩).shape := by
    cases sh <;> rfl
  have d1 : List.Forall₂ Spec.SameBehaviour (NDArray.atleast1d ⟨sh, dp⟩).data (NDArray.atleast1d ⟨sh, dq⟩).data := by
    cases sh <;> exact hd
  unfold construct
  generalize NDArray.atleast1d ⟨sh, dp⟩ = P at e1 d1
  generalize NDArray.atleast1d ⟨sh, dq⟩ = Q at e1 d1
  have e2 : P.len = Q.len := by simp only [NDArray.len, e1]
  have e3 : P.ndim = Q.ndim := by simp only [NDArray.ndim, e1]
  simp only [bind, Except.bind, throw, throwThe, MonadExceptOf.throw, pure, Except.pure, e1, e2, e3]
  cases Q.len with
  | error e => exact .inl ⟨e, rfl, rfl⟩
  | ok n =>
    dsimp only
    cases hb : broadcastTo free Q.shape with
    | error e => exact .inl ⟨e, rfl, rfl⟩
    | ok fr =>
      have hg := given_broadcast hb hf
      dsimp only
      split
      · exact .inl ⟨_, rfl, rfl⟩
      split
      · exact .inl ⟨_, rfl, rfl⟩
      cases (numArray n nums).atleast1d.len with
      | error e => exact .inl ⟨e, rfl, rfl⟩
      | ok m =>
        dsimp only
        split
        · exact .inl ⟨_, rfl, rfl⟩
        split
        · exact .inl ⟨_, rfl, rfl⟩
        split
        · exact .inl ⟨_, rfl, rfl⟩
        cases fr.len with
        | error e => exact .inl ⟨e, rfl, rfl⟩
        | ok k =>
          dsimp only
          split
          · exact .inl ⟨_, rfl, rfl⟩
          · exact .inr ⟨_, _, rfl, rfl, ⟨d1, rfl, rfl, rfl, hg⟩⟩

end WrapperPatterns

open WrapperPatterns

/-- Two ways to make the four wrappers give the same exceptions and the same functions. -/
def Spec.SameWrappers (X : Type) (P Q : NDArray Pattern) (free : NDArray (Option Bool)) : Prop :=
  ∀ (fn : Fn X) (nums : Option (NDArray ℤ)),
    foldFunctionInput fn P free nums = foldFunctionInput fn Q free nums ∧
    flattenFunctionInput fn P free nums = flattenFunctionInput fn Q free nums ∧
    foldFunctionOutput fn P free nums = foldFunctionOutput fn Q free nums ∧
    flattenFunctionOutput fn P free nums = flattenFunctionOutput fn Q free nums

/-- **C142.** Wrappers with patterns that behave the same are the same functions, for every wrapped function and all positions,
provided that every `free` is given. -/
theorem C142_same {P Q : NDArray Pattern} (hs : P.shape = Q.shape) (hd : List.Forall₂ Spec.SameBehaviour P.data Q.data)
    {free : NDArray (Option Bool)} (hf : ∀ f ∈ free.data, f ≠ none) : Spec.SameWrappers X P Q free := by
  intro fn nums
  refine ⟨?_, ?_, ?_, ?_⟩
  · rcases construct_alike hs hd hf true nums with ⟨e, h1, h2⟩ | ⟨s, t, h1, h2, h⟩
    · simp only [foldFunctionInput, h1, h2]
    · simp only [foldFunctionInput, h1, h2, bind, Except.bind, wrapInput_alike h]
  · rcases construct_alike hs hd hf false nums with ⟨e, h1, h2⟩ | ⟨s, t, h1, h2, h⟩
    · simp only [flattenFunctionInput, h1, h2]
    · simp only [flattenFunctionInput, h1, h2, bind, Except.bind, wrapInput_alike h]
  · rcases construct_alike hs hd hf true nums with ⟨e, h1, h2⟩ | ⟨s, t, h1, h2, h⟩
    · simp only [foldFunctionOutput, h1, h2]
    · simp only [foldFunctionOutput, h1, h2, bind, Except.bind, wrapOutput_alike h]
  · rcases construct_alike hs hd hf false nums with ⟨e, h1, h2⟩ | ⟨s, t, h1, h2, h⟩
    · simp only [flattenFunctionOutput, h1, h2]
    · simp only [flattenFunctionOutput, h1, h2, bind, Except.bind, wrapOutput_alike h]

/-- **C142.** Writing the patterns to JSON and reading them back does not change the wrappers. -/
theorem C142_json {reg : Registry} (hr : Spec.HasBuiltins reg) (user : Nat → PyVal → Except Err Pattern) {P Q : NDArray Pattern}
    (hb : ∀ p ∈ P.data, Built p) (hs : P.shape = Q.shape)
    (hd : List.Forall₂ (fun p q => Json.getPatternFromJson reg user p.toJson = .ok q) P.data Q.data)
    {free : NDArray (Option Bool)} (hf : ∀ f ∈ free.data, f ≠ none) : Spec.SameWrappers X P Q free := by
  refine C142_same hs ?_ hf
  obtain ⟨sh, l⟩ := P
  obtain ⟨sh', m⟩ := Q
  dsimp only at hb hd ⊢
  clear hs
  induction hd with
  | nil => exact .nil
  | @cons p q _ _ hpq _ ih =>
    refine .cons ?_ (ih (fun r hr => hb r (.tail _ hr)))
    obtain ⟨q', h1, h2, _⟩ := C29_round_trip hr user (hb p (.head _))
    obtain rfl : q = q' := Except.ok.inj (hpq ▸ h1)
    exact h2

/-- **C142.** Wrappers of patterns that compare equal with `==` are the same functions. -/
theorem C142_equal {P Q : NDArray Pattern} (hb : ∀ p ∈ P.data, Built p) (hq : ∀ q ∈ Q.data, Built q) (hs : P.shape = Q.shape)
    (hd : List.Forall₂ EqPy P.data Q.data) {free : NDArray (Option Bool)} (hf : ∀ f ∈ free.data, f ≠ none) :
    Spec.SameWrappers X P Q free := by
  refine C142_same hs ?_ hf
  obtain ⟨sh, l⟩ := P
  obtain ⟨sh', m⟩ := Q
  dsimp only at hb hq hd ⊢
  clear hs
  induction hd with
  | nil => exact .nil
  | @cons p q _ _ hpq _ ih =>
    exact .cons (C31_sound (hb p (.head _)) (hq q (.head _)) hpq)
      (ih (fun r hr => hb r (.tail _ hr)) (fun r hr => hq r (.tail _ hr)))

/-- **C142.** The wrappers that transform arguments and return values: if the patterns can be exchanged in the single wrappers (for
which the theorems above give conditions), they can be exchanged here. -/
theorem C142_both {P Q P' Q' : NDArray Pattern} {free free' : NDArray (Option Bool)} (h : Spec.SameWrappers X P Q free)
    (h' : Spec.SameWrappers X P' Q' free') (fn : Fn X) (argnums retnums : Option (NDArray ℤ)) :
    foldFunctionInputAndOutput fn P free argnums P' free' retnums = foldFunctionInputAndOutput fn Q free argnums Q' free' retnums ∧
    flattenFunctionInputAndOutput fn P free argnums P' free' retnums =
      flattenFunctionInputAndOutput fn Q free argnums Q' free' retnums := by
  constructor
  · simp only [foldFunctionInputAndOutput, (h' fn retnums).2.2.1, fun g => (h g argnums).1]
  · simp only [flattenFunctionInputAndOutput, (h' fn retnums).2.2.2, fun g => (h g argnums).2.1]

/-- **C142, why `free` has to be given.** A function wrapped to take the flat vector of a pattern with a `free_default`, with
`free=None`: it is the same as with `free=free_default`, but made of the pattern that was read back, which has lost its default,
it raises `ValueError` for all vectors. -/
theorem C142_none {reg : Registry} (hr : Spec.HasBuiltins reg) (user : Nat → PyVal → Except Err Pattern) {p q : Pattern}
    (hp : Built p) (h : Json.getPatternFromJson reg user p.toJson = .ok q) (hn : ∀ c s lb ub dv fd, p ≠ .numeric c s lb ub dv fd)
    {b : Bool} (hb : p.freeDefault = some b) (fn : Fn X) :
    ∃ g g' g'' : Fn X, flattenFunctionInput fn ⟨[], [p]⟩ ⟨[], [none]⟩ none = .ok g ∧
      flattenFunctionInput fn ⟨[], [p]⟩ ⟨[], [some b]⟩ none = .ok g'' ∧
      flattenFunctionInput fn ⟨[], [q]⟩ ⟨[], [none]⟩ none = .ok g' ∧
      ∀ (x : NDArray Flt) (kw : Kwargs X), g.call [.val (.arr x)] kw = g''.call [.val (.arr x)] kw ∧
        ∃ msg, g'.call [.val (.arr x)] kw = .error (.valueError msg) := by
  have hc (r : Pattern) (f : Option Bool) : construct ⟨[], [r]⟩ ⟨[], [f]⟩ false none = .ok ⟨[r], [f], [0], false⟩ := by
    rw [construct_vec (by simp [NDArray.WF]) (by rintro a h; cases h) (by simp [ndim]) (by rintro a h; cases h)]
    simp [numList, broadcastData, productRanges_vec, ravel, List.range_succ]
  have hs (r : Pattern) (f : Option Bool) : (⟨[r], [f], [0], false⟩ : Wrapper).sorted = [(0, r, f)] := by
    simp [Wrapper.sorted, argsort]
  obtain ⟨-, h2, -⟩ := C30_default_lost hr user hp h hn
  refine ⟨_, _, _, by simp only [flattenFunctionInput, hc, bind, Except.bind, pure, Except.pure]; rfl,
    by simp only [flattenFunctionInput, hc, bind, Except.bind, pure, Except.pure]; rfl,
    by simp only [flattenFunctionInput, hc, bind, Except.bind, pure, Except.pure]; rfl, fun x kw => ⟨?_, ?_⟩⟩
  · simp only [wrapInput, callInput, newArgs, hs, inputLoop]
    have e : foldArg (X := X) p none (.val (.arr x)) = foldArg p (some b) (.val (.arr x)) := by
      simp only [foldArg, Pattern.fold, hb, freeWithDefault]
    simp [pyGet, e, bind, Except.bind]
  · obtain ⟨msg, hm⟩ := h2 x none
    refine ⟨msg, ?_⟩
    simp only [wrapInput, callInput, newArgs, hs, inputLoop]
    simp [pyGet, foldArg, hm, bind, Except.bind]

/-- Non-vacuity: two patterns, one of them nested, locked and with a `free_default`; what is read from their JSON texts, in the same
order, is different from them. -/
example : (∀ p ∈ (vec [exScalar, exPat]).data, Built p) ∧ (vec [exScalar, exPat]).shape = (vec [Spec.forget exScalar, Spec.forget exPat]).shape ∧
    List.Forall₂ (fun p q => Json.getPatternFromJson initialRegistry (fun _ _ => .error .unmodelled) p.toJson = .ok q)
      (vec [exScalar, exPat]).data (vec [Spec.forget exScalar, Spec.forget exPat]).data ∧
    Spec.forget exPat ≠ exPat ∧ (∃ b, exPat.freeDefault = some b) ∧ ∀ f ∈ (⟨[], [some true]⟩ : NDArray (Option Bool)).data, f ≠ none := by
  have h1 := C30_exactly initial_builtins (fun _ _ => .error .unmodelled) exScalar_built
  have h2 := C30_exactly initial_builtins (fun _ _ => .error .unmodelled) exPat_built
  refine ⟨?_, rfl, .cons h1 (.cons h2 .nil), ?_, ?_, by simp⟩
  · intro p hp
    simp only [vec, List.mem_cons, List.not_mem_nil, or_false] at hp
    rcases hp with rfl | rfl
    · exact exScalar_built
    · exact exPat_built
  · intro e
    have := (forget_eq_iff exPat exPat_built.wf).mp e
    exact absurd this (by simp [exPat, Spec.NoDefault])
  · simp [exPat, freeDefault]

end Paragami
