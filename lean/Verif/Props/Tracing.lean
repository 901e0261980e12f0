import Verif.Model.Tracing
import Verif.Props.Display

/-! # C95: derivatives and the counter -/

namespace Paragami
open NDArray LinAlg Optimization

namespace Spec

/-- Whether a call is not of a derivative. -/
def isMethod {X : Type} : FullOp X → Bool
  | .method _ => true
  | .derivative _ _ => false

/-- The calls other than of derivatives, at plain points. -/
def methods {X : Type} : List (FullOp X) → List (ObjOp (Traced X))
  | [] => []
  | .method (.f x) :: l => .f (.plain x) :: methods l
  | .method (.setPrintEvery n) :: l => .setPrintEvery n :: methods l
  | .method (.setLogEvery n) :: l => .setLogEvery n :: methods l
  | .method .reset :: l => .reset :: methods l
  | .method .resetIterationCount :: l => .resetIterationCount :: methods l
  | .method .resetLog :: l => .resetLog :: methods l
  | .derivative _ _ :: l => methods l

/-- Whether a call returns. -/
def returns {α : Type} : Except Err α → Nat
  | .ok _ => 1
  | .error _ => 0

/-- How often a call of a method of the outer objective makes the inner function return. -/
def evaluations {X Y D : Type} (a : Autograd X Y D) (g : Traced X → Except Err (Traced Y)) : FullOp X → Nat
  | .method (.f x) => returns (g (.plain x))
  | .method _ => 0
  | .derivative k x => a.calls k * returns (g (.boxed x))

end Spec

variable {S X Y D : Type} (a : Autograd X Y D) (h : Hooks (Traced X) (Traced Y))

/-- A history of an objective whose function gives what `g` gives. -/
theorem runFull_fst {c : Callable S X Y} {g : Traced X → Except Err (Traced Y)} (hc : ∀ w x, (c.call w x).2 = g x)
    (s : Objective (Traced X) (Traced Y)) (w : S) (l : List (FullOp X)) :
    (Objective.runFull a h c (s, w) l).1 = s.runHooks h g (Spec.methods l) := by
  induction l generalizing s w with
  | nil => rfl
  | cons o l ih =>
    obtain ⟨t, w', hs⟩ : ∃ t w', Objective.stepFull a h c (s, w) o = (t, w') := ⟨_, _, rfl⟩
    have e : Objective.runFull a h c (s, w) (o :: l) = Objective.runFull a h c (t, w') l := by
      rw [Objective.runFull, List.foldl_cons, hs]; rfl
    rw [e, ih]
    rcases o with o | ⟨k, x⟩
    · cases o with
      | f x =>
        have : t = (s.evalHooks h g (.plain x)).1 := by
          have e : t = (Objective.stepFull a h c (s, w) (.method (.f x))).1 := by rw [hs]
          rw [e]
          simp only [Objective.stepFull, Objective.callable, hc]
          cases hg : g (.plain x) <;> simp only [Objective.evalHooks, hg]
        rw [this]; rfl
      | _ => obtain ⟨rfl, rfl⟩ := Prod.mk.injEq .. ▸ hs; rfl
    · have : t = s := (congrArg Prod.fst hs).symm
      rw [this]; rfl

theorem methods_filter (l : List (FullOp X)) : Spec.methods (l.filter Spec.isMethod) = Spec.methods l := by
  induction l with
  | nil => rfl
  | cons o l ih =>
    rcases o with o | ⟨k, x⟩
    · rw [List.filter_cons_of_pos rfl]
      cases o <;> simp only [Spec.methods, ih]
    · rw [List.filter_cons_of_neg (by simp [Spec.isMethod]), Spec.methods, ih]

/-- **C95, the objective's own counter.**  If what the objective function gives does not depend on its own state, then `grad`, `hessian` and
`hessian_vector_product` leave no trace in the objective: counter, log, printed lines and settings after any history are those of the history
without these calls, which are those of C57 and C88. -/
theorem C95_own {c : Callable S X Y} {g : Traced X → Except Err (Traced Y)} (hc : ∀ w x, (c.call w x).2 = g x)
    (s : Objective (Traced X) (Traced Y)) (w : S) (l : List (FullOp X)) :
    (Objective.runFull a h c (s, w) l).1 = (Objective.runFull a h c (s, w) (l.filter Spec.isMethod)).1 ∧
    (Objective.runFull a h c (s, w) l).1 = s.runHooks h g (Spec.methods l) := by
  rw [runFull_fst a h hc, runFull_fst a h hc, methods_filter]
  exact ⟨rfl, rfl⟩

/-- **C95, the number of iterations.**  With `print_value` and `log_value` that do not raise, `num_iterations()` after any history is the number of
calls of `f` that returned since the last reset; derivatives do not count. -/
theorem C95_iterations {c : Callable S X Y} {g : Traced X → Except Err (Traced Y)} (hc : ∀ w x, (c.call w x).2 = g x)
    (hd : ∀ k x v, h.display k x v = .ok ()) (hr : ∀ k x v, h.record k x v = .ok ()) (p q : ℤ) (w : S) (l : List (FullOp X)) :
    (Objective.runFull a h c (Objective.init p q, w) l).1.numEvals = Spec.iterations g (Spec.methods l) := by
  rw [(C95_own a h hc _ w l).2, (C88_transparent hd hr g).2, C57_iterations]

/-- **C95, what a derivative gives** does not depend on the history, for functions whose outcome does not depend on their state. -/
theorem C95_derivative {c : Callable S X Y} {g : Traced X → Except Err (Traced Y)} (hc : ∀ w x, (c.call w x).2 = g x)
    (s : Objective (Traced X) (Traced Y)) (w : S) (l : List (FullOp X)) (k : Kind) (x : X) :
    Objective.derivative a c (Objective.runFull a h c (s, w) l) k x =
      match g (.boxed x) with
      | .ok v => a.finish k x (List.replicate (a.calls k) v)
      | .error e => if a.calls k = 0 then a.finish k x [] else .error e := by
  have key : ∀ n w, (c.trace x n w).2 = match g (.boxed x) with
      | .ok v => .ok (List.replicate n v)
      | .error e => if n = 0 then .ok [] else .error e := by
    intro n
    induction n with
    | zero => intro w; rw [Callable.trace]; cases g (.boxed x) <;> rfl
    | succ n ih =>
      intro w
      rw [Callable.trace]
      have h1 := hc w (.boxed x)
      rcases hcw : c.call w (.boxed x) with ⟨w', r⟩
      rw [hcw] at h1
      simp only at h1
      subst h1
      cases hg : g (.boxed x) with
      | error e => simp
      | ok v =>
        have h2 := ih w'
        rw [hg] at h2
        rcases hct : c.trace x n w' with ⟨w'', r⟩
        rw [hct] at h2
        simp only at h2
        subst h2
        simp [List.replicate_succ, hct]
  rw [Objective.derivative, Autograd.derive]
  generalize (Objective.runFull a h c (s, w) l).2 = w
  have h1 := key (a.calls k) w
  rcases hct : c.trace x (a.calls k) w with ⟨w', r⟩
  rw [hct] at h1
  simp only at h1
  subst h1
  cases hg : g (.boxed x) with
  | ok v => rfl
  | error e => by_cases h0 : a.calls k = 0 <;> simp [h0]

/-! Differentiating `f` itself, as an outer `OptimizationObjective(inner.f)` does. -/

/-- **C95, printing prevents differentiation.**  If a line is due to be printed and the value depends on the point (so that it is a box), then
differentiating `f` raises `TypeError` and leaves counter, log and printed lines as they are. -/
theorem C95_print_raises {aX : Autograd X (NDArray ℝ) D} {c : Callable S X (NDArray ℝ)} {s : Objective (Traced X) (Traced (NDArray ℝ))} {w w' : S}
    {x : X} {v : NDArray ℝ} (hp : 0 < s.printEvery) (hdvd : s.printEvery ∣ s.numEvals) (hc : c.call w (.boxed x) = (w', .ok (.boxed v)))
    {k : Kind} (hk : 0 < aX.calls k) :
    aX.derive (Objective.callable .traced c) k (s, w) x = ((s, w'), .error .typeError) := by
  have hcall : (Objective.callable .traced c).call (s, w) (.boxed x) = ((s, w'), .error .typeError) := by
    simp only [Objective.callable, hc]
    rw [(C88_call .traced (fun _ => .ok (.boxed v)) s (.boxed x)).2.1 (.boxed v) .typeError rfl ⟨hp, hdvd⟩ rfl]
  obtain ⟨n, hn⟩ : ∃ n, aX.calls k = n + 1 := ⟨_, (Nat.succ_pred_eq_of_pos hk).symm⟩
  rw [Autograd.derive, hn, Callable.trace, hcall]

/-- What a call of an objective that does not print does. -/
theorem callable_quiet {hi : Hooks (Traced X) (Traced Y)} (hr : ∀ k x v, hi.record k x v = .ok ()) (c : Callable S X Y)
    {s : Objective (Traced X) (Traced Y)} (hp : s.printEvery ≤ 0) (w : S) (x : Traced X) :
    ((Objective.callable hi c).call (s, w) x) = (((s.eval (fun _ => (c.call w x).2) x).1, (c.call w x).1), (c.call w x).2) := by
  simp only [Objective.callable]
  cases hv : (c.call w x).2 with
  | error e => simp only [Objective.evalHooks, Objective.eval]
  | ok v =>
    rw [(C88_call hi (fun _ => .ok v) s x).2.2.2 v rfl (fun h => absurd h.1 (by omega)) (fun _ => hr _ _ _), Objective.eval]

/-- The state of an objective that does not print after autograd has called it. -/
theorem trace_quiet {hi : Hooks (Traced X) (Traced Y)} (hr : ∀ k x v, hi.record k x v = .ok ()) {c : Callable S X Y}
    {g : Traced X → Except Err (Traced Y)} (hc : ∀ w x, (c.call w x).2 = g x) (x : X) (n : Nat) {s : Objective (Traced X) (Traced Y)}
    (hp : s.printEvery ≤ 0) (w : S) :
    ∃ w', ((Objective.callable hi c).trace x n (s, w)) = match g (.boxed x) with
      | .error e => ((s, w'), if n = 0 then .ok [] else .error e)
      | .ok v => (({ s with
          numEvals := s.numEvals + n
          log := s.log ++ (List.range n).filterMap fun i =>
            if 0 < s.logEvery ∧ s.logEvery ∣ ((s.numEvals + i : ℕ) : ℤ) then some (s.numEvals + i, .boxed x, v) else none }, w'),
          .ok (List.replicate n v)) := by
  induction n generalizing s w with
  | zero => exact ⟨w, by cases g (.boxed x) <;> simp [Callable.trace]⟩
  | succ n ih =>
    rw [Callable.trace, callable_quiet hr c hp, hc]
    cases hg : g (.boxed x) with
    | error e => exact ⟨(c.call w (.boxed x)).1, by simp [Objective.eval]⟩
    | ok v =>
      obtain ⟨w', h'⟩ := ih (s := (s.eval (fun _ => .ok v) (.boxed x)).1) (by simpa [Objective.eval] using hp) (c.call w (.boxed x)).1
      rw [hg] at h'
      refine ⟨w', ?_⟩
      simp only [h']
      simp only [Objective.eval, List.replicate_succ, Prod.mk.injEq, Objective.mk.injEq, true_and, and_true, List.range_succ_eq_map,
        List.filterMap_cons, List.filterMap_map, Int.dvd_iff_emod_eq_zero, Nat.add_zero]
      have hz : ¬ (0 < s.printEvery ∧ (s.numEvals : ℤ) % s.printEvery = 0) := fun h => absurd h.1 (by omega)
      refine ⟨by omega, ?_, by rw [if_neg hz]⟩
      have ef : ∀ i, s.numEvals + 1 + i = s.numEvals + (i + 1) := fun i => by omega
      simp only [ef]
      split_ifs <;> simp

/-- **C95, derivatives of `f` count.**  With printing off, differentiating `f` counts as many iterations as autograd calls the function, and logs a box
around the point with the value for each of them that is due. -/
theorem C95_counted {hi : Hooks (Traced X) (Traced Y)} (hr : ∀ k x v, hi.record k x v = .ok ()) {c : Callable S X Y}
    {g : Traced X → Except Err (Traced Y)} (hc : ∀ w x, (c.call w x).2 = g x) {s : Objective (Traced X) (Traced Y)} (hp : s.printEvery ≤ 0)
    (w : S) {k : Kind} {x : X} {v : Traced Y} (hv : g (.boxed x) = .ok v) :
    let t := (a.derive (Objective.callable hi c) k (s, w) x).1.1
    t.numEvals = s.numEvals + a.calls k ∧ t.printed = s.printed ∧
    t.log = s.log ++ (List.range (a.calls k)).filterMap fun i =>
      if 0 < s.logEvery ∧ s.logEvery ∣ ((s.numEvals + i : ℕ) : ℤ) then some (s.numEvals + i, .boxed x, v) else none := by
  obtain ⟨w', h⟩ := trace_quiet hr hc x (a.calls k) hp w
  rw [hv] at h
  simp only [Autograd.derive, h, and_self]

/-- **C95, nested objectives.**  Let `inner` not print, and let `outer` be `OptimizationObjective(inner.f)`.  After any history of calls on `outer`,
`inner.num_iterations()` has grown by the number of evaluations that returned, counting those that autograd made for derivatives. -/
theorem C95_nested {hi : Hooks (Traced X) (Traced Y)} (hr : ∀ k x v, hi.record k x v = .ok ()) {c : Callable S X Y}
    {g : Traced X → Except Err (Traced Y)} (hc : ∀ w x, (c.call w x).2 = g x) {inner : Objective (Traced X) (Traced Y)} (hp : inner.printEvery ≤ 0)
    (outer : Objective (Traced X) (Traced Y)) (w : S) (l : List (FullOp X)) :
    (Objective.runFull a h (Objective.callable hi c) (outer, inner, w) l).2.1.numEvals =
      inner.numEvals + (l.map (Spec.evaluations a g)).sum := by
  induction l generalizing outer inner w with
  | nil => simp [Objective.runFull]
  | cons o l ih =>
    obtain ⟨t, i, w', hs⟩ : ∃ t i w', Objective.stepFull a h (Objective.callable hi c) (outer, inner, w) o = (t, i, w') := ⟨_, _, _, rfl⟩
    have e : Objective.runFull a h (Objective.callable hi c) (outer, inner, w) (o :: l) =
        Objective.runFull a h (Objective.callable hi c) (t, i, w') l := by
      rw [Objective.runFull, List.foldl_cons, hs]; rfl
    have hi' : i.printEvery = inner.printEvery ∧ i.numEvals = inner.numEvals + Spec.evaluations a g o := by
      have ei : i = (Objective.stepFull a h (Objective.callable hi c) (outer, inner, w) o).2.1 := by rw [hs]
      rw [ei]
      rcases o with o | ⟨k, x⟩
      · cases o with
        | f x =>
          have e : (Objective.stepFull a h (Objective.callable hi c) (outer, inner, w) (.method (.f x))).2 =
              ((Objective.callable hi c).call (inner, w) (.plain x)).1 := rfl
          rw [e, callable_quiet hr c hp, hc]
          cases hg : g (.plain x) <;> simp [Objective.eval, Spec.evaluations, Spec.returns, hg]
        | _ => exact ⟨rfl, rfl⟩
      · obtain ⟨w', h'⟩ := trace_quiet hr hc x (a.calls k) hp w
        have e : (Objective.stepFull a h (Objective.callable hi c) (outer, inner, w) (.derivative k x)).2.1 =
            ((Objective.callable hi c).trace x (a.calls k) (inner, w)).1.1 := by
          simp only [Objective.stepFull, Autograd.derive]
          rcases (Objective.callable hi c).trace x (a.calls k) (inner, w) with ⟨⟨_, _⟩, _ | _⟩ <;> rfl
        rw [e, h']
        cases hg : g (.boxed x) <;> simp [Spec.evaluations, Spec.returns, hg]
    rw [e, ih (hi'.1 ▸ hp), hi'.2, List.map_cons, List.sum_cons]
    omega

/-- **C95, nested objectives as shipped.**  The methods `print_value` and `log_value` as shipped fulfil this, and with printing on the outer objective also
works if it is not itself differentiated and the function gives numbers: its history is that of C57 and the inner counter as above. -/
theorem C95_shipped {aX : Autograd X (NDArray ℝ) D} {c : Callable S X (NDArray ℝ)} {g : Traced X → Except Err (Traced (NDArray ℝ))}
    (hc : ∀ w x, (c.call w x).2 = g x) (hg : ∀ x v, g (.plain x) = .ok v → ∃ u, v = .plain u ∧ u.shape = [])
    {inner : Objective (Traced X) (Traced (NDArray ℝ))} (hp : inner.printEvery ≤ 0) (p q : ℤ) (w : S) (l : List (FullOp X)) :
    let st := Objective.runFull aX .traced (Objective.callable .traced c) (Objective.init p q, inner, w) l
    st.2.1.numEvals = inner.numEvals + (l.map (Spec.evaluations aX g)).sum ∧ st.1.numEvals = Spec.iterations g (Spec.methods l) := by
  refine ⟨C95_nested aX .traced (fun _ _ _ => rfl) hc hp _ w l, ?_⟩
  have quiet : ∀ (l : List (FullOp X)) (s : Objective (Traced X) (Traced (NDArray ℝ))) (i : Objective (Traced X) (Traced (NDArray ℝ))) (w : S),
      i.printEvery ≤ 0 → (Objective.runFull aX .traced (Objective.callable .traced c) (s, i, w) l).1 = s.run g (Spec.methods l) := by
    intro l
    induction l with
    | nil => intro s i w _; rfl
    | cons o l ih =>
      intro s i w hi
      rcases o with o | ⟨k, x⟩
      · cases o with
        | f x =>
          have e1 : Objective.stepFull aX .traced (Objective.callable .traced c) (s, i, w) (.method (.f x)) =
              ((s.eval g (.plain x)).1, (i.eval g (.plain x)).1, (c.call w (.plain x)).1) := by
            have e := callable_quiet (hi := Hooks.traced) (fun _ _ _ => rfl) c hi w (.plain x)
            rw [hc] at e
            have e2 : Objective.eval i (fun _ => g (.plain x)) (.plain x) = Objective.eval i g (.plain x) := rfl
            rw [e2] at e
            have e3 : s.evalHooks .traced (fun _ => g (.plain x)) (.plain x) = s.eval g (.plain x) := by
              cases hv : g (.plain x) with
              | error e => simp [Objective.evalHooks, Objective.eval, hv]
              | ok v =>
                obtain ⟨u, rfl, hu⟩ := hg x v hv
                rw [(C88_call .traced (fun _ => .ok (.plain u)) s (.plain x)).2.2.2 (.plain u) rfl
                  (fun _ => by simp [Hooks.traced, Hooks.shipped, hu]) (fun _ => rfl)]
                simp [Objective.eval, hv]
            simp only [Objective.stepFull]
            rw [Objective.callable]
            simp only [e, e3]
          have e : Objective.runFull aX .traced (Objective.callable .traced c) (s, i, w) (.method (.f x) :: l) =
              Objective.runFull aX .traced (Objective.callable .traced c)
                (Objective.stepFull aX .traced (Objective.callable .traced c) (s, i, w) (.method (.f x))) l := rfl
          rw [e, e1, ih]
          · rfl
          · rw [Objective.eval]; cases g (.plain x) <;> exact hi
        | _ => exact ih _ _ _ hi
      · obtain ⟨w', h'⟩ := trace_quiet (hi := Hooks.traced) (fun _ _ _ => rfl) hc x (aX.calls k) hi w
        have e : ∃ i', i'.printEvery ≤ 0 ∧ Objective.stepFull aX .traced (Objective.callable .traced c) (s, i, w) (.derivative k x) = (s, i', w') := by
          simp only [Objective.stepFull, Autograd.derive, h']
          cases g (.boxed x) with
          | error e => exact ⟨i, hi, by by_cases h0 : aX.calls k = 0 <;> simp [h0]⟩
          | ok v =>
            refine ⟨_, ?_, rfl⟩
            exact hi
        obtain ⟨i', hi', e⟩ := e
        have e' : Objective.runFull aX .traced (Objective.callable .traced c) (s, i, w) (.derivative k x :: l) =
            Objective.runFull aX .traced (Objective.callable .traced c)
              (Objective.stepFull aX .traced (Objective.callable .traced c) (s, i, w) (.derivative k x)) l := rfl
        rw [e', e, ih _ _ _ hi']
        rfl
  simp only [quiet l _ _ w hp]
  exact C57_iterations g p q (Spec.methods l)

/-- **C95, nested objectives that print.**  If `inner` prints every iteration, which is the default, and the value depends on the point, then no derivative
of `OptimizationObjective(inner.f)` can be computed, whatever has been called on it before: each raises `TypeError`, unless the function raises. -/
theorem C95_blocked {aX : Autograd X (NDArray ℝ) D} (hX : Hooks (Traced X) (Traced (NDArray ℝ))) {c : Callable S X (NDArray ℝ)}
    {g : Traced X → Except Err (Traced (NDArray ℝ))} (hc : ∀ w x, (c.call w x).2 = g x) (hg : ∀ x v, g (.boxed x) = .ok v → ∃ u, v = .boxed u)
    {inner : Objective (Traced X) (Traced (NDArray ℝ))} (hp : inner.printEvery = 1) (outer : Objective (Traced X) (Traced (NDArray ℝ))) (w : S)
    (l : List (FullOp X)) {k : Kind} (hk : 0 < aX.calls k) (x : X) :
    Objective.derivative aX (Objective.callable .traced c) (Objective.runFull aX hX (Objective.callable .traced c) (outer, inner, w) l) k x =
      match g (.boxed x) with
      | .error e => .error e
      | .ok _ => .error .typeError := by
  obtain ⟨t, i, w', hs⟩ : ∃ t i w', Objective.runFull aX hX (Objective.callable .traced c) (outer, inner, w) l = (t, i, w') := ⟨_, _, _, rfl⟩
  have hi : i.printEvery = 1 := by
    have hcall : ∀ (i : Objective (Traced X) (Traced (NDArray ℝ))) w x, ((Objective.callable .traced c).call (i, w) x).1.1.printEvery = i.printEvery := by
      intro i w x
      simp only [Objective.callable]
      cases (c.call w x).2 with
      | error e => rfl
      | ok v => simp only [Objective.evalHooks]; split <;> [rfl; (split <;> split_ifs <;> rfl)]
    have htr : ∀ n x (i : Objective (Traced X) (Traced (NDArray ℝ))) w, ((Objective.callable .traced c).trace x n (i, w)).1.1.printEvery = i.printEvery := by
      intro n
      induction n with
      | zero => intro x i w; rfl
      | succ n ih =>
        intro x i w
        have h1 := hcall i w (.boxed x)
        rw [Callable.trace]
        rcases hr : (Objective.callable .traced c).call (i, w) (.boxed x) with ⟨⟨i', w'⟩, e | v⟩
        · rw [hr] at h1; exact h1
        · rw [hr] at h1
          have h2 := ih x i' w'
          simp only
          rcases hr' : (Objective.callable .traced c).trace x n (i', w') with ⟨⟨i'', w''⟩, e | v⟩ <;> (rw [hr'] at h2; exact h2.trans h1)
    have key : ∀ (l : List (FullOp X)) (st : Objective (Traced X) (Traced (NDArray ℝ)) × Objective (Traced X) (Traced (NDArray ℝ)) × S),
        (Objective.runFull aX hX (Objective.callable .traced c) st l).2.1.printEvery = st.2.1.printEvery := by
      intro l
      induction l with
      | nil => intro st; rfl
      | cons o l ih =>
        rintro ⟨o', i, w⟩
        have e : Objective.runFull aX hX (Objective.callable .traced c) (o', i, w) (o :: l) =
          Objective.runFull aX hX (Objective.callable .traced c) (Objective.stepFull aX hX (Objective.callable .traced c) (o', i, w) o) l := rfl
        rw [e, ih]
        rcases o with o | ⟨k, x⟩
        · cases o with
          | f x => exact hcall i w (.plain x)
          | _ => rfl
        · have h1 := htr (aX.calls k) x i w
          simp only [Objective.stepFull, Autograd.derive]
          rcases hr : (Objective.callable .traced c).trace x (aX.calls k) (i, w) with ⟨⟨i', w'⟩, e | v⟩ <;> (rw [hr] at h1; exact h1)
    have := key l (outer, inner, w)
    rw [hs] at this
    exact this.trans hp
  rw [hs, Objective.derivative]
  have h2 := hc w' (.boxed x)
  cases hv : g (.boxed x) with
  | error e =>
    obtain ⟨n, hn⟩ : ∃ n, aX.calls k = n + 1 := ⟨_, (Nat.succ_pred_eq_of_pos hk).symm⟩
    have hcall : ((Objective.callable .traced c).call (i, w') (.boxed x)) = ((i, (c.call w' (.boxed x)).1), .error e) := by
      simp only [Objective.callable, h2, hv, Objective.evalHooks]
    rw [Autograd.derive, hn, Callable.trace, hcall]
  | ok v =>
    obtain ⟨u, rfl⟩ := hg x v hv
    rw [C95_print_raises (w' := (c.call w' (.boxed x)).1) (hi ▸ one_pos) (by rw [hi]; exact one_dvd _) (by rw [← h2.trans hv]) hk]

/-- Non-vacuity of C95: the square, counted and logged by an inner objective that does not print and by an outer one; autograd calls the function once
for `grad` and twice for `hessian`.  The outer objective counts one call, the inner four. -/
example :
    let g : Traced ℕ → Except Err (Traced ℕ) := fun
      | .plain x => .ok (.plain (x * x))
      | .boxed x => .ok (.boxed (x * x))
    let a : Autograd ℕ ℕ ℕ := ⟨fun | .grad => 1 | _ => 2, fun _ x _ => .ok (2 * x)⟩
    let h : Hooks (Traced ℕ) (Traced ℕ) := ⟨fun _ _ _ => .ok (), fun _ _ _ => .ok ()⟩
    let st := Objective.runFull a h (Objective.callable h (Callable.pure g)) (Objective.init 0 1, Objective.init 0 1, ())
      [.derivative .grad 3, .method (.f 4), .derivative .hessian 5]
    st.1.log = [(0, .plain 4, .plain 16)] ∧
    st.2.1.log = [(0, .boxed 3, .boxed 9), (1, .plain 4, .plain 16), (2, .boxed 5, .boxed 25), (3, .boxed 5, .boxed 25)] ∧
    st.1.numEvals = 1 ∧ st.2.1.numEvals = 4 := by
  decide

/-- Non-vacuity of the blocked case: with the defaults the gradient of a nested objective raises, also after a call of `f`. -/
example :
    let g : Traced ℝ → Except Err (Traced (NDArray ℝ)) := fun
      | .plain x => .ok (.plain ⟨[], [x * x]⟩)
      | .boxed x => .ok (.boxed ⟨[], [x * x]⟩)
    let a : Autograd ℝ (NDArray ℝ) ℝ := ⟨fun _ => 1, fun _ x _ => .ok (2 * x)⟩
    Objective.derivative a (Objective.callable .traced (Callable.pure g))
      (Objective.runFull a .traced (Objective.callable .traced (Callable.pure g)) (Objective.init 1 0, Objective.init 1 0, ()) [.method (.f 2)]) .grad 3 =
      .error .typeError := by
  intro g a
  exact C95_blocked (g := g) .traced (fun _ _ => rfl) (fun x v hv => by cases hv; exact ⟨_, rfl⟩) rfl _ () _ (by simp [a]) 3

end Paragami
