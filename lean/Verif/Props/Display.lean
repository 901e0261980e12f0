import Verif.Props.Optimization

/-! # C88: printing and logging that raise -/

namespace Paragami
open NDArray LinAlg Optimization

variable {X Y : Type}

/-- **C88, one call.**  `f` raises exactly if the objective, the printing (if it is due) or the logging (if it is due) raises, in this order; the
counter moves only if `f` returns; if the objective or the printing raises nothing changes at all, and if the logging does, only the line
printed remains. -/
theorem C88_call (h : Hooks X Y) (fn : X → Except Err Y) (s : Objective X Y) (x : X) :
    let shows := 0 < s.printEvery ∧ s.printEvery ∣ s.numEvals
    let logs := 0 < s.logEvery ∧ s.logEvery ∣ s.numEvals
    let r := s.evalHooks h fn x
    (∀ e, fn x = .error e → r = (s, .error e)) ∧
    (∀ v e, fn x = .ok v → shows → h.display s.numEvals x v = .error e → r = (s, .error e)) ∧
    (∀ v e, fn x = .ok v → (shows → h.display s.numEvals x v = .ok ()) → logs → h.record s.numEvals x v = .error e →
      r.2 = .error e ∧ r.1.log = s.log ∧ r.1.numEvals = s.numEvals ∧
        (shows → r.1.printed = s.printed ++ [(s.numEvals, v)]) ∧ (¬ shows → r.1.printed = s.printed)) ∧
    (∀ v, fn x = .ok v → (shows → h.display s.numEvals x v = .ok ()) → (logs → h.record s.numEvals x v = .ok ()) →
      r = s.eval fn x) := by
  intro shows logs r
  have hs : (0 < s.printEvery ∧ (s.numEvals : ℤ) % s.printEvery = 0) ↔ shows := and_congr_right fun _ => (Int.dvd_iff_emod_eq_zero).symm
  have hl : (0 < s.logEvery ∧ (s.numEvals : ℤ) % s.logEvery = 0) ↔ logs := and_congr_right fun _ => (Int.dvd_iff_emod_eq_zero).symm
  refine ⟨fun e he => ?_, fun v e hv hsh hd => ?_, fun v e hv hd hlo hr => ?_, fun v hv hd hr => ?_⟩
  · simp only [r, Objective.evalHooks, he]
  · simp only [r, Objective.evalHooks, hv, hs, hsh, decide_true, if_true, hd]
  · by_cases hsh : shows
    · simp only [r, Objective.evalHooks, hv, hs, hl, hsh, hlo, hd hsh, decide_true, if_true, hr]
      exact ⟨trivial, trivial, trivial, fun _ => trivial, fun h => absurd trivial h⟩
    · simp only [r, Objective.evalHooks, hv, hs, hl, hsh, hlo, decide_true, decide_false, if_true, if_false, Bool.false_eq_true, hr]
      exact ⟨trivial, trivial, trivial, fun h => absurd h not_false, fun _ => trivial⟩
  · by_cases hsh : shows <;> by_cases hlo : logs
    · simp only [r, Objective.evalHooks, Objective.eval, hv, hs, hl, hsh, hlo, hd hsh, hr hlo, decide_true, if_true]
    · simp only [r, Objective.evalHooks, Objective.eval, hv, hs, hl, hsh, hlo, hd hsh, decide_true, decide_false, if_true, if_false, Bool.false_eq_true]
    · simp only [r, Objective.evalHooks, Objective.eval, hv, hs, hl, hsh, hlo, hr hlo, decide_true, decide_false, if_true, if_false, Bool.false_eq_true]
    · simp only [r, Objective.evalHooks, Objective.eval, hv, hs, hl, hsh, hlo, decide_false, if_false, Bool.false_eq_true]

/-- **C88, hooks that do not raise.**  If `print_value` and `log_value` never raise, histories and outcomes are those of C57. -/
theorem C88_transparent {h : Hooks X Y} (hd : ∀ k x v, h.display k x v = .ok ()) (hr : ∀ k x v, h.record k x v = .ok ()) (fn : X → Except Err Y) :
    (∀ (s : Objective X Y) (x : X), s.evalHooks h fn x = s.eval fn x) ∧
    ∀ (s : Objective X Y) (l : List (ObjOp X)), s.runHooks h fn l = s.run fn l := by
  have h1 : ∀ (s : Objective X Y) (x : X), s.evalHooks h fn x = s.eval fn x := by
    intro s x
    cases hv : fn x with
    | error e => rw [(C88_call h fn s x).1 e hv, Objective.eval, hv]
    | ok v => exact (C88_call h fn s x).2.2.2 v hv (fun _ => hd _ _ _) (fun _ => hr _ _ _)
  refine ⟨h1, fun s l => ?_⟩
  rw [Objective.runHooks, Objective.run]
  congr 1
  funext s o
  cases o <;> first | rfl | exact congrArg Prod.fst (h1 _ _)

/-- **C88, scalar objectives.**  With the methods as shipped, an objective that returns arrays without axes (numbers) behaves as in C57. -/
theorem C88_scalar {fn : X → Except Err (NDArray ℝ)} (hfn : ∀ x v, fn x = .ok v → v.shape = []) (s : Objective X (NDArray ℝ)) :
    (∀ x, s.evalHooks .shipped fn x = s.eval fn x) ∧ ∀ l, s.runHooks .shipped fn l = s.run fn l := by
  have h1 : ∀ (s : Objective X (NDArray ℝ)) (x : X), s.evalHooks .shipped fn x = s.eval fn x := by
    intro s x
    cases hv : fn x with
    | error e => rw [(C88_call .shipped fn s x).1 e hv, Objective.eval, hv]
    | ok v => exact (C88_call .shipped fn s x).2.2.2 v hv (fun _ => by simp [Hooks.shipped, hfn x v hv]) (fun _ => rfl)
  refine ⟨h1 s, fun l => ?_⟩
  rw [Objective.runHooks, Objective.run]
  congr 1
  funext s o
  cases o <;> first | rfl | exact congrArg Prod.fst (h1 _ _)

/-- **C88, array-valued objectives.**  If the objective returns arrays with at least one axis (such as the `(1,)` arrays that matrix products give),
then as long as printing is on (as it is by default) `f` never returns: over every history of calls, resets and changes of `log_every`
the counter stays at zero and the log empty, and each call raises `TypeError` unless the objective itself raises. -/
theorem C88_blocked {fn : X → Except Err (NDArray ℝ)} (hfn : ∀ x v, fn x = .ok v → v.shape ≠ []) {p : ℤ} (hp : 0 < p) (q : ℤ)
    {l : List (ObjOp X)} (hl : ∀ n, .setPrintEvery n ∉ l) :
    let s := (Objective.init p q : Objective X (NDArray ℝ)).runHooks .shipped fn l
    s.numEvals = 0 ∧ s.log = [] ∧ s.printed = [] ∧
      ∀ x, (s.evalHooks .shipped fn x).2 = match fn x with | .error e => .error e | .ok _ => .error .typeError := by
  intro s
  have key : ∀ t : Objective X (NDArray ℝ), t.numEvals = 0 → t.printEvery = p → ∀ x,
      t.evalHooks .shipped fn x = (t, match fn x with | .error e => .error e | .ok _ => .error .typeError) := by
    intro t h0 hpe x
    cases hv : fn x with
    | error e => exact (C88_call .shipped fn t x).1 e hv
    | ok v => exact (C88_call .shipped fn t x).2.1 v .typeError hv ⟨hpe ▸ hp, by simp [h0]⟩ (by simp [Hooks.shipped, hfn x v hv])
  have inv : s.numEvals = 0 ∧ s.log = [] ∧ s.printed = [] ∧ s.printEvery = p := by
    simp only [s]
    induction l using List.reverseRecOn with
    | nil => exact ⟨rfl, rfl, rfl, rfl⟩
    | append_singleton l o ih =>
      have hlo : ∀ n, ObjOp.setPrintEvery n ∉ l := fun n h => hl n (by simp [h])
      obtain ⟨h1, h2, h3, h4⟩ := ih hlo
      have e : (Objective.init p q : Objective X (NDArray ℝ)).runHooks .shipped fn (l ++ [o]) =
          ((Objective.init p q : Objective X (NDArray ℝ)).runHooks .shipped fn l).stepHooks .shipped fn o := by simp [Objective.runHooks]
      rw [e]
      cases o with
      | f x => rw [Objective.stepHooks, key _ h1 h4]; exact ⟨h1, h2, h3, h4⟩
      | setPrintEvery n => exact absurd (by simp) (hl n)
      | setLogEvery n => exact ⟨h1, h2, h3, h4⟩
      | reset => exact ⟨rfl, rfl, h3, h4⟩
      | resetIterationCount => exact ⟨rfl, h2, h3, h4⟩
      | resetLog => exact ⟨h1, rfl, h3, h4⟩
  exact ⟨inv.1, inv.2.1, inv.2.2.1, fun x => by rw [key s inv.1 inv.2.2.2]⟩

/-- **C88, printing off.**  With `print_every` zero or negative the same objective works, whatever happened before: `f` returns its value. -/
theorem C88_unblocked (fn : X → Except Err (NDArray ℝ)) (s : Objective X (NDArray ℝ)) {n : ℤ} (hn : n ≤ 0) (x : X) :
    ((s.stepHooks .shipped fn (.setPrintEvery n)).evalHooks .shipped fn x).2 = fn x := by
  cases hv : fn x with
  | error e => rw [(C88_call .shipped fn _ x).1 e hv]
  | ok v =>
    rw [(C88_call .shipped fn _ x).2.2.2 v hv (fun h => absurd h.1 (by simp [Objective.stepHooks, Objective.step]; omega)) (fun _ => rfl), C57_value, hv]

/-- Non-vacuity of C88: an objective that returns a `(1,)` array; it is blocked until printing is switched off. -/
example : let fn : ℝ → Except Err (NDArray ℝ) := fun x => .ok (vec [x * x])
    (∀ x v, fn x = .ok v → v.shape ≠ []) ∧
    ((Objective.init 1 1 : Objective ℝ (NDArray ℝ)).runHooks .shipped fn [.f 1, .f 2, .setPrintEvery 0, .f 3]).log = [(0, 3, vec [3 * 3])] := by
  refine ⟨?_, ?_⟩
  · rintro x v h; cases h; simp [vec]
  · simp [Objective.runHooks, Objective.stepHooks, Objective.step, Objective.evalHooks, Objective.init, Hooks.shipped, vec]

end Paragami
