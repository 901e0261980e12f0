import Verif.Model.Optimization

/-!
# Derivatives of objectives that have state (`optimization_lib.py`)

`OptimizationObjective` hands `self._objective_fun` to autograd, which calls it on a box that holds the point.  If that function is the method `f` of
another `OptimizationObjective`, it counts, prints and logs.  What autograd computes from the calls is an external function.
-/

namespace Paragami

namespace Optimization
open NDArray

/-- A number or array, or autograd's box around one (`autograd.numpy.numpy_boxes.ArrayBox`). -/
inductive Traced (α : Type) where
  | plain (a : α)
  | boxed (a : α)
  deriving DecidableEq

/-- A Python function of one argument with state `S`: what a call does to the state and what comes out. -/
structure Callable (S X Y : Type) where
  call : S → Traced X → S × Except Err (Traced Y)

/-- The three derivatives of optimization_lib.py:380-383. -/
inductive Kind where
  | grad
  | hessian
  | hessianVectorProduct
  deriving DecidableEq

/-- autograd evaluates the function `n` times on a box around the point, up to the first exception. -/
def Callable.trace {S X Y : Type} (c : Callable S X Y) (x : X) : Nat → S → S × Except Err (List (Traced Y))
  | 0, w => (w, .ok [])
  | n + 1, w =>
    match c.call w (.boxed x) with
    | (w, .error e) => (w, .error e)
    | (w, .ok v) =>
      match c.trace x n w with
      | (w, .error e) => (w, .error e)
      | (w, .ok l) => (w, .ok (v :: l))

/-- autograd: how often it calls the function for a derivative, and what it makes of the outcomes. -/
structure Autograd (X Y D : Type) where
  calls : Kind → Nat
  finish : Kind → X → List (Traced Y) → Except Err D

/-- `autograd.grad(fun)(x)`, `autograd.hessian(fun)(x)`, `autograd.hessian_vector_product(fun)(x, v)` for a fixed `v`. -/
def Autograd.derive {S X Y D : Type} (a : Autograd X Y D) (c : Callable S X Y) (k : Kind) (w : S) (x : X) : S × Except Err D :=
  match c.trace x (a.calls k) w with
  | (w, .error e) => (w, .error e)
  | (w, .ok l) => (w, a.finish k x l)

/-- optimization_lib.py:427-441 `print_value`, optimization_lib.py:446-461 `log_value`: a box has no `__format__` of its own, and that of `object`
raises `TypeError` for `0.8f`; numbers as in `Hooks.shipped`. -/
def Hooks.traced {X : Type} : Hooks (Traced X) (Traced (NDArray ℝ)) where
  display := fun n x v =>
    match v with
    | .plain v => Hooks.shipped.display n x v
    | .boxed _ => .error .typeError
  record := fun _ _ _ => .ok ()

/-- optimization_lib.py:463-470 `f` as a function with state: its own attributes and the state of the objective function. -/
def Objective.callable {S X Y : Type} (h : Hooks (Traced X) (Traced Y)) (c : Callable S X Y) :
    Callable (Objective (Traced X) (Traced Y) × S) X Y where
  call := fun ⟨s, w⟩ x =>
    let r := c.call w x
    let t := s.evalHooks h (fun _ => r.2) x
    ((t.1, r.1), t.2)

/-- A method call: one of `ObjOp`, or a derivative. -/
inductive FullOp (X : Type) where
  | method (o : ObjOp X)
  | derivative (k : Kind) (x : X)

/-- optimization_lib.py:367-470: one method call; the derivatives are of `self._objective_fun` (optimization_lib.py:380-383). -/
def Objective.stepFull {S X Y D : Type} (a : Autograd X Y D) (h : Hooks (Traced X) (Traced Y)) (c : Callable S X Y)
    (s : Objective (Traced X) (Traced Y) × S) : FullOp X → Objective (Traced X) (Traced Y) × S
  | .method (.f x) => ((Objective.callable h c).call s (.plain x)).1
  | .method (.setPrintEvery n) => ({ s.1 with printEvery := n }, s.2)
  | .method (.setLogEvery n) => ({ s.1 with logEvery := n }, s.2)
  | .method .reset => ({ s.1 with numEvals := 0, log := [] }, s.2)
  | .method .resetIterationCount => ({ s.1 with numEvals := 0 }, s.2)
  | .method .resetLog => ({ s.1 with log := [] }, s.2)
  | .derivative k x => (s.1, (a.derive c k s.2 x).1)

/-- What a derivative gives. -/
def Objective.derivative {S X Y D : Type} (a : Autograd X Y D) (c : Callable S X Y) (s : Objective (Traced X) (Traced Y) × S) (k : Kind) (x : X) :
    Except Err D :=
  (a.derive c k s.2 x).2

/-- A history of method calls; exceptions are caught by the caller. -/
def Objective.runFull {S X Y D : Type} (a : Autograd X Y D) (h : Hooks (Traced X) (Traced Y)) (c : Callable S X Y)
    (s : Objective (Traced X) (Traced Y) × S) (l : List (FullOp X)) : Objective (Traced X) (Traced Y) × S :=
  l.foldl (Objective.stepFull a h c) s

/-- A function without state. -/
def Callable.pure {X Y : Type} (g : Traced X → Except Err (Traced Y)) : Callable Unit X Y := ⟨fun _ x => ((), g x)⟩

end Optimization

end Paragami
