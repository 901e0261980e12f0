import Verif.Model.Optimization

/-!
# `PreconditionedFunction` over array objects

`Model/Optimization.lean` treats matrices as values.  Here arrays are objects that the caller can write to later, so that it can be
said which of them a `PreconditionedFunction` holds on to, and which of them the original function gets to see.  Array objects share no
memory with each other (no views).  `a @ v`, `v + …`, `np.linalg.inv` and `0.5 * (a + a.T)` return new arrays (numpy documentation).
-/

namespace Paragami

namespace Optimization
open NDArray LinAlg

/-- The arrays and sparse matrices that exist; an object is its number in the list. -/
abbrev Heap := List MatArg

/-- The contents of an object. -/
def Heap.read (h : Heap) (a : Nat) : MatArg := h.getD a ⟨⟨[], []⟩, false⟩

/-- Calls that may raise, and read and change objects in any case. -/
abbrev HM (β : Type) := Heap → Except Err β × Heap

/-- A new array for a computed value. -/
def newArray (r : Except Err (NDArray ℝ)) : HM Nat := fun h =>
  match r with
  | .error e => (.error e, h)
  | .ok a => (.ok h.length, h ++ [⟨a, false⟩])

/-- An operator as `PreconditionedFunction` holds it: a closure over nothing, over an object of the caller, over arrays made by the
library that nobody else refers to, or a function of the caller. -/
inductive Held where
  | identity
  | dense (a : Nat)
  | sparse (a : Nat)
  | own (op : Op)
  | user (g : Nat → HM Nat)

/-- A call of the operator with the array object `v`: `lambda x: x` (optimization_lib.py:195), `a @ vec` (optimization_lib.py:207-208 and
218-219), `z_mult` (autograd_supplement_lib.py:94-102), `a_mult` (optimization_lib.py:87-93). -/
def Held.apply (o : Held) (v : Nat) : HM Nat := fun h =>
  match o with
  | .identity => (.ok v, h)
  | .dense a => newArray (matmul (h.read a).arr (h.read v).arr) h
  | .sparse a => newArray (sparseTimes (h.read a).arr (h.read v).arr) h
  | .own op => newArray (op (h.read v).arr) h
  | .user g => g v h

/-- The attributes. -/
structure HeldPrecond where
  aTimes : Held
  aInvTimes : Held

noncomputable section

/-- optimization_lib.py:197-221 `set_preconditioner_matrix`: the closures refer to the objects passed; a computed inverse is new. -/
def HeldPrecond.setMatrix (a : Nat) (aInv : Option Nat) (h : Heap) : Except Err HeldPrecond :=
  if (h.read a).sparse then
    match aInv with
    | none => do
      let ai ← sparseInv (h.read a).arr
      checkSparse (h.read a).arr
      checkSparse ai
      return ⟨.sparse a, .own (sparseTimes ai)⟩
    | some b => do
      checkSparse (h.read a).arr
      checkSparse (h.read b).arr
      return ⟨.sparse a, .sparse b⟩
  else
    match aInv with
    | none => do
      let ai ← inv (h.read a).arr
      return ⟨.dense a, .own (matmul ai)⟩
    | some b => return ⟨.dense a, .dense b⟩

/-- optimization_lib.py:244-291 `set_preconditioner_with_hessian`: everything is computed from the contents of the Hessian. -/
def HeldPrecond.withHessian (eigh : Eigh) (autoHessian : NDArray ℝ → Except Err MatArg) (x hessian : Option Nat)
    (evMin evMax : Option Threshold) (h : Heap) : Except Err HeldPrecond := do
  if x.isSome ∧ hessian.isSome then throw (.valueError "You must specify x or hessian but not both.")
  let hess ← match x, hessian with
    | none, none => throw (.valueError "You must specify either x or hessian.")
    | some x, none => autoHessian (h.read x).arr
    | _, some a => pure (h.read a)
  if hess.sparse then throw (.notImplementedError "``set_preconditioner_with_hessian`` no longer works with sparse Hessians directly.")
  let (sqrt, invSqrt) ← symMatrixInvSqrtFuncs eigh hess.arr evMin evMax
  return ⟨.own invSqrt, .own sqrt⟩

/-- optimization_lib.py:293-302 `precondition`. -/
def HeldPrecond.precondition (s : HeldPrecond) : Nat → HM Nat := s.aInvTimes.apply
/-- optimization_lib.py:304-310 `unprecondition`. -/
def HeldPrecond.unprecondition (s : HeldPrecond) : Nat → HM Nat := s.aTimes.apply

/-- optimization_lib.py:324-329 `__call__`; the original function may read and write any object. -/
def HeldPrecond.call {Y : Type} (s : HeldPrecond) (f : Nat → HM Y) (xc : Nat) : HM Y := fun h =>
  match s.unprecondition xc h with
  | (.error e, h) => (.error e, h)
  | (.ok x, h) => f x h

open Classical in
/-- optimization_lib.py:230-235 `check_preconditioner`. -/
def HeldPrecond.check (s : HeldPrecond) (v : Nat) (tol : ℝ) : HM Unit := fun h =>
  match s.aInvTimes.apply v h with
  | (.error e, h) => (.error e, h)
  | (.ok w, h) =>
    match s.aTimes.apply w h with
    | (.error e, h) => (.error e, h)
    | (.ok u, h) =>
      match sub (h.read v).arr (h.read u).arr with
      | .error e => (.error e, h)
      | .ok d => if decide (norm d > tol) then (.error (.valueError "``a_times`` does not invert ``a_inv_times``."), h) else (.ok (), h)

/-- What a program does: method calls, and in-place writes to its objects. -/
inductive HeldOp where
  | setIdentity
  | setFunctions (aTimes aInvTimes : Nat → HM Nat)
  | setMatrix (a : Nat) (aInv : Option Nat)
  /-- the deprecated `set_preconditioner` (optimization_lib.py:237-242) -/
  | setDeprecated (a : Nat) (aInv : Option Nat)
  | withHessian (x hessian : Option Nat) (evMin evMax : Option Threshold)
  | check (v : Nat) (tol : ℝ)
  | precondition (v : Nat)
  | unprecondition (v : Nat)
  | call (xc : Nat)
  | mutate (a : Nat) (contents : MatArg)

/-- Keep the attributes when the call raised. -/
def HeldPrecond.orElse (s : HeldPrecond) : Except Err HeldPrecond → HeldPrecond
  | .ok s' => s'
  | .error _ => s

/-- One of these, exceptions being caught. -/
def HeldPrecond.step {Y : Type} (eigh : Eigh) (autoHessian : NDArray ℝ → Except Err MatArg) (f : Nat → HM Y) (s : HeldPrecond) (h : Heap) :
    HeldOp → HeldPrecond × Heap
  | .setIdentity => (⟨.identity, .identity⟩, h)
  | .setFunctions a b => (⟨.user a, .user b⟩, h)
  | .setMatrix a b => (s.orElse (setMatrix a b h), h)
  | .setDeprecated a b => (s.orElse (setMatrix a b h), h)
  | .withHessian x a l u => (s.orElse (withHessian eigh autoHessian x a l u h), h)
  | .check v tol => (s, (s.check v tol h).2)
  | .precondition v => (s, (s.precondition v h).2)
  | .unprecondition v => (s, (s.unprecondition v h).2)
  | .call xc => (s, (s.call f xc h).2)
  | .mutate a c => (s, h.set a c)

/-- A history. -/
def HeldPrecond.run {Y : Type} (eigh : Eigh) (autoHessian : NDArray ℝ → Except Err MatArg) (f : Nat → HM Y) :
    HeldPrecond → Heap → List HeldOp → HeldPrecond × Heap
  | s, h, [] => (s, h)
  | s, h, o :: l => let r := s.step eigh autoHessian f h o; run eigh autoHessian f r.1 r.2 l

end

end Optimization

end Paragami
