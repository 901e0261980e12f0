import Verif.Model.PrecondMemory

/-!
# Specifications about the arrays a `PreconditionedFunction` holds on to
-/

namespace Paragami

namespace Spec
open Optimization

/-- The contents of the array a call returned. -/
def outcome (r : Except Err Nat × Heap) : Except Err (NDArray ℝ) := r.1.map fun i => (r.2.read i).arr

/-- Anything but setting the preconditioner: using it, checking it, and writes by the caller to any object. -/
def Keeps : HeldOp → Prop
  | .check _ _ | .precondition _ | .unprecondition _ | .call _ | .mutate _ _ => True
  | _ => False

/-- How a matrix multiplies: sparse matrices go through `get_sparse_product`. -/
def timesOf (a : MatArg) (arr : NDArray ℝ) : Op := if a.sparse then sparseTimes arr else LinAlg.matmul arr

/-- The inverse `set_preconditioner_matrix` computes when none is given. -/
noncomputable def invOf (a : MatArg) : Except Err (NDArray ℝ) := if a.sparse then sparseInv a.arr else LinAlg.inv a.arr

/-- A function that only writes to the array it is given and to new ones. -/
def WritesArgument {Y : Type} (f : Nat → HM Y) : Prop :=
  ∀ x h i, i < h.length → i ≠ x → (f x h).2.read i = h.read i

/-- A function whose result depends on the contents of its argument only. -/
def Reads {Y : Type} (f : Nat → HM Y) (g : NDArray ℝ → Except Err Y) : Prop := ∀ x h, (f x h).1 = g (h.read x).arr

/-- The function that overwrites its argument: `x[...] = y`. -/
def overwriteArgument (y : MatArg) : Nat → HM Unit := fun x h => (.ok (), h.set x y)

/-- Between two moments objects have been made and none of the old ones has been written to. -/
def Unwritten (h h' : Heap) : Prop := h <+: h'

/-- The operator `o` computes `op`, as long as the objects of `h` are not written to: it writes to nothing, and returns an object that
exists. -/
def Represents (h : Heap) (o : Held) (op : Op) : Prop :=
  ∀ h' v, Unwritten h h' → v < h'.length →
    outcome (o.apply v h') = op (h'.read v).arr ∧ Unwritten h' (o.apply v h').2 ∧
    ∀ i, (o.apply v h').1 = .ok i → i < (o.apply v h').2.length

/-- `s` acts as the preconditioner `P` of the value-level model. -/
def Acts (h : Heap) (s : HeldPrecond) (P : Precond) : Prop := Represents h s.aTimes P.aTimes ∧ Represents h s.aInvTimes P.aInvTimes

/-- A use of the preconditioner. -/
def Uses : HeldOp → Option Nat
  | .precondition v | .unprecondition v | .call v => some v
  | _ => none

/-- A history in which the caller writes to nothing, and the same one with the contents of the objects instead of the objects.  Uses of the
preconditioner leave no trace. -/
inductive Narrates {Y : Type} (eigh : Eigh) (autoHessian : NDArray ℝ → Except Err MatArg) (f : Nat → HM Y) :
    HeldPrecond → Heap → List HeldOp → List PrecondOp → Prop
  | nil {s h} : Narrates eigh autoHessian f s h [] []
  | use {s h o l l'} (v : Nat) (ho : Uses o = some v) (hv : v < h.length)
      (hl : Narrates eigh autoHessian f (s.step eigh autoHessian f h o).1 (s.step eigh autoHessian f h o).2 l l') :
      Narrates eigh autoHessian f s h (o :: l) l'
  | identity {s h l l'} (hl : Narrates eigh autoHessian f ⟨.identity, .identity⟩ h l l') :
      Narrates eigh autoHessian f s h (.setIdentity :: l) (.setIdentity :: l')
  | functions {s h a b A B l l'} (ha : Represents h (.user a) A) (hb : Represents h (.user b) B)
      (hl : Narrates eigh autoHessian f ⟨.user a, .user b⟩ h l l') :
      Narrates eigh autoHessian f s h (.setFunctions a b :: l) (.setFunctions A B :: l')
  | matrix {s h o a b l l'} (ho : o = .setMatrix a b ∨ o = .setDeprecated a b) (ha : a < h.length) (hb : ∀ c, b = some c → c < h.length)
      (hl : Narrates eigh autoHessian f (s.step eigh autoHessian f h o).1 h l l') :
      Narrates eigh autoHessian f s h (o :: l) (.setMatrix (h.read a) (b.map h.read) :: l')
  | hessian {s h x a lo hi l l'} (hl : Narrates eigh autoHessian f (s.step eigh autoHessian f h (.withHessian x a lo hi)).1 h l l') :
      Narrates eigh autoHessian f s h (.withHessian x a lo hi :: l)
        (.withHessian (x.map fun i => (h.read i).arr) (a.map h.read) lo hi :: l')
  | check {s h v tol l l'} (hv : v < h.length) (hl : Narrates eigh autoHessian f s (s.check v tol h).2 l l') :
      Narrates eigh autoHessian f s h (.check v tol :: l) (.check (h.read v).arr tol :: l')

end Spec

end Paragami
