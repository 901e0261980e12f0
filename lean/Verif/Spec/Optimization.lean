import Mathlib.Analysis.Calculus.FDeriv.Basic
import Verif.Model.Optimization

/-! # What the optimization library is supposed to do -/

namespace Paragami

namespace Spec
open Optimization LinAlg

/-- `x` clamped to `[lo, hi]`, either side optional. -/
noncomputable def clamp (lo hi : Option ℝ) (x : ℝ) : ℝ :=
  let y := match lo with
    | none => x
    | some l => max x l
  match hi with
  | none => y
  | some h => min y h

/-- What `np.linalg.eigh` promises for a symmetric matrix: orthonormal eigenvectors and their eigenvalues. -/
def EighSpec (eigh : Eigh) : Prop :=
  ∀ (n : Nat) (S : Matrix (Fin n) (Fin n) ℝ), S.transpose = S →
    (eigh n S).2.transpose * (eigh n S).2 = 1 ∧ S = (eigh n S).2 * Matrix.diagonal (eigh n S).1 * (eigh n S).2.transpose

/-- An operator that acts on vectors of length `n` as the matrix does. -/
def ActsAs {n m : Nat} (f : Op) (M : Matrix (Fin m) (Fin n) ℝ) : Prop :=
  ∀ v : Fin n → ℝ, f (vecOf v) = .ok (vecOf (M.mulVec v))

/-- The two functions undo each other on vectors of length `n`. -/
def Inverse (s : Precond) (n : Nat) : Prop :=
  ∀ v : Fin n → ℝ, (∃ w : Fin n → ℝ, s.aInvTimes (vecOf v) = .ok (vecOf w) ∧ s.aTimes (vecOf w) = .ok (vecOf v)) ∧
    ∃ w : Fin n → ℝ, s.aTimes (vecOf v) = .ok (vecOf w) ∧ s.aInvTimes (vecOf w) = .ok (vecOf v)

/-- A call that sets the preconditioner (if it does not raise). -/
def IsSetter : PrecondOp → Prop
  | .check _ _ => False
  | _ => True

/-- The second derivative of `f` at `x` is the bilinear form of the matrix: `f` is differentiable near `x` and its derivative is
differentiable at `x` with that derivative. -/
def HasHessianAt {n : Nat} (f : (Fin n → ℝ) → ℝ) (H : Matrix (Fin n) (Fin n) ℝ) (x : Fin n → ℝ) : Prop :=
  (∀ᶠ y in nhds x, DifferentiableAt ℝ f y) ∧
    ∃ B : (Fin n → ℝ) →L[ℝ] ((Fin n → ℝ) →L[ℝ] ℝ), HasFDerivAt (fderiv ℝ f) B x ∧ ∀ v w, B v w = dotProduct v (H.mulVec w)

/-! ### Histories of an `OptimizationObjective` -/

section
variable {X Y : Type} (fn : X → Except Err Y)

/-- Does the call reset the counter? -/
def resetsCount : ObjOp X → Bool
  | .reset => true
  | .resetIterationCount => true
  | _ => false

/-- Does the call clear the log? -/
def resetsLog : ObjOp X → Bool
  | .reset => true
  | .resetLog => true
  | _ => false

/-- Is the call an evaluation that did not raise? -/
def evaluates : ObjOp X → Bool
  | .f x => match fn x with
    | .ok _ => true
    | .error _ => false
  | _ => false

/-- The number of successful evaluations after the last counter reset. -/
def iterations (l : List (ObjOp X)) : Nat := (l.reverse.takeWhile (fun o => !resetsCount o)).countP (evaluates fn)

/-- The value last given to `set_log_every`, or the initial one. -/
def logEveryAt (init : ℤ) (l : List (ObjOp X)) : ℤ :=
  match l.reverse.findSome? (fun o => match o with | .setLogEvery n => some n | _ => none) with
  | some n => n
  | none => init

/-- The value last given to `set_print_every`, or the initial one. -/
def printEveryAt (init : ℤ) (l : List (ObjOp X)) : ℤ :=
  match l.reverse.findSome? (fun o => match o with | .setPrintEvery n => some n | _ => none) with
  | some n => n
  | none => init

/-- What the call number `i` contributes to the log in the end: nothing unless it is a successful evaluation, the log has not been
cleared since, and the iteration number is a multiple of the positive `log_every` at that time. -/
def logEntry (init : ℤ) (l : List (ObjOp X)) (i : Nat) : Option (Nat × X × Y) :=
  match l[i]? with
  | some (.f x) =>
    match fn x with
    | .ok v =>
      if (l.drop (i + 1)).all (fun o => !resetsLog o) ∧ 0 < logEveryAt init (l.take i) ∧
          logEveryAt init (l.take i) ∣ iterations fn (l.take i) then some (iterations fn (l.take i), x, v)
      else none
    | .error _ => none
  | _ => none

/-- What the call number `i` prints. -/
def printEntry (init : ℤ) (l : List (ObjOp X)) (i : Nat) : Option (Nat × Y) :=
  match l[i]? with
  | some (.f x) =>
    match fn x with
    | .ok v =>
      if 0 < printEveryAt init (l.take i) ∧ printEveryAt init (l.take i) ∣ iterations fn (l.take i) then
        some (iterations fn (l.take i), v)
      else none
    | .error _ => none
  | _ => none

end

end Spec

end Paragami
