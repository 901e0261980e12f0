import Verif.Model.PyFloat
import Mathlib.Algebra.BigOperators.Group.List.Basic

/-!
# Exceptions, numpy arrays, folded values

numpy arrays are a shape plus the entries in row-major (C) order.  Functions that can raise return `Except Err`.
-/

namespace Paragami

/-- Python exceptions.  Messages keep the static text of the source (formatted-in values are dropped). -/
inductive Err where
  | valueError (msg : String)
  | keyError (msg : String)
  | indexError
  | typeError
  | attributeError
  | assertionError
  | notImplementedError (msg : String)
  | linAlgError
  | fileNotFoundError
  | overflowError
  /-- situations the model deliberately leaves open (documented at each use) -/
  | unmodelled
deriving DecidableEq, Repr

/-- List comprehension `[f(x) for x in l]` where `f` may raise: the first exception stops the loop. -/
def mapE {ε α β : Type _} (f : α → Except ε β) : List α → Except ε (List β)
  | [] => .ok []
  | a :: l =>
    match f a with
    | .error e => .error e
    | .ok b =>
      match mapE f l with
      | .error e => .error e
      | .ok bs => .ok (b :: bs)

/-- A numpy array: shape and row-major entries. -/
structure NDArray (α : Type _) where
  shape : List Nat
  data : List α
deriving DecidableEq, Repr

namespace NDArray
variable {α β : Type _}

/-- Every actual numpy array has as many entries as its shape says. -/
def WF (a : NDArray α) : Prop := a.data.length = a.shape.prod

/-- `a.ndim`. -/
def ndim (a : NDArray α) : Nat := a.shape.length
/-- `a.size`. -/
def size (a : NDArray α) : Nat := a.data.length
/-- A one-dimensional array. -/
def vec (l : List α) : NDArray α := ⟨[l.length], l⟩

/-- `np.atleast_1d`: a 0-d array (or Python scalar) becomes a length-one vector. -/
def atleast1d (a : NDArray α) : NDArray α :=
  match a.shape with
  | [] => ⟨[1], a.data⟩
  | _ => a

/-- `np.reshape(a, s)`; raises `ValueError` when the sizes differ. -/
def reshape (a : NDArray α) (s : List Nat) : Except Err (NDArray α) :=
  if a.data.length = s.prod then .ok ⟨s, a.data⟩ else .error (.valueError "cannot reshape array")

/-- `a.flatten()`: a new one-dimensional array. -/
def flatten (a : NDArray α) : NDArray α := vec a.data

/-- Elementwise operation. -/
def map (f : α → β) (a : NDArray α) : NDArray β := ⟨a.shape, a.data.map f⟩

/-- `len(a)`: the first dimension; `TypeError` for a 0-d array. -/
def len (a : NDArray α) : Except Err Nat :=
  match a.shape with
  | [] => .error .typeError
  | n :: _ => .ok n

/-- `v[lo:lo+n]` on a one-dimensional array (Python slices clamp at the end). -/
def slice (a : NDArray α) (lo n : Nat) : NDArray α := vec ((a.data.drop lo).take n)

/-- `np.ravel_multi_index(idx, shape)`: the row-major rank of a multi-index. -/
def ravel : (shape idx : List Nat) → Nat
  | _ :: s, i :: is => i * s.prod + ravel s is
  | _, _ => 0

/-- `itertools.product(*[range(0, t) for t in shape])`: multi-indices, last index fastest. -/
def productRanges : List Nat → List (List Nat)
  | [] => [[]]
  | n :: s => (List.range n).flatMap fun i => (productRanges s).map (i :: ·)

/-- Is `idx` a legal (partial) multi-index for `shape`? -/
def inRange : (shape idx : List Nat) → Bool
  | _, [] => true
  | [], _ :: _ => false
  | n :: s, i :: is => decide (i < n) && inRange s is

/-- `a[idx]` for a tuple of non-negative integers indexing the leading axes; `IndexError` when out of range. -/
def getItem (a : NDArray α) (idx : List Nat) : Except Err (NDArray α) :=
  if inRange a.shape idx then
    let rest := a.shape.drop idx.length
    .ok ⟨rest, (a.data.drop (ravel (a.shape.take idx.length) idx * rest.prod)).take rest.prod⟩
  else .error .indexError

/-- `np.array([a1, a2, ...])` of arrays of one common shape (the empty list gives shape `(0,)`).
Arrays of different shapes raise `ValueError` (numpy >= 1.24; never reached from paragami). -/
def stack (l : List (NDArray α)) : Except Err (NDArray α) :=
  match l with
  | [] => .ok ⟨[0], []⟩
  | a :: as =>
    if as.all (fun b => b.shape == a.shape) then
      .ok ⟨l.length :: a.shape, l.flatMap (·.data)⟩
    else .error (.valueError "inhomogeneous shape")

/-- `np.hstack` of one-dimensional arrays.  autograd's `hstack` indexes the first element of the list, so an empty
list raises (`IndexError`; plain numpy raises `ValueError`). -/
def hstack (l : List (NDArray α)) : Except Err (NDArray α) :=
  match l with
  | [] => .error .indexError
  | _ => .ok (vec (l.flatMap (·.data)))

/-- `a[mask]` for a boolean mask of the same shape: the entries where the mask is true, in row-major order. -/
def maskSelect (data : List α) (mask : List Bool) : List α :=
  ((data.zip mask).filter (·.2)).map (·.1)

/-- Split row-major data into `n` consecutive rows of length `k` (the last axis of an `(..., k)` array). -/
def rows (n k : Nat) (data : List α) : List (List α) :=
  (List.range n).map fun i => (data.drop (i * k)).take k

end NDArray

/-- A folded value: a numpy array, or (for `PatternDict`) a dictionary of folded values. -/
inductive Val (α : Type _) where
  | arr (a : NDArray α)
  | dict (entries : List (String × Val α))

namespace Val
variable {α : Type _}

/-- Use a folded value where the code requires an array.  Handing a dictionary to an array pattern is a type error in
the model (the exact Python exception depends on numpy's conversion of arbitrary objects). -/
def asArr : Val α → Except Err (NDArray α)
  | arr a => .ok a
  | dict _ => .error .typeError

/-- Use a folded value where the code requires a dictionary (`in`, `[]`). -/
def asDict : Val α → Except Err (List (String × Val α))
  | dict es => .ok es
  | arr _ => .error .typeError
end Val

/-- Element types whose arrays go through `fold(free=False)`: floats, integers (`np.arange` in `flat_indices`) and
booleans (`empty_bool`).  numpy compares them by numeric value. -/
class Elem (α : Type) where
  toFlt : α → Flt

noncomputable instance : Elem Flt := ⟨id⟩
noncomputable instance : Elem Nat := ⟨fun n => Flt.fin (n : ℝ)⟩
noncomputable instance : Elem Bool := ⟨fun b => Flt.fin (if b then 1 else 0)⟩

end Paragami
