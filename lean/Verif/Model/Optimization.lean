import Verif.Model.LinAlg

/-!
# `optimization_lib.py`

Numbers are exact reals: the theorems are about finite values and positive (truncated) eigenvalues, where numpy returns no `inf` or
`NaN`.  Automatic differentiation (`autograd.hessian` and the derivatives of `OptimizationObjective`) is an external call.
-/

namespace Paragami

namespace Optimization
open NDArray LinAlg

/-! ### Arrays as objects

For the two places where it matters whether an array is copied. -/

/-- The float arrays that exist; an array object is its number in the list. -/
structure Mem where
  cells : List (List ℝ)

/-- The contents of an array. -/
def Mem.read (m : Mem) (a : Nat) : List ℝ := m.cells.getD a []
/-- An in-place write. -/
def Mem.write (m : Mem) (a : Nat) (v : List ℝ) : Mem := ⟨m.cells.set a v⟩
/-- A new array. -/
def Mem.alloc (m : Mem) (v : List ℝ) : Mem × Nat := (⟨m.cells ++ [v]⟩, m.cells.length)

/-! ### Eigenvalues -/

/-- A threshold: a real or a complex number. -/
inductive Threshold where
  | real (x : ℝ)
  | complex (re im : ℝ)

noncomputable section

open Classical in
/-- `np.isreal(t)` and then `float(t)`, which raises `TypeError` for a complex number even if its imaginary part is zero. -/
def Threshold.toFloat (msg : String) : Threshold → Except Err ℝ
  | .real x => .ok x
  | .complex _ im => if im = 0 then .error .typeError else .error (.valueError msg)

open Classical in
/-- `v[np.real(v) <= t] = t`. -/
def raiseTo (t : ℝ) (v : List ℝ) : List ℝ := v.map fun x => if x ≤ t then t else x
open Classical in
/-- `v[np.real(v) >= t] = t`. -/
def lowerTo (t : ℝ) (v : List ℝ) : List ℝ := v.map fun x => if x ≥ t then t else x

/-- optimization_lib.py:16-45 `truncate_eigenvalues` on the array number `a`.  The array holds floats (an integer array would round
the thresholds); other arrays are untouched by definition of `write`. -/
def truncateIn (m : Mem) (a : Nat) (evMin evMax : Option Threshold) : Except Err (Mem × Nat) := do
  let (m, b) := m.alloc (m.read a)
  let m ← match evMin with
    | none => pure m
    | some t => do
      let t ← t.toFloat "ev_min must be real-valued."
      pure (m.write b (raiseTo t (m.read b)))
  let m ← match evMax with
    | none => pure m
    | some t => do
      let t ← t.toFloat "ev_max must be real-valued."
      pure (m.write b (lowerTo t (m.read b)))
  return (m, b)

/-- The same on values, when who owns the array does not matter. -/
def truncate (evals : List ℝ) (evMin evMax : Option Threshold) : Except Err (List ℝ) := do
  let (m, b) ← truncateIn ⟨[evals]⟩ 0 evMin evMax
  return m.read b

/-- A function between arrays. -/
abbrev Op := NDArray ℝ → Except Err (NDArray ℝ)

/-- optimization_lib.py:48-95 `transform_eigenspace`.  `transform_function` is called once; the operator is the returned closure, for
vectors. -/
def transformEigenspace (eigvecs eigvals : NDArray ℝ) (transform : NDArray ℝ → NDArray ℝ) : Except Err Op := do
  if eigvecs.ndim ≠ 2 then throw (.valueError "``eigvecs`` must be 2d.")
  if eigvals.ndim ≠ 1 then throw (.valueError "``eigvals`` must be 1d.")
  if eigvecs.shape[1]? ≠ eigvals.shape[0]? then
    throw (.valueError "The columns of ``eigvecs`` and length of ``eigvals`` must match.")
  let newEigvals := transform eigvals
  return fun v => do
    let loadings ← matmul (← transpose eigvecs) v
    let scaled ← mul (newEigvals.map (· - 1)) loadings
    add v (← matmul eigvecs scaled)

/-- `0.5 * (mat + mat.T)` (optimization_lib.py:109).  Two shapes `(n, m)` and `(m, n)` broadcast if they are equal or one of the
dimensions is 1. -/
def symmetrize (a : NDArray ℝ) : Except Err (NDArray ℝ) :=
  match a.shape with
  | [n, m] =>
    let at' := fun (i j : Nat) => a.data.getD ((if n = 1 then 0 else i) * m + if m = 1 then 0 else j) 0
    let out := fun k => ofMatrix (n := k) (m := k) fun i j => 1 / 2 * (at' i j + at' j i)
    if n = m then .ok (out n)
    else if n = 1 then .ok (out m)
    else if m = 1 then .ok (out n)
    else .error (.valueError "operands could not be broadcast together")
  | _ => .error .unmodelled

/-- `np.linalg.eigh`, for each size: eigenvalues and a matrix whose columns are the eigenvectors. -/
abbrev Eigh := ∀ n : Nat, Matrix (Fin n) (Fin n) ℝ → (Fin n → ℝ) × Matrix (Fin n) (Fin n) ℝ

/-- optimization_lib.py:98-119 `_get_sym_matrix_inv_sqrt_funcs`: (square root, inverse square root). -/
def symMatrixInvSqrtFuncs (eigh : Eigh) (mat : NDArray ℝ) (evMin evMax : Option Threshold) : Except Err (Op × Op) := do
  let sym ← symmetrize (atleast2d mat)
  let n ← sym.len
  let (d, U) := eigh n (toMatrix n n sym)
  let d ← truncate (List.ofFn d) evMin evMax
  let sqrt ← transformEigenspace (ofMatrix U) (vec d) (·.map Real.sqrt)
  let invSqrt ← transformEigenspace (ofMatrix U) (vec d) (·.map fun x => 1 / Real.sqrt x)
  return (sqrt, invSqrt)

/-- optimization_lib.py:122-142 `_get_matrix_from_operator`, for operators that return vectors of one length (`np.vstack` of nothing
raises `ValueError`, and so do rows of different lengths). -/
def matrixFromOperator (f : Op) (dim : Nat) : Except Err (NDArray ℝ) := do
  let rows ← mapE (fun i => f (vec ((List.replicate dim 0).set i 1))) (List.range dim)
  match rows with
  | [] => throw (.valueError "need at least one array to concatenate")
  | r :: _ =>
    match r.shape with
    | [k] =>
      if rows.all (fun s => s.shape == r.shape) then transpose ⟨[dim, k], rows.flatMap (·.data)⟩
      else throw (.valueError "all the input array dimensions must match")
    | _ => throw .unmodelled

/-! ### `PreconditionedFunction` -/

/-- A matrix argument: a numpy array or a scipy sparse matrix. -/
structure MatArg where
  arr : NDArray ℝ
  sparse : Bool

/-- The attributes. -/
structure Precond where
  aTimes : Op
  aInvTimes : Op

/-- optimization_lib.py:194-195 `set_identitity_preconditioner` (also what `__init__` does). -/
def Precond.init : Precond := ⟨.ok, .ok⟩

/-- autograd_supplement_lib.py:94-102 the first function `get_sparse_product` returns. -/
def sparseTimes (z : NDArray ℝ) : Op := fun b =>
  let b := b.atleast1d
  if b.ndim > 2 then .error (.valueError "The argument must be at most two dimensional.") else matmul z b

/-- autograd_supplement_lib.py:90-92: the check on construction. -/
def checkSparse (z : NDArray ℝ) : Except Err Unit :=
  if z.ndim ≠ 2 then .error (.valueError "get_sparse_product can only be used with 2d arrays.") else .ok ()

/-- `scipy.sparse.linalg.inv`: the inverse; what happens for a singular or non-square matrix depends on the version of scipy. -/
def sparseInv (a : NDArray ℝ) : Except Err (NDArray ℝ) :=
  match inv a with
  | .ok b => .ok b
  | .error _ => .error .unmodelled

/-- optimization_lib.py:197-221 `set_preconditioner_matrix`.  A raise leaves the object as it was. -/
def Precond.setMatrix (a : MatArg) (aInv : Option MatArg) : Except Err Precond :=
  if a.sparse then do
    let ai ← match aInv with
      | none => sparseInv a.arr
      | some b => pure b.arr
    checkSparse a.arr
    checkSparse ai
    return ⟨sparseTimes a.arr, sparseTimes ai⟩
  else do
    let ai ← match aInv with
      | none => inv a.arr
      | some b => pure b.arr
    return ⟨matmul a.arr, matmul ai⟩

/-- optimization_lib.py:244-291 `set_preconditioner_with_hessian`; `autoHessian` is `autograd.hessian(self._original_fun)`. -/
def Precond.withHessian (eigh : Eigh) (autoHessian : NDArray ℝ → Except Err MatArg) (x : Option (NDArray ℝ)) (hessian : Option MatArg)
    (evMin evMax : Option Threshold) : Except Err Precond := do
  if x.isSome ∧ hessian.isSome then throw (.valueError "You must specify x or hessian but not both.")
  let h ← match x, hessian with
    | none, none => throw (.valueError "You must specify either x or hessian.")
    | some x, none => autoHessian x
    | _, some h => pure h
  if h.sparse then throw (.notImplementedError "``set_preconditioner_with_hessian`` no longer works with sparse Hessians directly.")
  let (sqrt, invSqrt) ← symMatrixInvSqrtFuncs eigh h.arr evMin evMax
  return ⟨invSqrt, sqrt⟩

/-- optimization_lib.py:293-302 `precondition`. -/
def Precond.precondition (s : Precond) : Op := s.aInvTimes
/-- optimization_lib.py:304-310 `unprecondition`. -/
def Precond.unprecondition (s : Precond) : Op := s.aTimes

/-- optimization_lib.py:324-329 `__call__`. -/
def Precond.call {Y : Type} (s : Precond) (f : NDArray ℝ → Except Err Y) (xc : NDArray ℝ) : Except Err Y := do
  f (← s.unprecondition xc)

open Classical in
/-- optimization_lib.py:230-235 `check_preconditioner`. -/
def Precond.check (s : Precond) (v : NDArray ℝ) (tol : ℝ) : Except Err Unit := do
  let w ← s.aTimes (← s.aInvTimes v)
  let d ← sub v w
  if decide (norm d > tol) then throw (.valueError "``a_times`` does not invert ``a_inv_times``.")

/-- optimization_lib.py:312-316 `get_preconditioner`. -/
def Precond.matrix (s : Precond) (dim : Nat) : Except Err (NDArray ℝ) := matrixFromOperator s.aTimes dim
/-- optimization_lib.py:318-322 `get_preconditioner_inv`. -/
def Precond.matrixInv (s : Precond) (dim : Nat) : Except Err (NDArray ℝ) := matrixFromOperator s.aInvTimes dim

/-- A method call that may change the preconditioner. -/
inductive PrecondOp where
  | setIdentity
  | setFunctions (aTimes aInvTimes : Op)
  | setMatrix (a : MatArg) (aInv : Option MatArg)
  /-- the deprecated `set_preconditioner` (optimization_lib.py:237-242), which warns and calls `set_preconditioner_matrix` -/
  | setDeprecated (a : MatArg) (aInv : Option MatArg)
  | withHessian (x : Option (NDArray ℝ)) (hessian : Option MatArg) (evMin evMax : Option Threshold)
  | check (v : NDArray ℝ) (tol : ℝ)

/-- One call: the new attributes, or the exception. -/
def Precond.step (eigh : Eigh) (autoHessian : NDArray ℝ → Except Err MatArg) (s : Precond) : PrecondOp → Except Err Precond
  | .setIdentity => .ok Precond.init
  | .setFunctions a b => .ok ⟨a, b⟩
  | .setMatrix a b => setMatrix a b
  | .setDeprecated a b => setMatrix a b
  | .withHessian x h l u => withHessian eigh autoHessian x h l u
  | .check v tol => do s.check v tol; return s

/-- A history: a call that raises changes nothing. -/
def Precond.run (eigh : Eigh) (autoHessian : NDArray ℝ → Except Err MatArg) : Precond → List PrecondOp → Precond
  | s, [] => s
  | s, o :: l =>
    match s.step eigh autoHessian o with
    | .ok s' => run eigh autoHessian s' l
    | .error _ => run eigh autoHessian s l

/-! ### `OptimizationObjective` -/

/-- The attributes, and what has been printed.  `X` is the type of the points, `Y` of the values. -/
structure Objective (X Y : Type) where
  numEvals : Nat
  log : List (Nat × X × Y)
  printEvery : ℤ
  logEvery : ℤ
  printed : List (Nat × Y)

/-- optimization_lib.py:367-388 `__init__`. -/
def Objective.init {X Y : Type} (printEvery logEvery : ℤ) : Objective X Y := ⟨0, [], printEvery, logEvery, []⟩

/-- A method call. -/
inductive ObjOp (X : Type) where
  | f (x : X)
  | setPrintEvery (n : ℤ)
  | setLogEvery (n : ℤ)
  | reset
  | resetIterationCount
  | resetLog

/-- optimization_lib.py:463-470 `f`: the new state, and the outcome. -/
def Objective.eval {X Y : Type} (s : Objective X Y) (fn : X → Except Err Y) (x : X) : Objective X Y × Except Err Y :=
  match fn x with
  | .error e => (s, .error e)
  | .ok v =>
    ({ s with
        printed := if 0 < s.printEvery ∧ (s.numEvals : ℤ) % s.printEvery = 0 then s.printed ++ [(s.numEvals, v)] else s.printed
        log := if 0 < s.logEvery ∧ (s.numEvals : ℤ) % s.logEvery = 0 then s.log ++ [(s.numEvals, x, v)] else s.log
        numEvals := s.numEvals + 1 }, .ok v)

/-- optimization_lib.py:390-470: one method call. -/
def Objective.step {X Y : Type} (fn : X → Except Err Y) (s : Objective X Y) : ObjOp X → Objective X Y
  | .f x => (s.eval fn x).1
  | .setPrintEvery n => { s with printEvery := n }
  | .setLogEvery n => { s with logEvery := n }
  | .reset => { s with numEvals := 0, log := [] }
  | .resetIterationCount => { s with numEvals := 0 }
  | .resetLog => { s with log := [] }

/-- A history of method calls. -/
def Objective.run {X Y : Type} (fn : X → Except Err Y) (s : Objective X Y) (l : List (ObjOp X)) : Objective X Y :=
  l.foldl (Objective.step fn) s

/-! Printing and logging can raise: `print_value` and `log_value` may be overloaded, and the format of the former is for numbers. -/

/-- `print_value` and `log_value`: what they raise, if they do. -/
structure Hooks (X Y : Type) where
  display : Nat → X → Y → Except Err Unit
  record : Nat → X → Y → Except Err Unit

/-- optimization_lib.py:427-441 `print_value`: `'{:0.8f}'.format(f_val)` raises `TypeError` for an array with axes; one without is
formatted like its entry.  optimization_lib.py:446-461 `log_value` does not raise. -/
def Hooks.shipped {X : Type} : Hooks X (NDArray ℝ) where
  display := fun _ _ v => if v.shape = [] then .ok () else .error .typeError
  record := fun _ _ _ => .ok ()

/-- optimization_lib.py:463-470 `f` with these: the new state, and the outcome. -/
def Objective.evalHooks {X Y : Type} (h : Hooks X Y) (s : Objective X Y) (fn : X → Except Err Y) (x : X) : Objective X Y × Except Err Y :=
  match fn x with
  | .error e => (s, .error e)
  | .ok v =>
    let shows := decide (0 < s.printEvery ∧ (s.numEvals : ℤ) % s.printEvery = 0)
    let logs := decide (0 < s.logEvery ∧ (s.numEvals : ℤ) % s.logEvery = 0)
    match (if shows then h.display s.numEvals x v else .ok ()) with
    | .error e => (s, .error e)
    | .ok _ =>
      let s := if shows then { s with printed := s.printed ++ [(s.numEvals, v)] } else s
      match (if logs then h.record s.numEvals x v else .ok ()) with
      | .error e => (s, .error e)
      | .ok _ =>
        let s := if logs then { s with log := s.log ++ [(s.numEvals, x, v)] } else s
        ({ s with numEvals := s.numEvals + 1 }, .ok v)

/-- One method call. -/
def Objective.stepHooks {X Y : Type} (h : Hooks X Y) (fn : X → Except Err Y) (s : Objective X Y) : ObjOp X → Objective X Y
  | .f x => (s.evalHooks h fn x).1
  | o => s.step fn o

/-- A history of method calls; exceptions are caught by the caller. -/
def Objective.runHooks {X Y : Type} (h : Hooks X Y) (fn : X → Except Err Y) (s : Objective X Y) (l : List (ObjOp X)) : Objective X Y :=
  l.foldl (Objective.stepHooks h fn) s

/-! The same with array objects: the log keeps the object, the objective sees its contents. -/

/-- A method call on an array object, or an in-place write to one by the caller. -/
inductive MemOp where
  | call (o : ObjOp Nat)
  | mutate (a : Nat) (v : List ℝ)

/-- The objective function as a function of the contents. -/
def Mem.step {Y : Type} (fn : List ℝ → Except Err Y) (s : Mem × Objective Nat Y) : MemOp → Mem × Objective Nat Y
  | .call o => (s.1, s.2.step (fun a => fn (s.1.read a)) o)
  | .mutate a v => (s.1.write a v, s.2)

/-- A history. -/
def Mem.run {Y : Type} (fn : List ℝ → Except Err Y) (s : Mem × Objective Nat Y) (l : List MemOp) : Mem × Objective Nat Y :=
  l.foldl (Mem.step fn) s

end

end Optimization

end Paragami
