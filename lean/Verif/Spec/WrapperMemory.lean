import Verif.Model.WrapperMemory
import Verif.Spec.Memory
import Verif.Spec.FunctionPatterns

/-!
# Specifications about the memory that function wrappers pass on
-/

namespace Paragami
namespace Spec
open Memory FunctionPatterns

variable {X : Type}

/-- The cells of an argument. -/
def argCells : MArg X → List Addr
  | .val v => leaves v
  | .other _ => []

/-- The cells of a list of arguments. -/
def cells (l : List (MArg X)) : List Addr := l.flatMap argCells

/-- The cells of keyword arguments. -/
def kwCells (l : MKwargs X) : List Addr := l.flatMap fun e => argCells e.2

/-- The cells of what a function returned, seen as a list of values. -/
def retList : MRet X → List (MArg X)
  | .single a => [a]
  | .tuple l => l

/-- The contents of an argument. -/
def argRead (m : Mem) : MArg X → Arg X
  | .val v => .val (v.map (rd m))
  | .other x => .other x

/-- The contents of a returned value. -/
def retRead (m : Mem) : MRet X → Ret X
  | .single a => .single (argRead m a)
  | .tuple l => .tuple (l.map (argRead m))

/-- Which cells of `args` come out of a wrapper: those of the arguments that are not named, and, when folding, those entries of
the named ones that are folded as non-free values outside a `PatternArray`. -/
def Exposed (folding : Bool) (s : Wrapper) (args : List (MArg X)) (a : Addr) : Prop :=
  (∃ (j : Nat) (b : MArg X), args[j]? = some b ∧ (j : ℤ) ∉ s.nums ∧ a ∈ argCells b) ∨
  (folding = true ∧ ∃ (k : ℤ) (p : Pattern) (fr : Option Bool) (x : NDArray Addr) (i : Nat), Targets s k p fr ∧
    args[k.toNat]? = some (.val (.arr x)) ∧ Pattern.freeWithDefault p.freeDefault fr = .ok false ∧
    (viewMask p)[i]? = some true ∧ x.data[i]? = some a)

/-- A function that writes only to its arguments and to arrays it made itself. -/
def WritesArguments (f : MFn X) : Prop :=
  ∀ args kw m r m', f.call args kw m = .ok (r, m') →
    ∀ a < m.length, a ∉ cells args → a ∉ kwCells kw → rd m' a = rd m a

/-- A function that writes to nothing but arrays it made itself, and computes `g` of the contents of its arguments. -/
def Computes (f : MFn X) (g : Fn X) : Prop :=
  f.named = g.named ∧
  ∀ (args : List (MArg X)) (kw : MKwargs X) (m : Mem), Allocated m (cells args) → Allocated m (kwCells kw) →
    match f.call args kw m with
    | .error e => g.call (args.map (argRead m)) (kw.map fun e => (e.1, argRead m e.2)) = .error e
    | .ok (r, m') => m <+: m' ∧ Allocated m' (cells (retList r)) ∧
        g.call (args.map (argRead m)) (kw.map fun e => (e.1, argRead m e.2)) = .ok (retRead m' r)

/-- The function that overwrites every entry of its positional arguments: `for a in args: a[...] = y`, and returns nothing. -/
def overwrite (x : X) (y : Flt) : MFn X where
  call := fun args _ m => .ok (.single (.other x), write m ((cells args).map fun a => (a, y)))
  named := true

end Spec
end Paragami
