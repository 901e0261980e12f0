import Verif.Model.FunctionPatterns

/-! # What the function wrappers are supposed to do -/

namespace Paragami

namespace Spec
open FunctionPatterns

/-- Acceptable constructor arguments: one pattern or a vector of them; `free` a single flag, or one flag per pattern (or a vector of
length one); positions, if given, one per pattern and distinct. -/
def GoodArguments (patterns : NDArray Pattern) (free : NDArray (Option Bool)) (nums : Option (NDArray ℤ)) : Prop :=
  patterns.ndim ≤ 1 ∧ (free.shape = [] ∨ free.shape = [1] ∨ free.shape = [patterns.data.length]) ∧
    ∀ a, nums = some a → a.ndim ≤ 1 ∧ a.data.Nodup ∧ a.data.length = patterns.data.length

/-- As the caller wrote it: some pattern `p`, with its flag, goes with position `k`.  A single flag is for all patterns; without
positions the patterns are numbered from zero. -/
def Named (patterns : NDArray Pattern) (free : NDArray (Option Bool)) (nums : Option (NDArray ℤ)) (k : ℤ) (p : Pattern)
    (fr : Option Bool) : Prop :=
  ∃ i : Nat, patterns.data[i]? = some p ∧ (if free.data.length = 1 then free.data[0]? else free.data[i]?) = some fr ∧
    match nums with
    | none => k = i
    | some a => a.data[i]? = some k

/-- A wrapper that the constructor returned for some arguments. -/
def Constructed (s : Wrapper) : Prop :=
  ∃ (P : NDArray Pattern) (F : NDArray (Option Bool)) (flat : Bool) (A : Option (NDArray ℤ)),
    P.WF ∧ F.WF ∧ (∀ a, A = some a → a.WF) ∧ construct P F flat A = .ok s

/-- Pattern number `i` is to transform position `k`. -/
def Targets (s : Wrapper) (k : ℤ) (p : Pattern) (free : Option Bool) : Prop :=
  ∃ i : Nat, s.nums[i]? = some k ∧ s.patterns[i]? = some p ∧ s.free[i]? = some free

/-- `new` has the same length as `old`, the transformed value at each position named, and is the same everywhere else. -/
def Replaced {X : Type} (tr : Pattern → Option Bool → Arg X → Except Err (Arg X)) (s : Wrapper) (old new : List (Arg X)) : Prop :=
  new.length = old.length ∧
  (∀ k p free, Targets s k p free → ∃ a v, 0 ≤ k ∧ old[k.toNat]? = some a ∧ tr p free a = .ok v ∧ new[k.toNat]? = some v) ∧
  (∀ j : Nat, (j : ℤ) ∉ s.nums → new[j]? = old[j]?)

/-- Python's reading of an index into something of length `n`. -/
def pyIndex (n : Nat) (k : ℤ) : ℤ := if k < 0 then k + n else k

/-- `Replaced` with negative positions counted from the end. -/
def ReplacedPy {X : Type} (tr : Pattern → Option Bool → Arg X → Except Err (Arg X)) (s : Wrapper) (old new : List (Arg X)) : Prop :=
  new.length = old.length ∧
  (∀ k p free, Targets s k p free → ∃ a v, 0 ≤ pyIndex old.length k ∧ old[(pyIndex old.length k).toNat]? = some a ∧
    tr p free a = .ok v ∧ new[(pyIndex old.length k).toNat]? = some v) ∧
  (∀ j : Nat, (∀ k ∈ s.nums, pyIndex old.length k ≠ j) → new[j]? = old[j]?)

/-- The negative positions that work, in a call with `n` arguments: none is -1, and all stand for earlier arguments than the
non-negative ones. -/
def GoodNegatives (n : Nat) (nums : List ℤ) : Prop :=
  -1 ∉ nums ∧ ∀ k ∈ nums, ∀ k' ∈ nums, k < 0 → 0 ≤ k' → k + n < k'

/-- The transformation an input wrapper applies: flattening when the wrapped function takes flat values. -/
noncomputable def inputTr {X : Type} (s : Wrapper) : Pattern → Option Bool → Arg X → Except Err (Arg X) :=
  if s.originalIsFlat then flattenArg else foldArg

/-- The transformation an output wrapper applies: folding when the wrapped function returns flat values. -/
noncomputable def outputTr {X : Type} (s : Wrapper) : Pattern → Option Bool → Arg X → Except Err (Arg X) :=
  if s.originalIsFlat then foldArg else flattenArg

/-- A folded value that survives `flatten` followed by `fold`. -/
def RoundTrips (p : Pattern) (free : Option Bool) (v : Val Flt) : Prop :=
  ∃ x, p.flatten v free none = .ok x ∧ p.fold x free none = .ok v

/-- A flat value that survives `fold` followed by `flatten`. -/
def RoundTripsFlat (p : Pattern) (free : Option Bool) (x : NDArray Flt) : Prop :=
  ∃ v, p.fold x free none = .ok v ∧ p.flatten v free none = .ok x

end Spec

end Paragami
