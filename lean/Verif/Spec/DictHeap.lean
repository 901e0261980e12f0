import Verif.Model.DictHeap
import Verif.Spec.WellFormed

/-!
# What a dictionary object stands for

A dictionary object in the heap *denotes* the immutable pattern tree obtained by following its members.  The first part
of this file relates objects to trees; the second says, from a history of updates alone, which keys a dictionary must
have and in what order.
-/

namespace Paragami

namespace DictHeap

/-- The stored members `ms` denote the entries `es`. -/
inductive Den (h : Heap) : List (String × Ref) → Entries → Prop
  | nil : Den h [] .nil
  | leaf {k p ms es} (h1 : Den h ms es) : Den h ((k, .leaf p) :: ms) (.cons k p es)
  | dict {k ms es es'} {e : Nat} {o : Obj} (he : h[e]? = some o) (h1 : Den h o.members es') (h2 : Den h ms es) :
      Den h ((k, .dict e) :: ms) (.cons k (.dict es' o.locked o.fd) es)

/-- The dictionary object `d` denotes the pattern `p`. -/
def Denotes (h : Heap) (d : Nat) (p : Pattern) : Prop :=
  ∃ (o : Obj) (es : Entries), h[d]? = some o ∧ Den h o.members es ∧ p = .dict es o.locked o.fd

/-- The stored value `r` denotes the pattern `p`. -/
def Ref.Denotes (h : Heap) (r : Ref) (p : Pattern) : Prop :=
  r = .leaf p ∨ ∃ e, r = .dict e ∧ DictHeap.Denotes h e p

/-- A statement that stores only genuine patterns, and does not put a dictionary into itself. -/
def GoodOp : Op → Prop
  | .set d _ r => r ≠ .junk ∧ r ≠ .dict d ∧ ∀ p, r = .leaf p → p.isDict = false ∧ Pattern.Built p
  | _ => True

/-! ### Keys from the history -/

/-- Something that happened to a dictionary: a key was assigned, or a key was deleted. -/
inductive Ev where
  | set (k : String)
  | del (k : String)
deriving DecidableEq

/-- Is dictionary `d` there and unlocked? -/
def isOpen (h : Heap) (d : Nat) : Bool :=
  match h[d]? with
  | some o => !o.locked
  | none => false

/-- The assignments to and deletions from `d` that a program carries out while `d` is unlocked. -/
def events (d : Nat) : Heap → List Op → List Ev
  | _, [] => []
  | h, op :: ops =>
    (match op with
      | .set d' k r => if d' = d ∧ isOpen h d ∧ r.valid h then [Ev.set k] else []
      | .del d' k => if d' = d ∧ isOpen h d then [Ev.del k] else []
      | _ => []) ++ events d (step h op).2 ops

/-- Event number `i` is the assignment that (re)introduced the key `k`, which has been present ever since: no deletion
of `k` follows, and every earlier assignment to `k` was undone by a deletion. -/
def Born (evs : List Ev) (k : String) (i : Nat) : Prop :=
  evs[i]? = some (.set k) ∧ (∀ j, i < j → evs[j]? ≠ some (.del k)) ∧
    ∀ i', i' < i → evs[i']? = some (.set k) → ∃ j, i' < j ∧ evs[j]? = some (.del k)

end DictHeap

end Paragami
