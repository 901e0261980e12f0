import Verif.Model.Pattern

/-!
# `PatternDict` as a mutable, shareable object

The tree model of `Model/Pattern.lean` recomputes lengths from the tree.  The code caches them in the object
(`_flat_length`, `_free_flat_length`) and shares member objects between parents.  Here dictionaries are objects in a
heap, addressed by their index; all other patterns have no mutating methods and are kept as trees.  Assigning to public
attributes such as `free_default` is in `Model/Attributes.lean`.
-/

namespace Paragami

namespace DictHeap

noncomputable section

/-- What `flat_length` returns: a number together with whether it is a numpy float (`np.sum([])` is `0.0`, and
`np.sum` of a list with a float in it is a float). -/
structure Len where
  n : Nat
  isFloat : Bool
deriving DecidableEq

/-- A value stored under a key: a pattern other than a `PatternDict`, a `PatternDict` object, or something that is not
a pattern at all (any key accepts any object). -/
inductive Ref where
  | leaf (p : Pattern)
  | dict (id : Nat)
  | junk

/-- The state of one `PatternDict` object: `__pattern_dict`, `__lock`, `_free_flat_length`, `_flat_length`,
`free_default` (pattern_containers.py:178-183, base_patterns.py:21-31). -/
structure Obj where
  members : List (String × Ref)
  locked : Bool
  freeLen : Len
  flatLen : Len
  fd : Option Bool

/-- `flat_length(free)` of a dictionary object for an explicit `free` (base_patterns.py:192-210): the cached value. -/
def Obj.len (o : Obj) (free : Bool) : Len := if free then o.freeLen else o.flatLen

/-- All `PatternDict` objects, by identity. -/
abbrev Heap := List Obj

/-- `x.flat_length(free)` for a stored value; a non-pattern has no such method. -/
def Ref.len (h : Heap) (free : Bool) : Ref → Except Err Len
  | .leaf p => .ok ⟨p.flatLen free, false⟩
  | .dict i =>
    match h[i]? with
    | some o => .ok (o.len free)
    | none => .error .unmodelled
  | .junk => .error .attributeError

/-- pattern_containers.py:322-326 `_update_flat_length`. -/
def updateLen (h : Heap) (ms : List (String × Ref)) (free : Bool) : Except Err Len := do
  let ls ← mapE (fun m => Ref.len h free m.2) ms
  return ⟨(ls.map (·.n)).sum, ls.isEmpty || ls.any (·.isFloat)⟩

/-- `OrderedDict.__setitem__`: replace in place, or append a new key. -/
def setKey : List (String × Ref) → String → Ref → List (String × Ref)
  | [], k, r => [(k, r)]
  | (k', r') :: ms, k, r => if k' = k then (k', r) :: ms else (k', r') :: setKey ms k r

/-- `OrderedDict.pop(key)` (for a key that is present). -/
def eraseKey : List (String × Ref) → String → List (String × Ref)
  | [], _ => []
  | (k', r') :: ms, k => if k' = k then ms else (k', r') :: eraseKey ms k

/-- pattern_containers.py:178-183 `PatternDict(free_default)`: a new object at the end of the heap. -/
def newDict (h : Heap) (fd : Option Bool) : Heap := h ++ [⟨[], false, ⟨0, false⟩, ⟨0, false⟩, fd⟩]

/-- pattern_containers.py:185-186 `lock`. -/
def lock (h : Heap) (d : Nat) : Heap :=
  match h[d]? with
  | some o => h.set d { o with locked := true }
  | none => h

/-- The end of `__setitem__` and `__delitem__` (pattern_containers.py:231-232, 240-241): recompute the two cached
lengths, free first; an exception leaves what was already stored. -/
def refresh (h : Heap) (d : Nat) : Except Err Unit × Heap :=
  match h[d]? with
  | none => (.error .unmodelled, h)
  | some o =>
    match updateLen h o.members true with
    | .error e => (.error e, h)
    | .ok l =>
      let o := { o with freeLen := l }
      let h := h.set d o
      match updateLen h o.members false with
      | .error e => (.error e, h)
      | .ok l => (.ok (), h.set d { o with flatLen := l })

/-- The error of `_check_lock` (pattern_containers.py:211-214). -/
def lockedError : Err := .valueError "The dictionary is locked, and its values cannot be changed."

/-- Does the reference point to an existing object? -/
def Ref.valid (h : Heap) : Ref → Bool
  | .dict e => decide (e < h.length)
  | _ => true

/-- pattern_containers.py:216-232 `__setitem__`: check the lock, store, lock a dictionary value, recompute. -/
def setItem (h : Heap) (d : Nat) (k : String) (r : Ref) : Except Err Unit × Heap :=
  match h[d]? with
  | none => (.error .unmodelled, h)
  | some o =>
    if !r.valid h then (.error .unmodelled, h)
    else if o.locked then (.error lockedError, h)
    else
      let h := h.set d { o with members := setKey o.members k r }
      let h := match r with
        | .dict e => lock h e
        | _ => h
      refresh h d

/-- pattern_containers.py:234-241 `__delitem__`: check the lock, look the key up, pop it, recompute. -/
def delItem (h : Heap) (d : Nat) (k : String) : Except Err Unit × Heap :=
  match h[d]? with
  | none => (.error .unmodelled, h)
  | some o =>
    if o.locked then (.error lockedError, h)
    else if !(o.members.map (·.1)).contains k then (.error (.keyError k), h)
    else refresh (h.set d { o with members := eraseKey o.members k }) d

/-- One statement of a program using dictionaries. -/
inductive Op where
  | new (fd : Option Bool)
  | set (d : Nat) (k : String) (r : Ref)
  | del (d : Nat) (k : String)
  | lock (d : Nat)

/-- Execute one statement: its outcome and the new heap. -/
def step (h : Heap) : Op → Except Err Unit × Heap
  | .new fd => (.ok (), newDict h fd)
  | .set d k r => setItem h d k r
  | .del d k => delItem h d k
  | .lock d => (if d < h.length then .ok () else .error .unmodelled, DictHeap.lock h d)

/-- Execute a list of statements, carrying on after exceptions (a caller may catch them). -/
def run (h : Heap) (ops : List Op) : Heap := ops.foldl (fun h op => (step h op).2) h

mutual
/-- `PatternDict.fold(flat_val, free=True)` on the objects (pattern_containers.py:265-291): the size check and the slices
use the lengths the objects report; slicing with a float raises `TypeError`.  The first argument bounds the nesting. -/
def foldFree : Nat → Heap → Nat → NDArray Flt → Except Err (Val Flt)
  | 0, _, _, _ => .error .unmodelled
  | n + 1, h, d, x =>
    match h[d]? with
    | none => .error .unmodelled
    | some o => do
      let x ← Pattern.checkFlat x (o.len true).n
      let vs ← foldMembers n h o.members x 0
      return .dict vs
/-- The loop over the members. -/
def foldMembers : Nat → Heap → List (String × Ref) → NDArray Flt → Nat → Except Err (List (String × Val Flt))
  | _, _, [], _, _ => .ok []
  | n, h, (k, .leaf p) :: ms, x, offset => do
    let v ← p.foldFree (x.slice offset (p.flatLen true))
    let vs ← foldMembers n h ms x (offset + p.flatLen true)
    return (k, v) :: vs
  | n, h, (k, .dict e) :: ms, x, offset => do
    let l ← Ref.len h true (.dict e)
    if l.isFloat then .error .typeError
    else do
      let v ← foldFree n h e (x.slice offset l.n)
      let vs ← foldMembers n h ms x (offset + l.n)
      return (k, v) :: vs
  | _, _, (_, .junk) :: _, _, _ => .error .attributeError
end

end

end DictHeap

end Paragami
