import Verif.Model.DictHeap

/-!
# Assigning to the attributes of patterns

`default_validate` and `free_default` are public attributes, and pattern objects are shared: a pattern stored in two dictionaries, or used
as a base pattern, is one object.  `Model/DictHeap.lean` has shared dictionaries only.  Here every pattern is an object.  The lengths that
objects cache (`Model/DictHeap.lean`) do not depend on the attributes and are left out.
-/

namespace Paragami.Attributes

/-- The state of one object. -/
inductive Node where
  /-- a numeric, simplex or matrix pattern, with its attributes (base_patterns.py:29, numeric_array_patterns.py:142,
  simplex_patterns.py:110, psdmatrix_patterns.py:198) -/
  | leaf (p : Pattern)
  /-- pattern_containers.py:437-479 a `PatternArray`; `base` is its base pattern -/
  | array (s : List Nat) (base : Nat) (fd : Option Bool)
  /-- pattern_containers.py:178-183 a `PatternDict` -/
  | dict (ms : List (String × Nat)) (locked : Bool) (fd : Option Bool)

/-- All pattern objects, by identity. -/
abbrev Heap := List Node

/-- One statement of a program. -/
inductive Stmt where
  | leaf (p : Pattern)
  | array (s : List Nat) (base : Nat) (fd : Option Bool)
  | dict (fd : Option Bool)
  | set (d : Nat) (k : String) (r : Nat)
  | del (d : Nat) (k : String)
  | lock (d : Nat)
  /-- `obj.default_validate = b` -/
  | validate (i : Nat) (b : Bool)
  /-- `obj.free_default = fd` -/
  | free (i : Nat) (fd : Option Bool)

/-- `OrderedDict.__setitem__`. -/
def setKey : List (String × Nat) → String → Nat → List (String × Nat)
  | [], k, r => [(k, r)]
  | (k', r') :: ms, k, r => if k' = k then (k', r) :: ms else (k', r') :: setKey ms k r

/-- `OrderedDict.pop(key)` (for a key that is present). -/
def eraseKey : List (String × Nat) → String → List (String × Nat)
  | [], _ => []
  | (k', r') :: ms, k => if k' = k then ms else (k', r') :: eraseKey ms k

/-- pattern_containers.py:185-186 `lock`; only dictionaries have it. -/
def Node.lock : Node → Node
  | .dict ms _ fd => .dict ms true fd
  | n => n

/-- The class is `PatternDict`. -/
def Node.isDict : Node → Bool
  | .dict .. => true
  | _ => false

/-- `p.default_validate = b` for a pattern that is not a container. -/
def setValidate (b : Bool) : Pattern → Pattern
  | .numeric c s lb ub _ fd => .numeric c s lb ub b fd
  | .simplex k s _ fd => .simplex k s b fd
  | .psd n lb _ fd => .psd n lb b fd
  | p => p

/-- `p.free_default = fd`. -/
def setFree (fd : Option Bool) : Pattern → Pattern
  | .numeric c s lb ub dv _ => .numeric c s lb ub dv fd
  | .simplex k s dv _ => .simplex k s dv fd
  | .psd n lb dv _ => .psd n lb dv fd
  | .array s b _ => .array s b fd
  | .dict es l _ => .dict es l fd

/-- `obj.default_validate = b`.  Containers have no such attribute and never read it (they pass `validate_value` on,
pattern_containers.py:260 and 520), so that for them nothing happens. -/
def Node.setValidate (b : Bool) : Node → Node
  | .leaf p => .leaf (Attributes.setValidate b p)
  | n => n

/-- `obj.free_default = fd` (base_patterns.py:29). -/
def Node.setFree (fd : Option Bool) : Node → Node
  | .leaf p => .leaf (Attributes.setFree fd p)
  | .array s b _ => .array s b fd
  | .dict ms l _ => .dict ms l fd

/-- Execute one statement: the outcome and the new heap.  `array` is pattern_containers.py:437-479, `set` 216-232 and `del` 234-241, as in
`Model/Pattern.lean` and `Model/DictHeap.lean`.  Objects that do not exist are not modelled. -/
def step (h : Heap) : Stmt → Except Err Unit × Heap
  | .leaf p => (.ok (), h ++ [.leaf p])
  | .array s b fd =>
    match h[b]? with
    | none => (.error .unmodelled, h)
    | some n =>
      if n.isDict then
        (.error (.notImplementedError "PatternArray does not support patterns whose folded values are not numpy.ndarray types."), h)
      else if s = [] then (.error .unmodelled, h)
      else (.ok (), h ++ [.array s b fd])
  | .dict fd => (.ok (), h ++ [.dict [] false fd])
  | .set d k r =>
    match h[d]?, h[r]? with
    | some (.dict ms locked fd), some n =>
      if locked then (.error DictHeap.lockedError, h)
      else (.ok (), (h.set r n.lock).set d (.dict (setKey ms k r) (r = d) fd))
    | _, _ => (.error .unmodelled, h)
  | .del d k =>
    match h[d]? with
    | some (.dict ms locked fd) =>
      if locked then (.error DictHeap.lockedError, h)
      else if (ms.map (·.1)).contains k then (.ok (), h.set d (.dict (eraseKey ms k) locked fd))
      else (.error (.keyError k), h)
    | _ => (.error .unmodelled, h)
  | .lock d =>
    match h[d]? with
    | some n => (.ok (), h.set d n.lock)
    | none => (.error .unmodelled, h)
  | .validate i b =>
    match h[i]? with
    | some n => (.ok (), h.set i (n.setValidate b))
    | none => (.error .unmodelled, h)
  | .free i fd =>
    match h[i]? with
    | some n => (.ok (), h.set i (n.setFree fd))
    | none => (.error .unmodelled, h)

/-- Execute statements one after the other, carrying on after exceptions. -/
def run (h : Heap) (ss : List Stmt) : Heap := ss.foldl (fun h s => (step h s).2) h

end Paragami.Attributes
