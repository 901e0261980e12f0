import Verif.Model.Pattern

/-!
# Copies of a `PatternDict`

`PatternDict` defines neither `__copy__` nor `__deepcopy__` nor `__reduce__`, so `copy.copy(d)` makes a new object whose
`__dict__` holds the same references as that of `d` and `copy.deepcopy(d)` one whose `__dict__` holds copies of everything.
The instance attributes (pattern_containers.py:178-183, base_patterns.py:21-29) are the `OrderedDict` of the members, which is
an object of its own and therefore shared by a shallow copy, and the lock, the two cached lengths and `free_default`, which are
plain values and therefore not shared.

Simplifications.  The members are kept as trees (a member that is a dictionary is locked when it is set; that it is an object
others may refer to is the subject of Model/DictHeap.lean, and is not repeated here).  The cached length of an emptied
dictionary is the float `0.0` in the code, and `0` here (see Model/Messages.lean).  The attributes `_freeing_jacobian` and `_unfreeing_jacobian` are left out: `PatternDict`
has its own Jacobian methods and never uses them.
-/
namespace Paragami.Copies

open Pattern NDArray

/-- The attributes of one `PatternDict` object (pattern_containers.py:178-183 and base_patterns.py:21-29): a reference to the
`OrderedDict` of the members, `__lock`, `_free_flat_length`, `_flat_length` and `free_default`. -/
structure Obj where
  inner : Nat
  locked : Bool
  freeLen : Nat
  flatLen : Nat
  fd : Option Bool

/-- All the `OrderedDict`s of members and all the `PatternDict` objects of a program. -/
structure State where
  inners : List Entries
  objs : List Obj

/-- A statement of a program: `PatternDict(free_default=fd)`, `d[k] = p`, `del d[k]`, `d.lock()`, `copy.copy(d)`,
`copy.deepcopy(d)`. -/
inductive Op where
  | new (fd : Option Bool)
  | set (d : Nat) (k : String) (p : Pattern)
  | del (d : Nat) (k : String)
  | lock (d : Nat)
  | copy (d : Nat)
  | deepcopy (d : Nat)

/-- pattern_containers.py:211-214 `_check_lock`. -/
def lockedError : Err := .valueError "The dictionary is locked, and its values cannot be changed."

/-- pattern_containers.py:231-232, 240-241 and 322-326: store the new members in the `OrderedDict`, and recompute the two
lengths of the object the statement addresses (and of no other). -/
def store (s : State) (d : Nat) (o : Obj) (es : Entries) : State :=
  { inners := s.inners.set o.inner es
    objs := s.objs.set d { o with freeLen := flatLenEs es true, flatLen := flatLenEs es false } }

/-- The object `d` and the members its `OrderedDict` holds. -/
def look (s : State) (d : Nat) : Option (Obj × Entries) :=
  match s.objs[d]? with
  | none => none
  | some o =>
    match s.inners[o.inner]? with
    | none => none
    | some es => some (o, es)

/-- One statement, as it ends, and the state it leaves. -/
def step (s : State) : Op → Except Err Unit × State
  -- pattern_containers.py:178-183
  | .new fd => (.ok (), { inners := s.inners ++ [.nil], objs := s.objs ++ [⟨s.inners.length, false, 0, 0, fd⟩] })
  -- pattern_containers.py:216-232
  | .set d k p =>
    match look s d with
    | none => (.error .unmodelled, s)
    | some (o, es) => if o.locked then (.error lockedError, s) else (.ok (), store s d o (es.set k p.lock))
  -- pattern_containers.py:234-241
  | .del d k =>
    match look s d with
    | none => (.error .unmodelled, s)
    | some (o, es) =>
      if o.locked then (.error lockedError, s)
      else if !es.keys.contains k then (.error (.keyError k), s)
      else (.ok (), store s d o (es.erase k))
  -- pattern_containers.py:185-186
  | .lock d =>
    match look s d with
    | none => (.error .unmodelled, s)
    | some (o, _) => (.ok (), { s with objs := s.objs.set d { o with locked := true } })
  -- copy.copy: the references of `__dict__` are copied
  | .copy d =>
    match look s d with
    | none => (.error .unmodelled, s)
    | some (o, _) => (.ok (), { s with objs := s.objs ++ [o] })
  -- copy.deepcopy: the `OrderedDict` is copied as well
  | .deepcopy d =>
    match look s d with
    | none => (.error .unmodelled, s)
    | some (o, es) =>
      (.ok (), { inners := s.inners ++ [es], objs := s.objs ++ [{ o with inner := s.inners.length }] })

/-- A program; a statement that raises leaves what it leaves, and the program goes on (as under `try … except`). -/
def run (s : State) (ops : List Op) : State := ops.foldl (fun s op => (step s op).2) s

/-- base_patterns.py:192-210 `flat_length(free)`: the cached length. -/
def Obj.len (o : Obj) (free : Bool) : Nat := if free then o.freeLen else o.flatLen

/-- pattern_containers.py:265-297 `fold`: the size is compared with the cached length (`flat_length`), the slices are taken by
the lengths of the members. -/
noncomputable def Obj.fold (o : Obj) (es : Entries) (x : NDArray Flt) (free vv : Option Bool) : Except Err (Val Flt) := do
  let b ← freeWithDefault o.fd free
  let x ← checkFlat x (o.len b)
  if b then
    let vs ← foldFreeEs es x 0
    return .dict vs
  else
    let vs ← foldNFEs es x vv 0
    requireValid ((Pattern.dict es o.locked o.fd).validate (.dict vs) vv)
    return .dict vs

end Paragami.Copies
