import Verif.Model.Keys

/-!
# `PatternDict` in Python's protocols

`PatternDict` defines `__getitem__` and `keys` (pattern_containers.py:196-197 and 243-244), but not `__iter__`, `__contains__` or `__len__`.
So `for x in d`, `list(d)`, `a, b = d` and `x in d` use the old protocol for sequences, and `dict(d)` and `f(**d)` the one for mappings.
-/

namespace Paragami.Protocols

/-- An exception, with the key of a `KeyError` kept. -/
inductive Exc where
  | keyError (k : Key)
  | indexError
  | stopIteration
  | other (e : Err)
deriving DecidableEq

/-- pattern_containers.py:196-197 `PatternDict.__getitem__`: that of `OrderedDict`, which raises `KeyError(key)`. -/
def getItem (es : KEntries) (k : Key) : Except Exc KPattern :=
  match es.get? k with
  | some p => .ok p
  | none => .error (.keyError k)

/-- Python's iterator over an object that has `__getitem__` only: `obj[i]`, `obj[i + 1]`, … until `IndexError` or `StopIteration`, which
end it (`none`).  Any other exception leaves the loop (`some e`).  The list is what has been produced by then. -/
inductive Iterates {A : Type} (get : Key → Except Exc A) : ℕ → List A → Option Exc → Prop
  | stop {i : ℕ} {e : Exc} (h : get (.int i) = .error e) (he : e = .indexError ∨ e = .stopIteration) : Iterates get i [] none
  | fail {i : ℕ} {e : Exc} (h : get (.int i) = .error e) (he : ¬ (e = .indexError ∨ e = .stopIteration)) : Iterates get i [] (some e)
  | next {i : ℕ} {a : A} {l : List A} {r : Option Exc} (h : get (.int i) = .ok a) (hr : Iterates get (i + 1) l r) : Iterates get i (a :: l) r

/-- `x in obj` for an object that has `__getitem__` only: the iterator above, until an item is `x` or equals `x` (`same`, which may
raise).  The answer is `False` if the iterator ends. -/
inductive Contains {A : Type} (get : Key → Except Exc A) (same : A → Except Err Bool) : ℕ → Except Exc Bool → Prop
  | stop {i : ℕ} {e : Exc} (h : get (.int i) = .error e) (he : e = .indexError ∨ e = .stopIteration) : Contains get same i (.ok false)
  | fail {i : ℕ} {e : Exc} (h : get (.int i) = .error e) (he : ¬ (e = .indexError ∨ e = .stopIteration)) : Contains get same i (.error e)
  | found {i : ℕ} {a : A} (h : get (.int i) = .ok a) (hs : same a = .ok true) : Contains get same i (.ok true)
  | raised {i : ℕ} {a : A} {e : Err} (h : get (.int i) = .ok a) (hs : same a = .error e) : Contains get same i (.error (.other e))
  | next {i : ℕ} {a : A} {r : Except Exc Bool} (h : get (.int i) = .ok a) (hs : same a = .ok false) (hr : Contains get same (i + 1) r) :
      Contains get same i r

/-- `dict(d)` and `OrderedDict(d)` for an object with `keys`: `d[k]` for each of the keys (pattern_containers.py:243-244), in order. -/
def toDict (es : KEntries) : Except Exc (List (Key × KPattern)) :=
  mapE (fun k => do return (k, ← getItem es k)) es.keys

/-- One keyword argument of `f(**d)`: keys that are not strings are refused. -/
def keyword : Key × KPattern → Except Exc (String × KPattern)
  | (.str s, p) => .ok (s, p)
  | _ => .error (.other .typeError)

/-- The keyword arguments of `f(**d)`: `dict(d)`, with the keys checked. -/
def keywords (es : KEntries) : Except Exc (List (String × KPattern)) := do
  let l ← toDict es
  mapE keyword l

end Paragami.Protocols
