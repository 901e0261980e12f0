import Verif.Model.JsonText
import Verif.Model.Str

/-!
# `PatternDict` with keys of any type

`Model/Pattern.lean` has strings as keys.  Nothing in `PatternDict` asks for that, so here keys are strings, Booleans, integers, finite floats,
`None` and tuples of these.  A dictionary compares keys with `==`, so that `True`, `1` and `1.0` are one key.  The methods are those of
`Model/Pattern.lean`; what is not a dictionary is taken from there.
-/

namespace Paragami

/-- An entry of a tuple used as a key. -/
inductive Atom where
  | str (s : String)
  | bool (b : Bool)
  | int (i : ℤ)
  /-- a finite float -/
  | float (q : ℚ)
  | none
deriving DecidableEq

/-- A key of a dictionary. -/
inductive Key where
  | str (s : String)
  | bool (b : Bool)
  | int (i : ℤ)
  /-- a finite float -/
  | float (q : ℚ)
  | none
  | tuple (l : List Atom)
deriving DecidableEq

/-- What `==` compares, for an entry of a tuple: numbers are compared by their values, and `True` is 1. -/
inductive AtomValue where
  | str (s : String)
  | num (q : ℚ)
  | none
deriving DecidableEq

/-- What `==` compares, for a key. -/
inductive KeyValue where
  | str (s : String)
  | num (q : ℚ)
  | none
  | tuple (l : List AtomValue)
deriving DecidableEq

/-- See `AtomValue`. -/
def Atom.value : Atom → AtomValue
  | .str s => .str s
  | .bool b => .num (if b then 1 else 0)
  | .int i => .num i
  | .float q => .num q
  | .none => .none

/-- See `KeyValue`.  `hash` agrees with `==` on these types, so that a dictionary finds a key exactly if it has an equal one. -/
def Key.value : Key → KeyValue
  | .str s => .str s
  | .bool b => .num (if b then 1 else 0)
  | .int i => .num i
  | .float q => .num q
  | .none => .none
  | .tuple l => .tuple (l.map Atom.value)

/-- `key` in a `TypeError`-free `'…' + key`: only a string can be added to a string. -/
def Key.addable : Key → Except Err String
  | .str s => .ok s
  | _ => .error .typeError

mutual
/-- A pattern object: a `PatternDict` with any keys (pattern_containers.py:137-183), or an object of another class. -/
inductive KPattern where
  | leaf (p : Pattern)
  | dict (es : KEntries) (locked : Bool) (fd : Option Bool)
/-- The ordered members of a `PatternDict`. -/
inductive KEntries where
  | nil
  | cons (key : Key) (p : KPattern) (rest : KEntries)
end

/-- A folded value: arrays, and dictionaries with any keys. -/
inductive KVal (α : Type _) where
  | arr (a : NDArray α)
  | dict (entries : List (Key × KVal α))

namespace KVal
variable {α : Type _}
/-- As `Val.asArr`. -/
def asArr : KVal α → Except Err (NDArray α)
  | arr a => .ok a
  | dict _ => .error .typeError
/-- As `Val.asDict`. -/
def asDict : KVal α → Except Err (List (Key × KVal α))
  | dict es => .ok es
  | arr _ => .error .typeError
/-- `folded_val[key]`, if there is a key equal to `key`. -/
def get? : List (Key × KVal α) → Key → Option (KVal α)
  | [], _ => none
  | (k', v) :: vs, k => if k'.value = k.value then some v else get? vs k
end KVal

namespace KEntries
/-- `OrderedDict.__setitem__`: if there is an equal key, it stays, and its member is replaced. -/
def set : KEntries → Key → KPattern → KEntries
  | nil, k, p => cons k p nil
  | cons k' p' r, k, p => if k'.value = k.value then cons k' p r else cons k' p' (r.set k p)
/-- `OrderedDict.pop(key)` (for a key that is present). -/
def erase : KEntries → Key → KEntries
  | nil, _ => nil
  | cons k' p' r, k => if k'.value = k.value then r else cons k' p' (r.erase k)
/-- `OrderedDict.__getitem__`. -/
def get? : KEntries → Key → Option KPattern
  | nil, _ => none
  | cons k' p' r, k => if k'.value = k.value then some p' else r.get? k
/-- pattern_containers.py:243-244 `keys`. -/
def keys : KEntries → List Key
  | nil => []
  | cons k _ r => k :: r.keys
end KEntries

namespace KPattern

noncomputable section

/-- The stored `free_default` (base_patterns.py:62-79). -/
def freeDefault : KPattern → Option Bool
  | leaf p => p.freeDefault
  | dict _ _ fd => fd

mutual
/-- `flat_length(free)`; for `PatternDict`, pattern_containers.py:322-326 `_update_flat_length`. -/
def flatLen : KPattern → Bool → Nat
  | leaf p, free => p.flatLen free
  | dict es _ _, free => flatLenEs es free
/-- The sum over the members. -/
def flatLenEs : KEntries → Bool → Nat
  | .nil, _ => 0
  | .cons _ p r, free => p.flatLen free + flatLenEs r free
end

/-- base_patterns.py:192-210 `flat_length(free=None)` as called by a user. -/
def flatLength (t : KPattern) (free : Option Bool) : Except Err Nat := do
  let free ← Pattern.freeWithDefault t.freeDefault free
  return t.flatLen free

mutual
/-- pattern_containers.py:188-194 `__str__`: `'\t[' + key + …`. -/
def str (fmt : Flt → String) : KPattern → Except Err String
  | leaf p => .ok (p.str fmt)
  | dict es _ _ => do
    let lines ← strEs fmt es
    return "OrderedDict:\n" ++ "\n".intercalate lines
/-- The lines for the members of a dictionary. -/
def strEs (fmt : Flt → String) : KEntries → Except Err (List String)
  | .nil => .ok []
  | .cons k p r => do
    let k ← k.addable
    let s ← p.str fmt
    let lines ← strEs fmt r
    return ("\t[" ++ k ++ "] = " ++ s) :: lines
end

/-! `shw` is Python's `str` of a key (`'{}'.format(key)`). -/

section Validate
variable {α : Type} [Elem α] (fmt : Flt → String) (shw : Key → String)

mutual
/-- `validate_folded(folded_val, validate_value)`; for `PatternDict`, pattern_containers.py:252-263. -/
def validate : KPattern → KVal α → Option Bool → Except Err (Bool × String)
  | leaf p, v, vv => do
    let a ← v.asArr
    p.validate (.arr a) vv
  | dict es _ _, v, vv => do
    let vs ← v.asDict
    validateEs es vs vv
/-- The loop of `PatternDict.validate_folded` (pattern_containers.py:252-263). -/
def validateEs : KEntries → List (Key × KVal α) → Option Bool → Except Err (Bool × String)
  | .nil, _, _ => .ok (true, "")
  | .cons k p r, vs, vv =>
    match KVal.get? vs k with
    | none => .ok (false, shw k ++ " not in folded_val dictionary.")
    | some v => do
      let (valid, msg) ← p.validate v vv
      if !valid then return (false, msg ++ " is not valid.")
      validateEs r vs vv
end

/-- The argument checks at the start of `PatternDict.fold` (pattern_containers.py:266-277); the message has `str(self)` in it. -/
def checkFlat (t : KPattern) (x : NDArray α) (n : Nat) : Except Err (NDArray α) := do
  let x := x.atleast1d
  if x.ndim ≠ 1 then throw (.valueError "The argument to fold must be a 1d vector.")
  if x.size ≠ n then
    let _ ← t.str fmt
    throw (.valueError "Wrong size.")
  return x

mutual
/-- `fold(flat_val, free=False, validate_value)`; for `PatternDict`, pattern_containers.py:265-296. -/
def foldNF : KPattern → NDArray α → Option Bool → Except Err (KVal α)
  | leaf p, x, vv => do
    let v ← p.foldNF x vv
    let a ← v.asArr
    return .arr a
  | dict es l fd, x, vv => do
    let x ← checkFlat fmt (dict es l fd) x (flatLenEs es false)
    let vs ← foldNFEs es x vv 0
    Pattern.requireValid ((dict es l fd).validate shw (.dict vs) vv)
    return .dict vs
/-- The loop of `PatternDict.fold` (pattern_containers.py:280-291). -/
def foldNFEs : KEntries → NDArray α → Option Bool → Nat → Except Err (List (Key × KVal α))
  | .nil, _, _, _ => .ok []
  | .cons k p r, x, vv, offset => do
    let v ← p.foldNF (x.slice offset (p.flatLen false)) vv
    let vs ← foldNFEs r x vv (offset + p.flatLen false)
    return (k, v) :: vs
end

mutual
/-- `flatten(folded_val, free=False, validate_value)`; for `PatternDict`, pattern_containers.py:298-320. -/
def flattenNF : KPattern → KVal α → Option Bool → Except Err (NDArray α)
  | leaf p, v, vv => do
    let a ← v.asArr
    p.flattenNF (.arr a) vv
  | dict es l fd, v, vv => do
    Pattern.requireValid ((dict es l fd).validate shw v vv)
    let vs ← v.asDict
    let parts ← flattenNFEs es vs vv
    NDArray.hstack parts
/-- The loop of `PatternDict.flatten` (pattern_containers.py:308-319). -/
def flattenNFEs : KEntries → List (Key × KVal α) → Option Bool → Except Err (List (NDArray α))
  | .nil, _, _ => .ok []
  | .cons k p r, vs, vv =>
    match KVal.get? vs k with
    | none => .error (.keyError (shw k))
    | some v => do
      let x ← p.flattenNF v vv
      let xs ← flattenNFEs r vs vv
      return x :: xs
end

end Validate

variable (fmt : Flt → String) (shw : Key → String)

mutual
/-- `fold(flat_val, free=True)`, same source lines as `foldNF`. -/
def foldFree : KPattern → NDArray Flt → Except Err (KVal Flt)
  | leaf p, x => do
    let v ← p.foldFree x
    let a ← v.asArr
    return .arr a
  | dict es l fd, x => do
    let x ← checkFlat fmt (dict es l fd) x (flatLenEs es true)
    let vs ← foldFreeEs es x 0
    return .dict vs
/-- The loop of `PatternDict.fold` with `free=True` (pattern_containers.py:280-291). -/
def foldFreeEs : KEntries → NDArray Flt → Nat → Except Err (List (Key × KVal Flt))
  | .nil, _, _ => .ok []
  | .cons k p r, x, offset => do
    let v ← p.foldFree (x.slice offset (p.flatLen true))
    let vs ← foldFreeEs r x (offset + p.flatLen true)
    return (k, v) :: vs
end

mutual
/-- `flatten(folded_val, free=True, validate_value)`, same source lines as `flattenNF`. -/
def flattenFree : KPattern → KVal Flt → Option Bool → Except Err (NDArray Flt)
  | leaf p, v, vv => do
    let a ← v.asArr
    p.flattenFree (.arr a) vv
  | dict es l fd, v, vv => do
    Pattern.requireValid ((dict es l fd).validate shw v vv)
    let vs ← v.asDict
    let parts ← flattenFreeEs es vs vv
    NDArray.hstack parts
/-- The loop of `PatternDict.flatten` with `free=True` (pattern_containers.py:308-319). -/
def flattenFreeEs : KEntries → List (Key × KVal Flt) → Option Bool → Except Err (List (NDArray Flt))
  | .nil, _, _ => .ok []
  | .cons k p r, vs, vv =>
    match KVal.get? vs k with
    | none => .error (.keyError (shw k))
    | some v => do
      let x ← p.flattenFree v vv
      let xs ← flattenFreeEs r vs vv
      return x :: xs
end

/-- `pattern.fold(flat_val, free=None, validate_value=None)` as called by a user. -/
def fold (t : KPattern) (x : NDArray Flt) (free vv : Option Bool := none) : Except Err (KVal Flt) := do
  let free ← Pattern.freeWithDefault t.freeDefault free
  if free then t.foldFree fmt x else t.foldNF fmt shw x vv

/-- `pattern.flatten(folded_val, free=None, validate_value=None)` as called by a user. -/
def flatten (t : KPattern) (v : KVal Flt) (free vv : Option Bool := none) : Except Err (NDArray Flt) := do
  let free ← Pattern.freeWithDefault t.freeDefault free
  if free then t.flattenFree shw v vv else t.flattenNF shw v vv

mutual
/-- `empty(valid=True)`; for `PatternDict`, pattern_containers.py:246-250. -/
def empty : KPattern → Except Err (KVal Flt)
  | leaf p => do
    let v ← p.empty
    let a ← v.asArr
    return .arr a
  | dict es _ _ => do
    let vs ← emptyEs es
    return .dict vs
/-- The loop of `PatternDict.empty` (pattern_containers.py:246-250). -/
def emptyEs : KEntries → Except Err (List (Key × KVal Flt))
  | .nil => .ok []
  | .cons k p r => do
    let v ← p.empty
    let vs ← emptyEs r
    return (k, v) :: vs
end

/-- base_patterns.py:227-242 `empty_bool`. -/
def emptyBool (t : KPattern) (value : Bool) : Except Err (KVal Bool) :=
  t.foldNF fmt shw (NDArray.vec (List.replicate (t.flatLen false) value)) (some false)

/-- base_patterns.py:212-223 `random`; the vector returned by `np.random.random` is an argument. -/
def random (t : KPattern) (draw : List Flt) : Except Err (KVal Flt) :=
  t.foldFree fmt (NDArray.vec draw)

mutual
/-- `flat_indices(folded_bool, free)` with `free` resolved; for `PatternDict`, pattern_containers.py:385-406. -/
def flatIdx : KPattern → KVal Bool → Bool → Except Err (List Nat)
  | leaf p, v, free => do
    let a ← v.asArr
    p.flatIdx (.arr a) free
  | dict es l fd, v, free => do
    Pattern.requireValid ((dict es l fd).validate shw v (some false))
    let vs ← v.asDict
    flatIdxEs es vs free 0
/-- The loop of `PatternDict.flat_indices` (pattern_containers.py:392-402). -/
def flatIdxEs : KEntries → List (Key × KVal Bool) → Bool → Nat → Except Err (List Nat)
  | .nil, _, _, _ => .ok []
  | .cons k p r, vs, free, offset =>
    match KVal.get? vs k with
    | none => .error (.keyError (shw k))
    | some v => do
      let here ← p.flatIdx v free
      let more ← flatIdxEs r vs free (offset + p.flatLen free)
      return here.map (· + offset) ++ more
end

/-- `pattern.flat_indices(folded_bool, free=None)` as called by a user. -/
def flatIndices (t : KPattern) (v : KVal Bool) (free : Option Bool := none) : Except Err (List Nat) :=
  match t with
  | leaf p => do
    let a ← v.asArr
    p.flatIndices (.arr a) free
  | dict es l fd => do
    let free ← Pattern.freeWithDefault fd free
    (dict es l fd).flatIdx shw v free

/-- `[pattern_name + delim + t for t in names]` (pattern_containers.py:412-413): nothing is added if there are no names. -/
def prefixNames (k : Key) (delim : String) (names : List String) : Except Err (List String) :=
  mapE (fun t => do
    let k ← k.addable
    return k ++ delim ++ t) names

mutual
/-- `flat_names(free)`; for `PatternDict`, pattern_containers.py:408-416. -/
def flatNames : KPattern → (free : Option Bool) → (delim : String) → Except Err (List String)
  | leaf p, free, delim => p.flatNames free delim
  | dict es _ _, free, delim => do
    let parts ← flatNamesEs es free delim
    match parts with
    | [] => .error .indexError
    | _ => return parts.flatten
/-- The loop of `PatternDict.flat_names` (pattern_containers.py:409-415). -/
def flatNamesEs : KEntries → Option Bool → String → Except Err (List (List String))
  | .nil, _, _ => .ok []
  | .cons k p r, free, delim => do
    let here ← p.flatNames free "_"
    let here ← prefixNames k delim here
    let more ← flatNamesEs r free delim
    return here :: more
end

/-- pattern_containers.py:185-186 `lock`. -/
def lock : KPattern → KPattern
  | dict es _ fd => dict es true fd
  | p => p

/-- pattern_containers.py:216-232 `PatternDict.__setitem__` with a pattern value. -/
def setItem (d : KPattern) (k : Key) (p : KPattern) : Except Err KPattern :=
  match d with
  | dict es locked fd =>
    if locked then .error (.valueError "The dictionary is locked, and its values cannot be changed.")
    else .ok (dict (es.set k p.lock) locked fd)
  | _ => .error .typeError

/-- pattern_containers.py:234-241 `PatternDict.__delitem__`. -/
def delItem (d : KPattern) (k : Key) : Except Err KPattern :=
  match d with
  | dict es locked fd =>
    if locked then .error (.valueError "The dictionary is locked, and its values cannot be changed.")
    else
      match es.get? k with
      | none => .error (.keyError (shw k))
      | some _ => .ok (dict (es.erase k) locked fd)
  | _ => .error .typeError

end

end KPattern

/-! ### JSON -/

namespace JsonText

/-- An entry of a tuple as a value. -/
noncomputable def atomVal : Atom → PyVal
  | .str s => .str s
  | .bool b => .bool b
  | .int i => .num (.int i)
  | .float q => .num (.flt (.fin q))
  | .none => .none

/-- A key as a value. -/
noncomputable def keyVal : Key → PyVal
  | .str s => .str s
  | .bool b => .bool b
  | .int i => .num (.int i)
  | .float q => .num (.flt (.fin q))
  | .none => .none
  | .tuple l => .tuple (l.map atomVal)

/-- The string `json.dumps` writes for a key of a dictionary; `TypeError` for a tuple. -/
def keyString (F : FloatText) : Key → Except Err String
  | .str s => .ok s
  | .bool b => .ok (if b then "true" else "false")
  | .int i => .ok (String.ofList (intText i))
  | .float q => .ok (String.ofList (F.repr q))
  | .none => .ok "null"
  | .tuple _ => .error .typeError

noncomputable section

variable (F : FloatText)

mutual
/-- base_patterns.py:363-370 `to_json` and pattern_containers.py:199-209 `as_dict`. -/
def toJsonK : KPattern → Except Err (List Char)
  | .leaf p => .ok (toJson F p)
  | .dict es _ _ => do
    let contents ← contentsK es
    let contents ← mapE (fun f => do
      let k ← keyString F f.1
      return (k, f.2)) contents
    return dumps F (.dict [("pattern", .str Builtin.dict.typename), ("keys", .list (es.keys.map keyVal)), ("contents", .dict contents)])
/-- The `contents` of a dictionary: each member's JSON text. -/
def contentsK : KEntries → Except Err (List (Key × PyVal))
  | .nil => .ok []
  | .cons k p r => do
    let t ← toJsonK p
    let fs ← contentsK r
    return (k, .str (String.ofList t)) :: fs
end

open Classical in
/-- base_patterns.py:173-176 `__eq__`: the types are compared, and then `self.as_dict() == other.as_dict()`.  For dictionaries that is `==` of the
lists `keys` and of the dictionaries `contents`, whose values are JSON texts (pattern_containers.py:199-209).  The two patterns do not hold the same NaN object. -/
def eqPy : KPattern → KPattern → Except Err Bool
  | .leaf p, .leaf q => .ok (decide (p.EqPy q))
  | .dict es _ _, .dict fs _ _ => do
    let c ← contentsK F es
    let d ← contentsK F fs
    return decide (es.keys.map Key.value = fs.keys.map Key.value ∧ c.length = d.length ∧
      ∀ f ∈ c, ∃ g ∈ d, g.1.value = f.1.value ∧ g.2 = f.2)
  | _, _ => .ok false

end

end JsonText

end Paragami
