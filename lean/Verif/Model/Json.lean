import Verif.Model.Pattern

/-!
# Patterns as dictionaries and JSON texts

`json.dumps` and `json.loads` are not modelled as printers and parsers of characters.  A JSON text is represented by the
value it encodes (`PyVal.text`), already normalized the way a `dumps`/`loads` round trip does it (tuples become lists).  So
the model assumes that `json.loads(json.dumps(v))` is that normalized value and that two texts are equal exactly when the
normalized values are identical: same key order, and `0` different from `0.0`.  This is how the standard library behaves on
the values that occur here (strings, booleans, `None`, finite and infinite numbers, lists and dictionaries with string
keys); `-0.0` does not exist in the model.
-/

namespace Paragami

/-- The Python values that occur in `as_dict` results. -/
inductive PyVal where
  | none
  | bool (b : Bool)
  | num (x : PyNum)
  | str (s : String)
  | list (l : List PyVal)
  | tuple (l : List PyVal)
  | dict (fs : List (String × PyVal))
  /-- the string `json.dumps(j)` -/
  | text (j : PyVal)

namespace PyVal

mutual
/-- What `json.loads(json.dumps(v))` gives: tuples become lists; a string stays the same string. -/
def norm : PyVal → PyVal
  | list l => list (normList l)
  | tuple l => list (normList l)
  | dict fs => dict (normFields fs)
  | none => none
  | bool b => bool b
  | num x => num x
  | str s => str s
  | text j => text j
/-- `norm` in a list. -/
def normList : List PyVal → List PyVal
  | [] => []
  | v :: l => v.norm :: normList l
/-- `norm` in a dictionary. -/
def normFields : List (String × PyVal) → List (String × PyVal)
  | [] => []
  | (k, v) :: fs => (k, v.norm) :: normFields fs
end

/-- `json.dumps(v)`. -/
def dumps (v : PyVal) : PyVal := text v.norm

mutual
/-- `v == w` in Python.  Numbers compare by value; a list never equals a tuple; dictionaries compare without regard to order;
texts compare as strings.  (A text never meets another kind of string here.)  Inside containers Python compares by identity first, which
makes a difference for NaN only: this is the comparison of different objects; see `SharedEq` for the other case. -/
def PyEq : PyVal → PyVal → Prop
  | none, none => True
  | bool a, bool b => a = b
  | num x, num y => x.toFlt.eq y.toFlt = true
  | str s, str t => s = t
  | list l, list m => PyEqList l m
  | tuple l, tuple m => PyEqList l m
  | dict fs, dict gs => fs.length = gs.length ∧ PyEqFields fs gs
  | text j, text k => j = k
  | _, _ => False
/-- Elementwise comparison. -/
def PyEqList : List PyVal → List PyVal → Prop
  | [], [] => True
  | v :: l, w :: m => PyEq v w ∧ PyEqList l m
  | _, _ => False
/-- Every field of the first dictionary is in the second, with an equal value. -/
def PyEqFields : List (String × PyVal) → List (String × PyVal) → Prop
  | [], _ => True
  | (k, v) :: fs, gs => (match gs.lookup k with | some w => PyEq v w | Option.none => False) ∧ PyEqFields fs gs
end

/-- `v == w` for two dictionaries whose values are the same objects where they are the same number: CPython's dictionaries compare values by
identity first, so that a NaN equals itself. -/
def SharedEq : PyVal → PyVal → Prop
  | dict fs, dict gs => fs.length = gs.length ∧ ∀ e ∈ fs, ∃ w, gs.lookup e.1 = some w ∧ (e.2 = w ∨ PyEq e.2 w)
  | v, w => PyEq v w

/-- `None` or a boolean. -/
def ofOptBool : Option Bool → PyVal
  | Option.none => none
  | some b => bool b

/-- An `int`. -/
def nat (n : Nat) : PyVal := num (.int n)

end PyVal

/-! ### Classes and the registry -/

/-- The pattern classes shipped with the package. -/
inductive Builtin where
  | numericArray | numericVector | numericScalar | simplex | psd | array | dict
deriving DecidableEq

/-- base_patterns.py:178-180 `json_typename`: module and class name. -/
def Builtin.typename : Builtin → String
  | numericArray => "paragami.numeric_array_patterns.NumericArrayPattern"
  | numericVector => "paragami.numeric_array_patterns.NumericVectorPattern"
  | numericScalar => "paragami.numeric_array_patterns.NumericScalarPattern"
  | simplex => "paragami.simplex_patterns.SimplexArrayPattern"
  | psd => "paragami.psdmatrix_patterns.PSDSymmetricMatrixPattern"
  | array => "paragami.pattern_containers.PatternArray"
  | dict => "paragami.pattern_containers.PatternDict"

/-- A pattern class: shipped, or one defined by a user (with its `json_typename` and an identity). -/
inductive Cls where
  | builtin (b : Builtin)
  | user (name : String) (id : Nat)
deriving DecidableEq

/-- `cls.json_typename()`. -/
def Cls.typename : Cls → String
  | builtin b => b.typename
  | user name _ => name

/-- The global table `__json_patterns` (pattern_containers.py:16). -/
abbrev Registry := List (String × Cls)

/-- Assignment to a Python dictionary. -/
def Registry.set : Registry → String → Cls → Registry
  | [], k, c => [(k, c)]
  | (k', c') :: r, k, c => if k' = k then (k', c) :: r else (k', c') :: Registry.set r k c

/-- pattern_containers.py:17-46 `register_pattern_json`. -/
def register (reg : Registry) (c : Cls) (allowOverwrite : Bool) : Except Err Unit × Registry :=
  if !allowOverwrite && (reg.map (·.1)).contains c.typename then
    (.error (.valueError s!"A pattern named {c.typename} is already registered for JSON."), reg)
  else (.ok (), reg.set c.typename c)

/-- The table after `import paragami`: pattern_containers.py:666-667, numeric_array_patterns.py:365-367,
psdmatrix_patterns.py:344, simplex_patterns.py:261. -/
def initialRegistry : Registry :=
  [Builtin.dict, .array, .numericVector, .numericScalar, .numericArray, .psd, .simplex].foldl
    (fun reg b => (register reg (.builtin b) false).2) []

namespace Pattern
open PyVal

/-- `type(p)`. -/
def cls : Pattern → Builtin
  | numeric .array _ _ _ _ _ => .numericArray
  | numeric .vector _ _ _ _ _ => .numericVector
  | numeric .scalar _ _ _ _ _ => .numericScalar
  | simplex _ _ _ _ => .simplex
  | psd _ _ _ _ => .psd
  | array _ _ _ => .array
  | dict _ _ _ => .dict

mutual
/-- `as_dict`: numeric_array_patterns.py:171-178, 333-340 and 356-362, simplex_patterns.py:128-133,
psdmatrix_patterns.py:210-215, pattern_containers.py:199-209 and 485-490. -/
def asDict : Pattern → PyVal
  | numeric .array s lb ub dv fd => .dict [("pattern", .str Builtin.numericArray.typename), ("lb", .num lb), ("ub", .num ub),
      ("shape", .tuple (s.map .nat)), ("default_validate", .bool dv), ("free_default", .ofOptBool fd)]
  | numeric .vector s lb ub dv fd => .dict [("pattern", .str Builtin.numericVector.typename), ("length", .nat (s.headD 0)),
      ("lb", .num lb), ("ub", .num ub), ("default_validate", .bool dv), ("free_default", .ofOptBool fd)]
  | numeric .scalar _ lb ub dv fd => .dict [("pattern", .str Builtin.numericScalar.typename), ("lb", .num lb), ("ub", .num ub),
      ("default_validate", .bool dv), ("free_default", .ofOptBool fd)]
  | simplex k s dv _ => .dict [("pattern", .str Builtin.simplex.typename), ("simplex_size", .nat k),
      ("array_shape", .tuple (s.map .nat)), ("default_validate", .bool dv)]
  | psd n lb dv _ => .dict [("pattern", .str Builtin.psd.typename), ("size", .nat n), ("diag_lb", .num lb),
      ("default_validate", .bool dv)]
  | array s base _ => .dict [("pattern", .str Builtin.array.typename), ("shape", .tuple ((s ++ base.shape).map .nat)),
      ("array_shape", .tuple (s.map .nat)), ("base_pattern", .text base.asDict.norm)]
  | dict es _ _ => .dict [("pattern", .str Builtin.dict.typename), ("keys", .list (es.keys.map .str)),
      ("contents", .dict (contents es))]
/-- The `contents` of a dictionary: each member's JSON text. -/
def contents : Entries → List (String × PyVal)
  | .nil => []
  | .cons k p r => (k, .text p.asDict.norm) :: contents r
end

/-- base_patterns.py:363-370 `to_json`. -/
def toJson (p : Pattern) : PyVal := p.asDict.dumps

/-- base_patterns.py:173-176 `__eq__` of two patterns that do not hold the same NaN object as a bound. -/
def EqPy (p q : Pattern) : Prop := p.cls = q.cls ∧ PyVal.PyEq p.asDict q.asDict

/-- base_patterns.py:173-176 `__eq__` of two patterns whose bounds are the same objects (as in `p == p`, or with `np.nan` for both). -/
def EqPyShared (p q : Pattern) : Prop := p.cls = q.cls ∧ PyVal.SharedEq p.asDict q.asDict

end Pattern

/-! ### Reading JSON -/

namespace Json
open PyVal

noncomputable section

/-- A keyword argument that is a number, with its default. -/
def kwNum (fs : List (String × PyVal)) (k : String) (default : PyNum) : Except Err PyNum :=
  match fs.lookup k with
  | Option.none => .ok default
  | some (.num x) => .ok x
  | some _ => .error .unmodelled

/-- A keyword argument that is a boolean, with its default. -/
def kwBool (fs : List (String × PyVal)) (k : String) (default : Bool) : Except Err Bool :=
  match fs.lookup k with
  | Option.none => .ok default
  | some (.bool b) => .ok b
  | some _ => .error .unmodelled

/-- A keyword argument that is a boolean or `None` (the default). -/
def kwOptBool (fs : List (String × PyVal)) (k : String) : Except Err (Option Bool) :=
  match fs.lookup k with
  | Option.none => .ok Option.none
  | some .none => .ok Option.none
  | some (.bool b) => .ok (some b)
  | some _ => .error .unmodelled

/-- A non-negative integer (other values are outside the model). -/
def asNat : PyVal → Except Err Nat
  | .num (.int (.ofNat n)) => .ok n
  | _ => .error .unmodelled

/-- A sequence of non-negative integers (other values are outside the model). -/
def asNats : PyVal → Except Err (List Nat)
  | .list l => mapE asNat l
  | .tuple l => mapE asNat l
  | _ => .error .unmodelled

/-- `json_dict[k]`. -/
def field (fs : List (String × PyVal)) (k : String) : Except Err PyVal :=
  match fs.lookup k with
  | Option.none => .error (.keyError k)
  | some v => .ok v

/-- A required keyword argument. -/
def kwReq (fs : List (String × PyVal)) (k : String) : Except Err PyVal :=
  match fs.lookup k with
  | Option.none => .error .typeError
  | some v => .ok v

/-- `cls(**json_dict)` raises `TypeError` on a keyword that is not a parameter. -/
def checkKw (fs : List (String × PyVal)) (params : List String) : Except Err Unit :=
  if fs.all (fun f => params.contains f.1) then .ok () else .error .typeError

/-- base_patterns.py:395-398 `cls(**json_dict)` for `NumericArrayPattern`. -/
def newNumericArray (fs : List (String × PyVal)) : Except Err Pattern := do
  checkKw fs ["shape", "lb", "ub", "default_validate", "free_default"]
  let s ← kwReq fs "shape"
  let s ← asNats s
  let lb ← kwNum fs "lb" (.flt .ninf)
  let ub ← kwNum fs "ub" (.flt .pinf)
  let dv ← kwBool fs "default_validate" true
  let fd ← kwOptBool fs "free_default"
  Pattern.mkNumericArray s lb ub dv fd

/-- base_patterns.py:395-398 `cls(**json_dict)` for `NumericVectorPattern`. -/
def newNumericVector (fs : List (String × PyVal)) : Except Err Pattern := do
  checkKw fs ["length", "lb", "ub", "default_validate", "free_default"]
  let n ← kwReq fs "length"
  let n ← asNat n
  let lb ← kwNum fs "lb" (.flt .ninf)
  let ub ← kwNum fs "ub" (.flt .pinf)
  let dv ← kwBool fs "default_validate" true
  let fd ← kwOptBool fs "free_default"
  Pattern.mkNumericVector n lb ub dv fd

/-- base_patterns.py:395-398 `cls(**json_dict)` for `NumericScalarPattern`. -/
def newNumericScalar (fs : List (String × PyVal)) : Except Err Pattern := do
  checkKw fs ["lb", "ub", "default_validate", "free_default"]
  let lb ← kwNum fs "lb" (.flt .ninf)
  let ub ← kwNum fs "ub" (.flt .pinf)
  let dv ← kwBool fs "default_validate" true
  let fd ← kwOptBool fs "free_default"
  Pattern.mkNumericScalar lb ub dv fd

/-- base_patterns.py:395-398 `cls(**json_dict)` for `PSDSymmetricMatrixPattern`. -/
def newPSD (fs : List (String × PyVal)) : Except Err Pattern := do
  checkKw fs ["size", "diag_lb", "default_validate", "free_default"]
  let n ← kwReq fs "size"
  let n ← asNat n
  let lb ← kwNum fs "diag_lb" (.flt 0)
  let dv ← kwBool fs "default_validate" true
  let fd ← kwOptBool fs "free_default"
  Pattern.mkPSD n lb dv fd

/-- simplex_patterns.py:217-222: the end of `SimplexArrayPattern.from_json`. -/
def newSimplex (fs : List (String × PyVal)) : Except Err Pattern := do
  let k ← field fs "simplex_size"
  let k ← asNat k
  let s ← field fs "array_shape"
  let s ← asNats s
  let dv ← field fs "default_validate"
  match dv with
  | .bool dv => Pattern.mkSimplex k s dv Option.none
  | _ => .error .unmodelled

/-- `json_dict['pattern']` is compared with the name of the class (base_patterns.py:377-385, pattern_containers.py:372-378
and 633-639). -/
def checkType (fs : List (String × PyVal)) (name : String) : Except Err Unit := do
  let t ← field fs "pattern"
  match t with
  | .str s => if s = name then .ok () else .error (.valueError s!"{name}.from_json must be called on a json_string made from a the same pattern type.")
  | _ => .error (.valueError s!"{name}.from_json must be called on a json_string made from a the same pattern type.")

/-- The loop of `PatternDict.from_json` (pattern_containers.py:380-382), given what `get_pattern_from_json` returns for each
entry of `contents`.  The keys of `contents` are strings, so no other value is one of them; lists and dictionaries cannot be keys at
all. -/
def fillDict (contents : List (String × Except Err Pattern)) : Pattern → List PyVal → Except Err Pattern
  | d, [] => .ok d
  | d, .str k :: ks =>
    match contents.lookup k with
    | Option.none => .error (.keyError k)
    | some p => do
      let p ← p
      let d ← Pattern.setItem d k p
      fillDict contents d ks
  | _, .none :: _ | _, .bool _ :: _ | _, .num _ :: _ => .error (.keyError "a key that is not a string")
  | _, .list _ :: _ | _, .dict _ :: _ => .error .typeError
  | _, _ => .error .unmodelled

/-- `cls.from_json(json_string)` for a shipped class (base_patterns.py:387-398, simplex_patterns.py:213-222,
pattern_containers.py:370-383 and 631-642), where `json_string` encodes the dictionary `fs`.  `each` and `inner` hold what
`get_pattern_from_json` returns for the fields of `fs`, and for the entries of its dictionary-valued fields; only the ones the
code asks for are used. -/
def builtinFromJson (b : Builtin) (fs : List (String × PyVal)) (each : List (String × Except Err Pattern))
    (inner : List (String × List (String × Except Err Pattern))) : Except Err Pattern := do
  checkType fs b.typename
  let kw := fs.filter (fun f => f.1 != "pattern")
  match b with
  | .numericArray => newNumericArray kw
  | .numericVector => newNumericVector kw
  | .numericScalar => newNumericScalar kw
  | .psd => newPSD kw
  | .simplex => newSimplex fs
  | .array =>
    match each.lookup "base_pattern" with
    | Option.none => .error (.keyError "base_pattern")
    | some base => do
      let base ← base
      let s ← field fs "array_shape"
      let s ← asNats s
      Pattern.mkArray s base Option.none
  | .dict => do
    let keys ← field fs "keys"
    match keys with
    | .list ks =>
      match inner.lookup "contents" with
      | Option.none =>
        if ks.isEmpty then .ok (Pattern.mkDict Option.none)
        else if (fs.map (·.1)).contains "contents" then .error .unmodelled
        else .error (.keyError "contents")
      | some contents => fillDict contents (Pattern.mkDict Option.none) ks
    | _ => .error .unmodelled

variable (reg : Registry) (user : Nat → PyVal → Except Err Pattern)

/-- The class lookup of `get_pattern_from_json` (pattern_containers.py:63-77) on a loaded dictionary. -/
def dispatch (fs : List (String × PyVal)) (each : List (String × Except Err Pattern))
    (inner : List (String × List (String × Except Err Pattern))) : Except Err Pattern :=
  match fs.lookup "pattern" with
  | Option.none => .error (.keyError "A pattern JSON string must have an entry called pattern which is registered using ``register_pattern_json``.")
  | some (.str name) =>
    match reg.lookup name with
    | Option.none => .error (.keyError "Before converting from JSON, the pattern {} must be registered with ``register_pattern_json``.")
    | some (.builtin b) => builtinFromJson b fs each inner
    | some (.user _ id) => user id (.text (.dict fs))
  | some (.list _) => .error .typeError
  | some (.dict _) => .error .typeError
  | some _ => .error (.keyError "Before converting from JSON, the pattern {} must be registered with ``register_pattern_json``.")

mutual
/-- pattern_containers.py:49-77 `get_pattern_from_json`, with the table `reg` in force; `user id` is the `from_json` of the user
class `id`.  Loading something that is not a dictionary raises `TypeError` at the subscript. -/
def getPatternFromJson : PyVal → Except Err Pattern
  | .text (.dict fs) => dispatch reg user fs (getEach fs) (getInner fs)
  | .text _ => .error .typeError
  | _ => .error .unmodelled
/-- `get_pattern_from_json` of each value. -/
def getEach : List (String × PyVal) → List (String × Except Err Pattern)
  | [] => []
  | (k, v) :: fs => (k, getPatternFromJson v) :: getEach fs
/-- `get_pattern_from_json` of each entry of each dictionary value. -/
def getInner : List (String × PyVal) → List (String × List (String × Except Err Pattern))
  | [] => []
  | (k, .dict gs) :: fs => (k, getEach gs) :: getInner fs
  | _ :: fs => getInner fs
end

/-- `C.from_json(json_string)` called by a user on a shipped class. -/
def fromJson (b : Builtin) : PyVal → Except Err Pattern
  | .text (.dict fs) => builtinFromJson b fs (getEach reg user fs) (getInner reg user fs)
  | .text _ => .error .typeError
  | _ => .error .unmodelled

/-- A sequence of `register_pattern_json` calls (exceptions are caught by the caller). -/
def registerAll (reg : Registry) (calls : List (Cls × Bool)) : Registry :=
  calls.foldl (fun reg c => (register reg c.1 c.2).2) reg

end

end Json

end Paragami
