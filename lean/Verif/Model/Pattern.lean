import Verif.Model.Numeric
import Verif.Model.Simplex
import Verif.Model.PSD

/-!
# Patterns as trees (paragami/base_patterns.py, paragami/pattern_containers.py)

`Pattern` records exactly the constructor parameters the code stores.  The operations are structural recursions that
follow the Python methods.  Aliasing and mutation of pattern objects are modelled separately (`Model/DictHeap.lean`).
-/

namespace Paragami

/-- Which of the three numeric classes an object was built with (they share all behaviour except `as_dict`). -/
inductive NumCls where
  | array | vector | scalar
deriving DecidableEq, Repr

mutual
/-- A pattern object: its class and stored constructor parameters. -/
inductive Pattern where
  /-- numeric_array_patterns.py:114-165, 317-362 -/
  | numeric (cls : NumCls) (shape : List Nat) (lb ub : PyNum) (dv : Bool) (fd : Option Bool)
  /-- simplex_patterns.py:59-113 -/
  | simplex (size : Nat) (ashape : List Nat) (dv : Bool) (fd : Option Bool)
  /-- psdmatrix_patterns.py:172-204 -/
  | psd (size : Nat) (diagLb : PyNum) (dv : Bool) (fd : Option Bool)
  /-- pattern_containers.py:423-479 -/
  | array (ashape : List Nat) (base : Pattern) (fd : Option Bool)
  /-- pattern_containers.py:137-183 -/
  | dict (es : Entries) (locked : Bool) (fd : Option Bool)
/-- The ordered members of a `PatternDict`. -/
inductive Entries where
  | nil
  | cons (key : String) (p : Pattern) (rest : Entries)
end

namespace Entries
/-- The members as an association list. -/
def toList : Entries → List (String × Pattern)
  | nil => []
  | cons k p r => (k, p) :: r.toList
/-- pattern_containers.py:243-244 `keys`. -/
def keys (es : Entries) : List String := es.toList.map (·.1)
/-- `OrderedDict.__setitem__`: replace in place, or append a new key. -/
def set : Entries → String → Pattern → Entries
  | nil, k, p => cons k p nil
  | cons k' p' r, k, p => if k' = k then cons k' p r else cons k' p' (r.set k p)
/-- `OrderedDict.pop(key)` (for a key that is present). -/
def erase : Entries → String → Entries
  | nil, _ => nil
  | cons k' p' r, k => if k' = k then r else cons k' p' (r.erase k)
/-- `OrderedDict.__getitem__`. -/
def get? : Entries → String → Option Pattern
  | nil, _ => none
  | cons k' p' r, k => if k' = k then some p' else r.get? k
end Entries

namespace Pattern

noncomputable section

/-- The stored `free_default` (base_patterns.py:62-79). -/
def freeDefault : Pattern → Option Bool
  | numeric _ _ _ _ _ fd => fd
  | simplex _ _ _ fd => fd
  | psd _ _ _ fd => fd
  | array _ _ fd => fd
  | dict _ _ fd => fd

/-- base_patterns.py:159-171 `_free_with_default`. -/
def freeWithDefault (fd free : Option Bool) : Except Err Bool :=
  match free with
  | some b => .ok b
  | none =>
    match fd with
    | some b => .ok b
    | none => .error (.valueError "If ``free_default`` is ``None``, ``free`` must be specified.")

/-- Is the object exactly a `PatternDict`? -/
def isDict : Pattern → Bool
  | dict _ _ _ => true
  | _ => false

/-- The `shape` of folded values of an array-valued pattern: numeric_array_patterns.py:248, simplex_patterns.py:123,
psdmatrix_patterns.py:222, pattern_containers.py:474 (`array_shape + base.empty(valid=False).shape`).  Folded values of
a `PatternDict` have no shape (`[]`, never used). -/
def shape : Pattern → List Nat
  | numeric _ s _ _ _ _ => s
  | simplex k s _ _ => s ++ [k]
  | psd n _ _ _ => [n, n]
  | array s base _ => s ++ base.shape
  | dict _ _ _ => []

mutual
/-- `flat_length(free)`: base_patterns.py:192-210 with the lengths passed by each `__init__`
(numeric_array_patterns.py:149, simplex_patterns.py:110-112, psdmatrix_patterns.py:203, pattern_containers.py:476-479)
and, for `PatternDict`, pattern_containers.py:322-326 `_update_flat_length`. -/
def flatLen : Pattern → Bool → Nat
  | numeric _ s _ _ _ _, _ => s.prod
  | simplex k s _ _, free => if free then (s ++ [k - 1]).prod else (s ++ [k]).prod
  | psd n _ _ _, free => if free then n * (n + 1) / 2 else n ^ 2
  | array s base _, free => s.prod * base.flatLen free
  | dict es _ _, free => flatLenEs es free
/-- The sum over the members. -/
def flatLenEs : Entries → Bool → Nat
  | .nil, _ => 0
  | .cons _ p r, free => p.flatLen free + flatLenEs r free
end

/-- base_patterns.py:192-210 `flat_length(free=None)` as called by a user. -/
def flatLength (p : Pattern) (free : Option Bool) : Except Err Nat := do
  let free ← freeWithDefault p.freeDefault free
  return p.flatLen free

section Validate
variable {α : Type} [Elem α]

/-- The loop of `PatternArray.validate_folded` (pattern_containers.py:518-524) over the array items. -/
def validateItems (f : NDArray α → Except Err (Bool × String)) (a : NDArray α) :
    List (List Nat) → Except Err (Bool × String)
  | [] => .ok (true, "")
  | item :: rest => do
    let sub ← a.getItem item
    let (valid, msg) ← f sub
    if !valid then return (false, "Bad value in location : " ++ msg)
    validateItems f a rest

mutual
/-- `validate_folded(folded_val, validate_value)`: numeric_array_patterns.py:196-208, simplex_patterns.py:147-159,
psdmatrix_patterns.py:246-289, pattern_containers.py:507-524 (`PatternArray`), 252-263 (`PatternDict`). -/
def validate : Pattern → Val α → Option Bool → Except Err (Bool × String)
  | numeric _ s lb ub dv _, v, vv => do
    let a ← v.asArr
    return Numeric.validate s lb.toFlt ub.toFlt dv a vv
  | simplex k s dv _, v, vv => do
    let a ← v.asArr
    Simplex.validate k s dv a vv
  | psd n lb dv _, v, vv => do
    let a ← v.asArr
    PSD.validate n lb.toFlt dv a vv
  | array s base _, v, vv => do
    let a ← v.asArr
    if a.ndim ≠ (s ++ base.shape).length then return (false, "Wrong number of dimensions.")
    if a.shape ≠ s ++ base.shape then return (false, "Wrong shape.")
    validateItems (fun sub => base.validate (.arr sub) vv) a (NDArray.productRanges s)
  | dict es _ _, v, vv => do
    let vs ← v.asDict
    validateEs es vs vv
/-- The loop of `PatternDict.validate_folded` (pattern_containers.py:252-263). -/
def validateEs : Entries → List (String × Val α) → Option Bool → Except Err (Bool × String)
  | .nil, _, _ => .ok (true, "")
  | .cons k p r, vs, vv =>
    match vs.lookup k with
    | none => .ok (false, k ++ " not in folded_val dictionary.")
    | some v => do
      let (valid, msg) ← p.validate v vv
      if !valid then return (false, msg ++ " is not valid.")
      validateEs r vs vv
end

/-- `valid, msg = ...; if not valid: raise ValueError(msg)`, as written in every `fold` and `flatten`. -/
def requireValid (r : Except Err (Bool × String)) : Except Err Unit := do
  let (valid, msg) ← r
  if !valid then throw (.valueError msg)

/-- The argument checks at the start of `PatternDict.fold` and `PatternArray.fold`
(pattern_containers.py:266-277 and 556-564): `atleast_1d`, one-dimensional, right size. -/
def checkFlat (x : NDArray α) (n : Nat) : Except Err (NDArray α) := do
  let x := x.atleast1d
  if x.ndim ≠ 1 then throw (.valueError "The argument to fold must be a 1d vector.")
  if x.size ≠ n then throw (.valueError "Wrong size.")
  return x

/-- `np.array([base.fold(flat_val[slice(item)]) for item in product])` then `np.reshape(…, shape)`
(pattern_containers.py:533-553 `_stacked_obs_slice` and 566-573). -/
def foldItems (f : NDArray α → Except Err (Val α)) (x : NDArray α) (ashape shape : List Nat) (len : Nat) :
    Except Err (NDArray α) := do
  let parts ← mapE (fun item => do
      let v ← f (x.slice (NDArray.ravel ashape item * len) len)
      v.asArr) (NDArray.productRanges ashape)
  let stacked ← NDArray.stack parts
  stacked.reshape shape

mutual
/-- `fold(flat_val, free=False, validate_value)`: numeric_array_patterns.py:210-234, simplex_patterns.py:161-174,
psdmatrix_patterns.py:301-316, pattern_containers.py:555-580 and 265-296. -/
def foldNF : Pattern → NDArray α → Option Bool → Except Err (Val α)
  | numeric _ s lb ub dv _, x, vv => do
    let a ← Numeric.foldNF s lb.toFlt ub.toFlt dv x vv
    return .arr a
  | simplex k s dv _, x, vv => do
    let a ← Simplex.foldNF k s dv x vv
    return .arr a
  | psd n lb dv _, x, vv => do
    let a ← PSD.foldNF n lb.toFlt dv x vv
    return .arr a
  | array s base fd, x, vv => do
    let x ← checkFlat x (s.prod * base.flatLen false)
    let a ← foldItems (fun sub => base.foldNF sub vv) x s (s ++ base.shape) (base.flatLen false)
    requireValid ((array s base fd).validate (.arr a) vv)
    return .arr a
  | dict es l fd, x, vv => do
    let x ← checkFlat x (flatLenEs es false)
    let vs ← foldNFEs es x vv 0
    requireValid ((dict es l fd).validate (.dict vs) vv)
    return .dict vs
/-- The loop of `PatternDict.fold` (pattern_containers.py:280-291). -/
def foldNFEs : Entries → NDArray α → Option Bool → Nat → Except Err (List (String × Val α))
  | .nil, _, _, _ => .ok []
  | .cons k p r, x, vv, offset => do
    let v ← p.foldNF (x.slice offset (p.flatLen false)) vv
    let vs ← foldNFEs r x vv (offset + p.flatLen false)
    return (k, v) :: vs
end

/-- `np.hstack(np.array([base.flatten(folded_val[item]) for item in product]))` (pattern_containers.py:589-592). -/
def flattenItems (f : Val α → Except Err (NDArray α)) (a : NDArray α) (ashape : List Nat) :
    Except Err (NDArray α) := do
  let parts ← mapE (fun item => do
      let sub ← a.getItem item
      f (.arr sub)) (NDArray.productRanges ashape)
  NDArray.hstack parts

mutual
/-- `flatten(folded_val, free=False, validate_value)`: numeric_array_patterns.py:236-246, simplex_patterns.py:176-184,
psdmatrix_patterns.py:291-299, pattern_containers.py:582-592 and 298-320. -/
def flattenNF : Pattern → Val α → Option Bool → Except Err (NDArray α)
  | numeric _ s lb ub dv _, v, vv => do
    let a ← v.asArr
    Numeric.flattenNF s lb.toFlt ub.toFlt dv a vv
  | simplex k s dv _, v, vv => do
    let a ← v.asArr
    Simplex.flattenNF k s dv a vv
  | psd n lb dv _, v, vv => do
    let a ← v.asArr
    PSD.flattenNF n lb.toFlt dv a vv
  | array s base fd, v, vv => do
    requireValid ((array s base fd).validate v vv)
    let a ← v.asArr
    flattenItems (fun sub => base.flattenNF sub vv) a s
  | dict es l fd, v, vv => do
    requireValid ((dict es l fd).validate v vv)
    let vs ← v.asDict
    let parts ← flattenNFEs es vs vv
    NDArray.hstack parts
/-- The loop of `PatternDict.flatten` (pattern_containers.py:308-319). -/
def flattenNFEs : Entries → List (String × Val α) → Option Bool → Except Err (List (NDArray α))
  | .nil, _, _ => .ok []
  | .cons k p r, vs, vv =>
    match vs.lookup k with
    | none => .error (.keyError k)
    | some v => do
      let x ← p.flattenNF v vv
      let xs ← flattenNFEs r vs vv
      return x :: xs
end

end Validate

mutual
/-- `fold(flat_val, free=True)`, same source lines as `foldNF`.  No class validates a free fold, so `validate_value`
has no effect and is not a parameter. -/
def foldFree : Pattern → NDArray Flt → Except Err (Val Flt)
  | numeric _ s lb ub _ _, x => do
    let a ← Numeric.foldFree s lb.toFlt ub.toFlt x
    return .arr a
  | simplex k s _ _, x => do
    let a ← Simplex.foldFree k s x
    return .arr a
  | psd n lb _ _, x => do
    let a ← PSD.foldFree n lb.toFlt x
    return .arr a
  | array s base _, x => do
    let x ← checkFlat x (s.prod * base.flatLen true)
    let a ← foldItems (fun sub => base.foldFree sub) x s (s ++ base.shape) (base.flatLen true)
    return .arr a
  | dict es _ _, x => do
    let x ← checkFlat x (flatLenEs es true)
    let vs ← foldFreeEs es x 0
    return .dict vs
/-- The loop of `PatternDict.fold` with `free=True` (pattern_containers.py:280-291). -/
def foldFreeEs : Entries → NDArray Flt → Nat → Except Err (List (String × Val Flt))
  | .nil, _, _ => .ok []
  | .cons k p r, x, offset => do
    let v ← p.foldFree (x.slice offset (p.flatLen true))
    let vs ← foldFreeEs r x (offset + p.flatLen true)
    return (k, v) :: vs
end

mutual
/-- `flatten(folded_val, free=True, validate_value)`, same source lines as `flattenNF`. -/
def flattenFree : Pattern → Val Flt → Option Bool → Except Err (NDArray Flt)
  | numeric _ s lb ub dv _, v, vv => do
    let a ← v.asArr
    Numeric.flattenFree s lb.toFlt ub.toFlt dv a vv
  | simplex k s dv _, v, vv => do
    let a ← v.asArr
    Simplex.flattenFree k s dv a vv
  | psd n lb dv _, v, vv => do
    let a ← v.asArr
    PSD.flattenFree n lb.toFlt dv a vv
  | array s base fd, v, vv => do
    requireValid ((array s base fd).validate v vv)
    let a ← v.asArr
    flattenItems (fun sub => base.flattenFree sub vv) a s
  | dict es l fd, v, vv => do
    requireValid ((dict es l fd).validate v vv)
    let vs ← v.asDict
    let parts ← flattenFreeEs es vs vv
    NDArray.hstack parts
/-- The loop of `PatternDict.flatten` with `free=True` (pattern_containers.py:308-319). -/
def flattenFreeEs : Entries → List (String × Val Flt) → Option Bool → Except Err (List (NDArray Flt))
  | .nil, _, _ => .ok []
  | .cons k p r, vs, vv =>
    match vs.lookup k with
    | none => .error (.keyError k)
    | some v => do
      let x ← p.flattenFree v vv
      let xs ← flattenFreeEs r vs vv
      return x :: xs
end

/-- `pattern.fold(flat_val, free=None, validate_value=None)` as called by a user: every class resolves `free` first. -/
def fold (p : Pattern) (x : NDArray Flt) (free vv : Option Bool := none) : Except Err (Val Flt) := do
  let free ← freeWithDefault p.freeDefault free
  if free then p.foldFree x else p.foldNF x vv

/-- `pattern.flatten(folded_val, free=None, validate_value=None)` as called by a user. -/
def flatten (p : Pattern) (v : Val Flt) (free vv : Option Bool := none) : Except Err (NDArray Flt) := do
  let free ← freeWithDefault p.freeDefault free
  if free then p.flattenFree v vv else p.flattenNF v vv

/-- base_patterns.py:182-185 `_freeing_transform`. -/
def freeingTransform (p : Pattern) (x : NDArray Flt) : Except Err (NDArray Flt) := do
  let v ← p.fold x (some false)
  p.flatten v (some true)

/-- base_patterns.py:187-190 `_unfreeing_transform`. -/
def unfreeingTransform (p : Pattern) (x : NDArray Flt) : Except Err (NDArray Flt) := do
  let v ← p.fold x (some true)
  p.flatten v (some false)

mutual
/-- `empty(valid=True)`: numeric_array_patterns.py:180-185, simplex_patterns.py:135-139, psdmatrix_patterns.py:232-236,
pattern_containers.py:526-531 and 246-250. -/
def empty : Pattern → Except Err (Val Flt)
  | numeric _ s lb ub _ _ => do
    let c ← inboundsValue lb.toFlt ub.toFlt
    return .arr ⟨s, List.replicate s.prod c⟩
  | simplex k s _ _ => .ok (.arr ⟨s ++ [k], List.replicate (s ++ [k]).prod (1 / Flt.fin (k : ℝ))⟩)
  | psd n lb _ _ => .ok (.arr (ofFn2 n n fun i j => (if i = j then 1 else 0) * (lb.toFlt + 1)))
  | array s base _ => do
    let v ← base.empty
    let a ← v.asArr
    let stacked ← NDArray.stack ((NDArray.productRanges s).map fun _ => a)
    let r ← stacked.reshape (s ++ base.shape)
    return .arr r
  | dict es _ _ => do
    let vs ← emptyEs es
    return .dict vs
/-- The loop of `PatternDict.empty` (pattern_containers.py:246-250). -/
def emptyEs : Entries → Except Err (List (String × Val Flt))
  | .nil => .ok []
  | .cons k p r => do
    let v ← p.empty
    let vs ← emptyEs r
    return (k, v) :: vs
end

/-- base_patterns.py:227-242 `empty_bool`. -/
def emptyBool (p : Pattern) (value : Bool) : Except Err (Val Bool) :=
  p.foldNF (NDArray.vec (List.replicate (p.flatLen false) value)) (some false)

/-- base_patterns.py:212-223 `random`; the vector returned by `np.random.random` is an argument. -/
def random (p : Pattern) (draw : List Flt) : Except Err (Val Flt) :=
  p.foldFree (NDArray.vec draw)

/-- The loop of `PatternArray.flat_indices` (pattern_containers.py:650-659).  An empty contribution is skipped by the
code and contributes nothing here. -/
def flatIndicesItems (f : Val Bool → Except Err (List Nat)) (a : NDArray Bool) (len : Nat) :
    List (List Nat) → Nat → Except Err (List Nat)
  | [], _ => .ok []
  | item :: rest, offset => do
    let sub ← a.getItem item
    let here ← if sub.data.any id then f (.arr sub) else .ok []
    let more ← flatIndicesItems f a len rest (offset + len)
    return here.map (· + offset) ++ more

mutual
/-- `flat_indices(folded_bool, free)` with `free` resolved: numeric_array_patterns.py:261-274,
simplex_patterns.py:224-258, psdmatrix_patterns.py:318-340, pattern_containers.py:644-663 and 385-406. -/
def flatIdx : Pattern → Val Bool → Bool → Except Err (List Nat)
  | numeric _ s _ _ _ _, v, _ => do
    let a ← v.asArr
    Numeric.flatIndices s a
  | simplex k s _ _, v, free => do
    let a ← v.asArr
    Simplex.flatIndices k s a free
  | psd n lb _ _, v, free => do
    let a ← v.asArr
    PSD.flatIndices n lb.toFlt a free
  | array s base fd, v, free => do
    requireValid ((array s base fd).validate v (some false))
    let a ← v.asArr
    flatIndicesItems (fun sub => base.flatIdx sub free) a (base.flatLen free) (NDArray.productRanges s) 0
  | dict es l fd, v, free => do
    requireValid ((dict es l fd).validate v (some false))
    let vs ← v.asDict
    flatIdxEs es vs free 0
/-- The loop of `PatternDict.flat_indices` (pattern_containers.py:392-402). -/
def flatIdxEs : Entries → List (String × Val Bool) → Bool → Nat → Except Err (List Nat)
  | .nil, _, _, _ => .ok []
  | .cons k p r, vs, free, offset =>
    match vs.lookup k with
    | none => .error (.keyError k)
    | some v => do
      let here ← p.flatIdx v free
      let more ← flatIdxEs r vs free (offset + p.flatLen free)
      return here.map (· + offset) ++ more
end

/-- `pattern.flat_indices(folded_bool, free=None)` as called by a user.  The leaf classes return the empty answer for
an all-false mask before resolving `free` (numeric_array_patterns.py:263, simplex_patterns.py:226,
psdmatrix_patterns.py:320); the containers resolve `free` first. -/
def flatIndices (p : Pattern) (v : Val Bool) (free : Option Bool := none) : Except Err (List Nat) :=
  match p, v with
  | dict .., _ | array .., _ => do
    let free ← freeWithDefault p.freeDefault free
    p.flatIdx v free
  | _, .arr a => if !a.data.any id then .ok [] else do
    let free ← freeWithDefault p.freeDefault free
    p.flatIdx v free
  | _, .dict _ => .error .typeError

mutual
/-- `flat_names(free)`: numeric_array_patterns.py:308-314 (which ignores `free`), base_patterns.py:372-375 (simplex, PSD
and `PatternArray`, which resolve `free` with their own default inside `flat_length`), pattern_containers.py:408-416
(`PatternDict`, which hands `free` to its members as it is, and uses `delim` at the top level only).  `delim` is ignored
by the classes that do not have the argument. -/
def flatNames : Pattern → (free : Option Bool) → (delim : String) → Except Err (List String)
  | numeric _ s _ _ _ _, _, _ => .ok (Numeric.flatNames s)
  | simplex k s dv fd, free, _ => do
    let free ← freeWithDefault fd free
    return (List.range ((simplex k s dv fd).flatLen free)).map toString
  | psd n lb dv fd, free, _ => do
    let free ← freeWithDefault fd free
    return (List.range ((psd n lb dv fd).flatLen free)).map toString
  | array s base fd, free, _ => do
    let free ← freeWithDefault fd free
    return (List.range ((array s base fd).flatLen free)).map toString
  | dict es _ _, free, delim => do
    let parts ← flatNamesEs es free delim
    match parts with
    | [] => .error .indexError
    | _ => return parts.flatten
/-- The loop of `PatternDict.flat_names` (pattern_containers.py:409-415). -/
def flatNamesEs : Entries → Option Bool → String → Except Err (List (List String))
  | .nil, _, _ => .ok []
  | .cons k p r, free, delim => do
    let here ← p.flatNames free "_"
    let more ← flatNamesEs r free delim
    return here.map (k ++ delim ++ ·) :: more
end

/-! ### Constructors (`__init__`) and `PatternDict` updates -/

/-- numeric_array_patterns.py:124-165 `NumericArrayPattern.__init__` (shared by the vector and scalar classes).
Negative dimensions are in `Model/Sizes.lean`.  The two cached index arrays are built by `fold`, which raises for
`shape = ()`. -/
def mkNumeric (cls : NumCls) (shape : List Nat) (lb ub : PyNum) (dv : Bool) (fd : Option Bool) :
    Except Err Pattern := do
  if !(lb.toFlt.ge .ninf) then throw .assertionError
  if !(ub.toFlt.le .pinf) then throw .assertionError
  if lb.toFlt.ge ub.toFlt then
    throw (.valueError "Upper bound ub must strictly exceed lower bound lb")
  let p := numeric cls shape lb ub dv fd
  let _ ← p.foldNF (NDArray.vec (List.range (p.flatLen true))) (some false)
  let _ ← p.foldNF (NDArray.vec (List.range (p.flatLen false))) (some false)
  return p

/-- numeric_array_patterns.py:114-165 `NumericArrayPattern(shape, ...)`. -/
def mkNumericArray (shape : List Nat) := mkNumeric .array shape
/-- numeric_array_patterns.py:324-328 `NumericVectorPattern(length, ...)`. -/
def mkNumericVector (length : Nat) := mkNumeric .vector [length]
/-- numeric_array_patterns.py:350-354 `NumericScalarPattern(...)`. -/
def mkNumericScalar := mkNumeric .scalar [1]

/-- simplex_patterns.py:88-113 `SimplexArrayPattern.__init__` for an integer `simplex_size`. -/
def mkSimplex (size : ℤ) (ashape : List Nat) (dv : Bool) (fd : Option Bool) : Except Err Pattern :=
  if size ≤ 1 then .error (.valueError "simplex_size must be >= 2.")
  else .ok (simplex size.toNat ashape dv fd)

/-- psdmatrix_patterns.py:181-204 `PSDSymmetricMatrixPattern.__init__` for a non-negative integer `size`; other sizes are in
`Model/Sizes.lean`. -/
def mkPSD (size : Nat) (diagLb : PyNum) (dv : Bool) (fd : Option Bool) : Except Err Pattern :=
  if diagLb.toFlt.lt 0 then .error (.valueError "The diagonal lower bound diag_lb must be >-= 0.")
  else .ok (psd size diagLb dv fd)

/-- pattern_containers.py:437-479 `PatternArray.__init__`.  `array_shape = ()` gives floating-point lengths in the
code and is outside the model. -/
def mkArray (ashape : List Nat) (base : Pattern) (fd : Option Bool) : Except Err Pattern :=
  if base.isDict then
    .error (.notImplementedError
      "PatternArray does not support patterns whose folded values are not numpy.ndarray types.")
  else if ashape = [] then .error .unmodelled
  else .ok (array ashape base fd)

/-- pattern_containers.py:178-183 `PatternDict.__init__`. -/
def mkDict (fd : Option Bool) : Pattern := dict .nil false fd

/-- pattern_containers.py:185-186 `lock` (no effect on other classes, which have no such method). -/
def lock : Pattern → Pattern
  | dict es _ fd => dict es true fd
  | p => p

/-- pattern_containers.py:216-232 `PatternDict.__setitem__` with a pattern value; a `PatternDict` member is locked. -/
def setItem (d : Pattern) (k : String) (p : Pattern) : Except Err Pattern :=
  match d with
  | dict es locked fd =>
    if locked then .error (.valueError "The dictionary is locked, and its values cannot be changed.")
    else .ok (dict (es.set k p.lock) locked fd)
  | _ => .error .typeError

/-- pattern_containers.py:234-241 `PatternDict.__delitem__`. -/
def delItem (d : Pattern) (k : String) : Except Err Pattern :=
  match d with
  | dict es locked fd =>
    if locked then .error (.valueError "The dictionary is locked, and its values cannot be changed.")
    else
      match es.get? k with
      | none => .error (.keyError k)
      | some _ => .ok (dict (es.erase k) locked fd)
  | _ => .error .typeError

end

end Pattern

end Paragami
