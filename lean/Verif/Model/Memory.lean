import Verif.Model.Pattern

/-!
# Array memory: views and copies

The other model files treat arrays as values.  Here an array object is a shape plus, for every entry, the *address* of
the memory cell holding it, so that numpy views (which share cells) and copies (which do not) can be told apart.
`fold` and `flatten` are transcribed again, statement by statement, over this memory.

numpy facts used (numpy documentation): basic slicing, integer-tuple indexing of leading axes, `atleast_1d` of an array and
`reshape` of a one-dimensional or contiguous array return views; `copy.copy`, `.flatten()`, arithmetic, `np.array([…])`,
`np.hstack`, `np.exp`, `np.log`, boolean or integer-array indexing return newly allocated arrays.  Temporaries that are not
part of the result are not given cells (nobody can refer to them afterwards).  Arguments are arrays (not Python lists or
scalars, for which numpy makes a new array first).
-/

namespace Paragami

mutual
/-- Map a function over all entries of a folded value. -/
def Val.map {α β : Type} (f : α → β) : Val α → Val β
  | .arr a => .arr (a.map f)
  | .dict es => .dict (Val.mapEs f es)
/-- `Val.map` for every member. -/
def Val.mapEs {α β : Type} (f : α → β) : List (String × Val α) → List (String × Val β)
  | [] => []
  | (k, v) :: r => (k, v.map f) :: Val.mapEs f r
end

namespace Memory

/-- The address of a memory cell. -/
abbrev Addr := Nat
/-- All memory cells; the cell with address `i` is at position `i`. -/
abbrev Mem := List Flt
/-- Computations that read and allocate memory and may raise. -/
abbrev MM (β : Type) := Mem → Except Err (β × Mem)

/-- Contents of a cell. -/
def rd (m : Mem) (a : Addr) : Flt := m.getD a Flt.nan

/-- Return a value. -/
def ret {β : Type} (b : β) : MM β := fun m => .ok (b, m)
/-- Sequencing. -/
def andThen {β γ : Type} (c : MM β) (f : β → MM γ) : MM γ := fun m =>
  match c m with
  | .error e => .error e
  | .ok (b, m') => f b m'
/-- A computation that does not touch memory. -/
def lift {β : Type} (r : Except Err β) : MM β := fun m => r.map fun b => (b, m)
/-- A computation that only reads memory; `g` gets the function reading a cell. -/
def reading {β : Type} (g : (Addr → Flt) → Except Err β) : MM β := fun m => (g (rd m)).map fun b => (b, m)
/-- Allocate a new array holding the result of a computation that reads memory. -/
def allocate (g : (Addr → Flt) → Except Err (NDArray Flt)) : MM (NDArray Addr) := fun m =>
  match g (rd m) with
  | .error e => .error e
  | .ok a => .ok (⟨a.shape, (List.range a.data.length).map (m.length + ·)⟩, m ++ a.data)
/-- `[f(x) for x in l]`. -/
def mapMM {α β : Type} (f : α → MM β) : List α → MM (List β)
  | [] => ret []
  | a :: l => andThen (f a) fun b => andThen (mapMM f l) fun bs => ret (b :: bs)

/-- `copy.copy(a)` of an array: a new array with the same contents. -/
def copy (a : NDArray Addr) : MM (NDArray Addr) := allocate fun r => .ok (a.map r)
/-- `a.flatten()`: always a copy. -/
def flattenCopy (a : NDArray Addr) : MM (NDArray Addr) := allocate fun r => .ok (a.map r).flatten

noncomputable section

/-- numeric_array_patterns.py:96-111 `_constrain_array`: a copy without bounds, new arrays otherwise. -/
def constrainArray (lb ub : Flt) (x : NDArray Addr) : MM (NDArray Addr) :=
  if ub.eq .pinf then
    if lb.eq .ninf then copy x
    else allocate fun r => .ok ((x.map r).map (constrain1 lb ub))
  else allocate fun r => .ok ((x.map r).map (constrain1 lb ub))

/-- numeric_array_patterns.py:11-25 `_unconstrain_array`: a copy without bounds, new arrays otherwise. -/
def unconstrainArray (lb ub : Flt) (x : NDArray Addr) : MM (NDArray Addr) :=
  if ub.eq .pinf then
    if lb.eq .ninf then copy x
    else allocate fun r => .ok ((x.map r).map (unconstrain1 lb ub))
  else allocate fun r => .ok ((x.map r).map (unconstrain1 lb ub))

/-- `valid, msg = self.validate_folded(v); if not valid: raise ValueError(msg)`: reads only. -/
def requireValid (p : Pattern) (v : Val Addr) (vv : Option Bool) : MM Unit :=
  reading fun r => Pattern.requireValid (p.validate (v.map r) vv)

/-- The argument checks at the start of `fold` (`atleast_1d`, one-dimensional, right size), giving a view. -/
def checkFlat (msg : String) (x : NDArray Addr) (n : Nat) : MM (NDArray Addr) :=
  let x := x.atleast1d
  if x.ndim ≠ 1 then lift (.error (.valueError "The argument to fold must be a 1d vector."))
  else if x.size ≠ n then lift (.error (.valueError msg))
  else ret x

mutual
/-- `fold(flat_val, free, validate_value)`: numeric_array_patterns.py:210-234, simplex_patterns.py:161-174,
psdmatrix_patterns.py:301-316, pattern_containers.py:555-580 (`np.array([…])` copies) and 265-296 (slices are views). -/
def fold : Pattern → NDArray Addr → Bool → Option Bool → MM (Val Addr)
  | .numeric c s lb ub dv fd, x, free, vv =>
    andThen (checkFlat "Wrong size for array." x s.prod) fun x =>
      if free then
        andThen (constrainArray lb.toFlt ub.toFlt x) fun a =>
        andThen (lift (a.reshape s)) fun a => ret (.arr a)
      else
        andThen (lift (x.reshape s)) fun a =>
        andThen (requireValid (.numeric c s lb ub dv fd) (.arr a) vv) fun _ => ret (.arr a)
  | .simplex k s dv fd, x, free, vv =>
    andThen (lift x.len) fun n =>
    if free then
      if n ≠ (s ++ [k - 1]).prod then lift (.error (.valueError "flat_val is the wrong length."))
      else
        andThen (lift (x.reshape (s ++ [k - 1]))) fun mat =>
        andThen (allocate fun r => .ok ⟨s ++ [k],
          (NDArray.rows s.prod (k - 1) (mat.map r).data).flatMap constrainSimplexRow⟩) fun a => ret (.arr a)
    else
      if n ≠ (s ++ [k]).prod then lift (.error (.valueError "flat_val is the wrong length."))
      else
        andThen (lift (x.reshape (s ++ [k]))) fun a =>
        andThen (requireValid (.simplex k s dv fd) (.arr a) vv) fun _ => ret (.arr a)
  | .psd n lb dv fd, x, free, vv =>
    andThen (checkFlat "Wrong length for PSDSymmetricMatrix flat value." x (if free then n * (n + 1) / 2 else n ^ 2)) fun x =>
      if free then
        andThen (allocate fun r => unpackPosdef lb.toFlt (x.map r)) fun a => ret (.arr a)
      else
        andThen (lift (x.reshape [n, n])) fun a =>
        andThen (requireValid (.psd n lb dv fd) (.arr a) vv) fun _ => ret (.arr a)
  | .array s base fd, x, free, vv =>
    andThen (checkFlat "Wrong size." x (s.prod * base.flatLen free)) fun x =>
    andThen (mapMM (fun item =>
        andThen (fold base (x.slice (NDArray.ravel s item * base.flatLen free) (base.flatLen free)) free vv) fun v =>
        lift v.asArr) (NDArray.productRanges s)) fun parts =>
    andThen (allocate fun r => NDArray.stack (parts.map (·.map r))) fun stacked =>
    andThen (lift (stacked.reshape (s ++ base.shape))) fun a =>
      if free then ret (.arr a)
      else andThen (requireValid (.array s base fd) (.arr a) vv) fun _ => ret (.arr a)
  | .dict es l fd, x, free, vv =>
    andThen (checkFlat "Wrong size." x (Pattern.flatLenEs es free)) fun x =>
    andThen (foldEs es x free vv 0) fun vs =>
      if free then ret (.dict vs)
      else andThen (requireValid (.dict es l fd) (.dict vs) vv) fun _ => ret (.dict vs)
/-- The loop of `PatternDict.fold` (pattern_containers.py:280-291). -/
def foldEs : Entries → NDArray Addr → Bool → Option Bool → Nat → MM (List (String × Val Addr))
  | .nil, _, _, _, _ => ret []
  | .cons k p r, x, free, vv, offset =>
    andThen (fold p (x.slice offset (p.flatLen free)) free vv) fun v =>
    andThen (foldEs r x free vv (offset + p.flatLen free)) fun vs => ret ((k, v) :: vs)
end

mutual
/-- `flatten(folded_val, free, validate_value)`: numeric_array_patterns.py:236-246, simplex_patterns.py:176-184,
psdmatrix_patterns.py:291-299, pattern_containers.py:582-592 and 298-320. -/
def flatten : Pattern → Val Addr → Bool → Option Bool → MM (NDArray Addr)
  | .numeric c s lb ub dv fd, v, free, vv =>
    andThen (lift v.asArr) fun a =>
    let a := a.atleast1d
    andThen (requireValid (.numeric c s lb ub dv fd) (.arr a) vv) fun _ =>
      if free then andThen (unconstrainArray lb.toFlt ub.toFlt a) flattenCopy
      else flattenCopy a
  | .simplex k s dv fd, v, free, vv =>
    andThen (lift v.asArr) fun a =>
    andThen (requireValid (.simplex k s dv fd) (.arr a) vv) fun _ =>
      if free then
        andThen (allocate fun r => .ok ⟨s ++ [k - 1],
          (NDArray.rows s.prod k (a.map r).data).flatMap unconstrainSimplexRow⟩) flattenCopy
      else flattenCopy a
  | .psd n lb dv fd, v, free, vv =>
    andThen (lift v.asArr) fun a =>
    andThen (requireValid (.psd n lb dv fd) (.arr a) vv) fun _ =>
      if free then allocate fun r => packPosdef n lb.toFlt (a.map r)
      else flattenCopy a
  | .array s base fd, v, free, vv =>
    andThen (requireValid (.array s base fd) v vv) fun _ =>
    andThen (lift v.asArr) fun a =>
    andThen (mapMM (fun item =>
        andThen (lift (a.getItem item)) fun sub => flatten base (.arr sub) free vv) (NDArray.productRanges s)) fun parts =>
    allocate fun r => NDArray.hstack (parts.map (·.map r))
  | .dict es l fd, v, free, vv =>
    andThen (requireValid (.dict es l fd) v vv) fun _ =>
    andThen (lift v.asDict) fun vs =>
    andThen (flattenEs es vs free vv) fun parts =>
    allocate fun r => NDArray.hstack (parts.map (·.map r))
/-- The loop of `PatternDict.flatten` (pattern_containers.py:308-319). -/
def flattenEs : Entries → List (String × Val Addr) → Bool → Option Bool → MM (List (NDArray Addr))
  | .nil, _, _, _ => ret []
  | .cons k p r, vs, free, vv =>
    match vs.lookup k with
    | none => lift (.error (.keyError k))
    | some v =>
      andThen (flatten p v free vv) fun x =>
      andThen (flattenEs r vs free vv) fun xs => ret (x :: xs)
end

/-- `pattern.fold(flat_val, free=None, validate_value=None)` as called by a user. -/
def userFold (p : Pattern) (x : NDArray Addr) (free vv : Option Bool) : MM (Val Addr) :=
  andThen (lift (Pattern.freeWithDefault p.freeDefault free)) fun free => fold p x free vv

/-- `pattern.flatten(folded_val, free=None, validate_value=None)` as called by a user. -/
def userFlatten (p : Pattern) (v : Val Addr) (free vv : Option Bool) : MM (NDArray Addr) :=
  andThen (lift (Pattern.freeWithDefault p.freeDefault free)) fun free => flatten p v free vv

end

/-- In-place writes `a[...] = y`, one cell after another. -/
def write (m : Mem) (ws : List (Addr × Flt)) : Mem := ws.foldl (fun m w => m.set w.1 w.2) m

end Memory
end Paragami
