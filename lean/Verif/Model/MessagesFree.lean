import Verif.Model.Messages

/-!
# The texts of exceptions with `free=True`

`fold` and `flatten` of Model/Messages.lean, for free values.  As there, the text of a float is the parameter `fmt`, and the length
of an emptied dictionary is `0` (it prints as `0.0`).  Exceptions of numpy itself have no text here.
-/

namespace Paragami.Pattern
noncomputable section

mutual
/-- `fold(flat_val, free=True)` with its messages: numeric_array_patterns.py:210-228, simplex_patterns.py:161-168,
psdmatrix_patterns.py:301-310, pattern_containers.py:555-573 and 265-291.  Nothing is validated. -/
def foldFreeText (fmt : Flt → String) : Pattern → NDArray Flt → Except Err (Val Flt)
  | numeric c s lb ub dv fd, x => do
    let x ← checkText fmt (numeric c s lb ub dv fd) x s.prod
    let a ← (x.map (constrain1 lb.toFlt ub.toFlt)).reshape s
    return .arr a
  | simplex k s dv fd, x => do
    let n ← x.len
    if n ≠ (s ++ [k - 1]).prod then throw (.valueError (sizeText fmt (simplex k s dv fd) (s ++ [k - 1]).prod n))
    let mat ← x.reshape (s ++ [k - 1])
    return .arr ⟨s ++ [k], (NDArray.rows s.prod (k - 1) mat.data).flatMap constrainSimplexRow⟩
  | psd n lb dv fd, x => do
    let x ← checkText fmt (psd n lb dv fd) x (n * (n + 1) / 2)
    let a ← unpackPosdef lb.toFlt x
    return .arr a
  | array s base fd, x => do
    let x ← checkText fmt (array s base fd) x (s.prod * base.flatLen true)
    let a ← foldItems (fun sub => base.foldFreeText fmt sub) x s (s ++ base.shape) (base.flatLen true)
    return .arr a
  | dict es l fd, x => do
    let x ← checkText fmt (dict es l fd) x (flatLenEs es true)
    let vs ← foldFreeTextEs fmt es x 0
    return .dict vs
/-- The loop of `PatternDict.fold` (pattern_containers.py:280-291). -/
def foldFreeTextEs (fmt : Flt → String) : Entries → NDArray Flt → Nat → Except Err (List (String × Val Flt))
  | .nil, _, _ => .ok []
  | .cons k p r, x, offset => do
    let v ← p.foldFreeText fmt (x.slice offset (p.flatLen true))
    let vs ← foldFreeTextEs fmt r x (offset + p.flatLen true)
    return (k, v) :: vs
end

mutual
/-- `flatten(folded_val, free=True, validate_value)` with its messages: numeric_array_patterns.py:236-243,
simplex_patterns.py:176-182, psdmatrix_patterns.py:291-297, pattern_containers.py:582-592 and 298-320. -/
def flattenFreeText (fmt : Flt → String) : Pattern → Val Flt → Option Bool → Except Err (NDArray Flt)
  | numeric c s lb ub dv fd, v, vv => do
    let a ← v.asArr
    requireValid (validateText fmt (numeric c s lb ub dv fd) (.arr a.atleast1d) vv)
    return (a.atleast1d.map (unconstrain1 lb.toFlt ub.toFlt)).flatten
  | simplex k s dv fd, v, vv => do
    let a ← v.asArr
    requireValid (validateText fmt (simplex k s dv fd) (.arr a) vv)
    return NDArray.vec ((NDArray.rows s.prod k a.data).flatMap unconstrainSimplexRow)
  | psd n lb dv fd, v, vv => do
    let a ← v.asArr
    requireValid (validateText fmt (psd n lb dv fd) (.arr a) vv)
    packPosdef n lb.toFlt a
  | array s base fd, v, vv => do
    requireValid (validateText fmt (array s base fd) v vv)
    let a ← v.asArr
    flattenItems (fun sub => base.flattenFreeText fmt sub vv) a s
  | dict es l fd, v, vv => do
    requireValid (validateText fmt (dict es l fd) v vv)
    let vs ← v.asDict
    let parts ← flattenFreeTextEs fmt es vs vv
    NDArray.hstack parts
/-- The loop of `PatternDict.flatten` (pattern_containers.py:308-319). -/
def flattenFreeTextEs (fmt : Flt → String) : Entries → List (String × Val Flt) → Option Bool → Except Err (List (NDArray Flt))
  | .nil, _, _ => .ok []
  | .cons k p r, vs, vv =>
    match vs.lookup k with
    | none => .error (.keyError k)
    | some v => do
      let x ← p.flattenFreeText fmt v vv
      let xs ← flattenFreeTextEs fmt r vs vv
      return x :: xs
end

end
end Paragami.Pattern
