import Verif.Model.Messages

/-! # The texts of the exceptions of `flat_indices` -/

namespace Paragami.Pattern
noncomputable section

mutual
/-- `flat_indices(folded_bool, free)` with its messages, with `free` resolved: numeric_array_patterns.py:261-274 (with the message of lines
187-194), simplex_patterns.py:224-258 (lines 141-145), psdmatrix_patterns.py:318-340 (lines 238-244), pattern_containers.py:644-663 and
385-406.  What is done with a mask of the right shape is as in `flatIdx`. -/
def flatIdxText (fmt : Flt → String) : Pattern → Val Bool → Bool → Except Err (List Nat)
  | numeric _ s _ _ _ _, v, _ => do
    let a ← v.asArr
    if !a.data.any id then return []
    if a.atleast1d.shape ≠ s then
      throw (.valueError ("Wrong size for array." ++ " Expected shape: " ++ tupleStr s ++ " Got shape: " ++ tupleStr a.atleast1d.shape))
    Numeric.flatIndices s a
  | simplex k s _ _, v, free => do
    let a ← v.asArr
    if !a.data.any id then return []
    if a.shape ≠ s ++ [k] then throw (.valueError "The folded value has the wrong shape.")
    Simplex.flatIndices k s a free
  | psd n lb _ _, v, free => do
    let a ← v.asArr
    if !a.data.any id then return []
    if a.shape ≠ [n, n] then throw (.valueError (pyFormat ["The matrix is not of shape ", ""] [tupleStr [n, n]]))
    PSD.flatIndices n lb.toFlt a free
  | array s base fd, v, free => do
    requireValid (validateText fmt (array s base fd) v (some false))
    let a ← v.asArr
    flatIndicesItems (fun sub => base.flatIdxText fmt sub free) a (base.flatLen free) (NDArray.productRanges s) 0
  | dict es l fd, v, free => do
    requireValid (validateText fmt (dict es l fd) v (some false))
    let vs ← v.asDict
    flatIdxTextEs fmt es vs free 0
/-- The loop of `PatternDict.flat_indices` (pattern_containers.py:392-402). -/
def flatIdxTextEs (fmt : Flt → String) : Entries → List (String × Val Bool) → Bool → Nat → Except Err (List Nat)
  | .nil, _, _, _ => .ok []
  | .cons k p r, vs, free, offset =>
    match vs.lookup k with
    | none => .error (.keyError k)
    | some v => do
      let here ← p.flatIdxText fmt v free
      let more ← flatIdxTextEs fmt r vs free (offset + p.flatLen free)
      return here.map (· + offset) ++ more
end

end
end Paragami.Pattern
