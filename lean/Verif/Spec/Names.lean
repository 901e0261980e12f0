import Verif.Model.Pattern

/-! # Naming conventions -/

namespace Paragami

namespace Spec

/-- The name of one entry of an array: the multi-index in brackets, comma-separated. -/
def indexName (idx : List Nat) : String := "[" ++ ",".intercalate (idx.map toString) ++ "]"

mutual
/-- No dictionary key at any level contains the character. -/
def KeysAvoid (c : Char) : Pattern → Prop
  | .dict es _ _ => KeysAvoidEs c es
  | _ => True
/-- `KeysAvoid` for the members. -/
def KeysAvoidEs (c : Char) : Entries → Prop
  | .nil => True
  | .cons k p r => c ∉ k.toList ∧ KeysAvoid c p ∧ KeysAvoidEs c r
end

/-- The characters numbers and multi-indices are written with. -/
def nameChar (c : Char) : Prop := c.isDigit = true ∨ c = '[' ∨ c = ',' ∨ c = ']'

end Spec

end Paragami
