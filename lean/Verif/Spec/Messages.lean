import Verif.Model.Messages

/-! # What is said about the texts of exceptions -/

namespace Paragami.Spec

/-- The class of an exception, without its message. -/
def exceptionClass : Err → Err
  | .valueError _ => .valueError ""
  | .keyError _ => .keyError ""
  | .notImplementedError _ => .notImplementedError ""
  | e => e

/-- A result, or the class of the exception. -/
def resultOrClass {β : Type} : Except Err β → Except Err β
  | .ok b => .ok b
  | .error e => .error (exceptionClass e)

/-- The answer of `validate_folded` without its message, or the class of the exception. -/
def answerOrClass : Except Err (Bool × String) → Except Err Bool
  | .ok r => .ok r.1
  | .error e => .error (exceptionClass e)

mutual
/-- The messages that say which rule one of the leaves of a pattern has for its values. -/
def RuleOf (fmt : Flt → String) : Pattern → String → Prop
  | .numeric .., m => m = "Value beneath lower bound." ∨ m = "Value above upper bound."
  | .simplex .., m => m = "Some values are negative." ∨ m = "The simplexes do not sum to one."
  | .psd _ lb _ _, m => m = "Diagonal is less than the lower bound " ++ lb.str fmt ++ "." ∨ m = "Matrix is not symmetric."
  | .array _ base _, m => RuleOf fmt base m
  | .dict es _ _, m => RuleOfEs fmt es m
/-- The same for the members of a dictionary. -/
def RuleOfEs (fmt : Flt → String) : Entries → String → Prop
  | .nil, _ => False
  | .cons _ p r, m => RuleOf fmt p m ∨ RuleOfEs fmt r m
end

mutual
/-- The same pattern with other keys. -/
def relabelKeys (σ : String → String) : Pattern → Pattern
  | .array s base fd => .array s (relabelKeys σ base) fd
  | .dict es l fd => .dict (relabelEntries σ es) l fd
  | p => p
/-- The same for the members of a dictionary. -/
def relabelEntries (σ : String → String) : Entries → Entries
  | .nil => .nil
  | .cons k p r => .cons (σ k) (relabelKeys σ p) (relabelEntries σ r)
end

mutual
/-- The same folded value with other keys. -/
def relabelVal {α : Type} (σ : String → String) : Val α → Val α
  | .arr a => .arr a
  | .dict vs => .dict (relabelVals σ vs)
/-- The same for the items of a dictionary. -/
def relabelVals {α : Type} (σ : String → String) : List (String × Val α) → List (String × Val α)
  | [] => []
  | (k, v) :: vs => (σ k, relabelVal σ v) :: relabelVals σ vs
end

mutual
/-- Every key of the pattern is in the value, at every level. -/
def HasKeys {α : Type} : Pattern → Val α → Prop
  | .dict es _ _, .dict vs => HasKeysEs es vs
  | _, _ => True
/-- The same for the members of a dictionary. -/
def HasKeysEs {α : Type} : Entries → List (String × Val α) → Prop
  | .nil, _ => True
  | .cons k p r, vs => (∃ v, vs.lookup k = some v ∧ HasKeys p v) ∧ HasKeysEs r vs
end

end Paragami.Spec

namespace Paragami.Spec

/-- A list cut into consecutive pieces of the given lengths. -/
def cut {α : Type} : List Nat → List α → List (List α)
  | [], _ => []
  | n :: ns, l => l.take n :: cut ns (l.drop n)

end Paragami.Spec
