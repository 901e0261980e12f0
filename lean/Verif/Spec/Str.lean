import Verif.Model.Pattern

/-! # What the text of a pattern shows, independently of how it is made -/

namespace Paragami
namespace Spec

/-- How numbers print: on the numbers in `S`, the text is never that of another number, and uses no comma, closing parenthesis or
line break.  This holds of Python's ints and floats (for which `S` is countable). -/
structure NumText (txt : PyNum → String) (S : PyNum → Prop) : Prop where
  inj : ∀ a b, S a → S b → txt a = txt b → a = b
  clean : ∀ a, S a → ∀ c ∈ (txt a).toList, c ≠ ',' ∧ c ≠ ')' ∧ c ≠ '\n'

mutual
/-- The bounds in the tree are among the numbers `S`. -/
def BoundsIn (S : PyNum → Prop) : Pattern → Prop
  | .numeric _ _ lb ub _ _ => S lb ∧ S ub
  | .simplex _ _ _ _ => True
  | .psd _ lb _ _ => S lb
  | .array _ b _ => BoundsIn S b
  | .dict es _ _ => BoundsInEs S es
/-- The bounds in the members are among the numbers `S`. -/
def BoundsInEs (S : PyNum → Prop) : Entries → Prop
  | .nil => True
  | .cons _ p r => BoundsIn S p ∧ BoundsInEs S r
end

mutual
/-- The same pattern without what is not shown: the numeric subclass, `default_validate`, `free_default` and the lock. -/
def shown : Pattern → Pattern
  | .numeric _ s lb ub _ _ => .numeric .array s lb ub true none
  | .simplex k s _ _ => .simplex k s true none
  | .psd n lb _ _ => .psd n lb true none
  | .array s b _ => .array s (shown b) none
  | .dict es _ _ => .dict (shownEs es) false none
/-- Member by member. -/
def shownEs : Entries → Entries
  | .nil => .nil
  | .cons k p r => .cons k (shown p) (shownEs r)
end

/-- There is no dictionary in the pattern. -/
def NoDict : Pattern → Prop
  | .array _ b _ => NoDict b
  | .dict _ _ _ => False
  | _ => True

/-- A dictionary, if there is one, is outermost, and its keys contain no closing bracket and no line break. -/
def FlatDict : Pattern → Prop
  | .dict es _ _ => ∀ m ∈ es.toList, NoDict m.2 ∧ ∀ c ∈ m.1.toList, c ≠ ']' ∧ c ≠ '\n'
  | p => NoDict p

/-- Members followed by members. -/
def append : Entries → Entries → Entries
  | .nil, r => r
  | .cons k p l, r => .cons k p (append l r)

end Spec
end Paragami
