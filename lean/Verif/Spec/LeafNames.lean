import Verif.Model.Pattern

/-! # The leaves of nested dictionaries -/

namespace Paragami
namespace Spec

mutual
/-- The patterns that are not dictionaries, in order, each with the keys that lead to it. -/
def nameLeaves : Pattern → List (List String × Pattern)
  | .dict es _ _ => nameLeavesEs es
  | p => [([], p)]
/-- The leaves of the members. -/
def nameLeavesEs : Entries → List (List String × Pattern)
  | .nil => []
  | .cons k p r => (nameLeaves p).map (fun l => (k :: l.1, l.2)) ++ nameLeavesEs r
end

mutual
/-- No dictionary without members above the leaves. -/
def Populated : Pattern → Prop
  | .dict es _ _ => es ≠ .nil ∧ PopulatedEs es
  | _ => True
/-- `Populated` for every member. -/
def PopulatedEs : Entries → Prop
  | .nil => True
  | .cons _ p r => Populated p ∧ PopulatedEs r
end

/-- Numeric patterns. -/
def IsNumeric : Pattern → Prop
  | .numeric _ _ _ _ _ _ => True
  | _ => False

/-- `b` is a mode in which a leaf may be named: the one asked for, or its own default if none is asked for, or either one for numeric patterns. -/
def NamedIn (free : Option Bool) (q : Pattern) (b : Bool) : Prop :=
  free = some b ∨ (free = none ∧ q.freeDefault = some b) ∨ IsNumeric q

/-- The keys in front of a name; `delim` follows the first one. -/
def fullName (delim : String) : List String → String → String
  | [], t => t
  | k :: ks, t => k ++ delim ++ ks.foldr (fun k t => k ++ "_" ++ t) t

/-- What one leaf contributes: its own names in such a mode, with the keys in front. -/
def Contributes (free : Option Bool) (delim : String) (l : List String × Pattern) (part : List String) : Prop :=
  ∃ b ns, NamedIn free l.2 b ∧ l.2.flatNames (some b) "_" = .ok ns ∧ part = ns.map (fullName delim l.1)

end Spec
end Paragami
