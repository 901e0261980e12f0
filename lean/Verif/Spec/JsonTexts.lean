import Verif.Model.Json
import Verif.Spec.WellFormed

/-! # JSON texts of containers that hold patterns of other classes -/

namespace Paragami.Spec
open Pattern

mutual
/-- A pattern of the package, a pattern of another class of which only the JSON dictionary is known, or a container of such. -/
inductive JTree where
  | known (p : Pattern)
  | custom (fs : List (String × PyVal))
  | array (shape : List Nat) (whole : PyVal) (base : JTree)
  | dict (ms : JMembers)
/-- The members of a dictionary. -/
inductive JMembers where
  | nil
  | cons (k : String) (t : JTree) (r : JMembers)
end

/-- The keys of the members. -/
def JMembers.keys : JMembers → List String
  | .nil => []
  | .cons k _ r => k :: r.keys

/-- The members in a list. -/
def JMembers.list : JMembers → List (String × JTree)
  | .nil => []
  | .cons k t r => (k, t) :: r.list

mutual
/-- What `to_json` writes, read as JSON. -/
def JTree.json : JTree → PyVal
  | .known p => p.asDict.norm
  | .custom fs => .dict fs
  | .array s w b => .dict [("pattern", .str "paragami.pattern_containers.PatternArray"), ("shape", w), ("array_shape", .list (s.map .nat)),
      ("base_pattern", .text b.json)]
  | .dict ms => .dict [("pattern", .str "paragami.pattern_containers.PatternDict"), ("keys", .list (ms.keys.map .str)),
      ("contents", .dict ms.json)]
/-- The contents of a dictionary. -/
def JMembers.json : JMembers → List (String × PyVal)
  | .nil => []
  | .cons k t r => (k, .text t.json) :: r.json
end

mutual
/-- Somewhere inside there is a pattern whose class is not registered. -/
def JTree.Unregistered (reg : Registry) : JTree → Prop
  | .known _ => False
  | .custom fs => ∃ name, fs.lookup "pattern" = some (.str name) ∧ reg.lookup name = none
  | .array _ _ b => b.Unregistered reg
  | .dict ms => ms.Unregistered reg
/-- Among the members. -/
def JMembers.Unregistered (reg : Registry) : JMembers → Prop
  | .nil => False
  | .cons _ t r => t.Unregistered reg ∨ r.Unregistered reg
end

mutual
/-- Apart from classes that are not registered there is nothing wrong: patterns of the package are well-formed, registered classes read
their patterns (`user` says as what), arrays are not of dictionaries, and keys differ. -/
def JTree.Sound (reg : Registry) (user : Nat → PyVal → Except Err Pattern) : JTree → Prop
  | .known p => Built p
  | .custom fs => ∃ name, fs.lookup "pattern" = some (.str name) ∧ (reg.lookup name = none ∨
      ∃ n id q, reg.lookup name = some (.user n id) ∧ user id (.text (.dict fs)) = .ok q)
  | .array s _ b => s ≠ [] ∧ b.Sound reg user ∧ b.NotDict user reg
  | .dict ms => ms.keys.Nodup ∧ ms.Sound reg user
/-- For the members. -/
def JMembers.Sound (reg : Registry) (user : Nat → PyVal → Except Err Pattern) : JMembers → Prop
  | .nil => True
  | .cons _ t r => t.Sound reg user ∧ r.Sound reg user
/-- Not a dictionary, and not read as one. -/
def JTree.NotDict (user : Nat → PyVal → Except Err Pattern) (reg : Registry) : JTree → Prop
  | .known p => p.isDict = false
  | .custom fs => ∀ name n id q, fs.lookup "pattern" = some (.str name) → reg.lookup name = some (.user n id) →
      user id (.text (.dict fs)) = .ok q → q.isDict = false
  | .array _ _ _ => True
  | .dict _ => False
end

end Paragami.Spec
