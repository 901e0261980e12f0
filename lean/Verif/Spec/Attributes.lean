import Verif.Model.Attributes
import Verif.Spec.WellFormed

/-!
# What an object stands for

A tree of patterns in which every node remembers the object it comes from.
-/

namespace Paragami.Attributes

mutual
/-- A tree of patterns, with identities. -/
inductive Tree where
  | leaf (id : Nat) (p : Pattern)
  | array (id : Nat) (s : List Nat) (base : Tree) (fd : Option Bool)
  | dict (id : Nat) (es : Branches) (locked : Bool) (fd : Option Bool)
/-- The members of a dictionary. -/
inductive Branches where
  | nil
  | cons (k : String) (t : Tree) (rest : Branches)
end

mutual
/-- The tree without the identities. -/
def Tree.pattern : Tree → Pattern
  | .leaf _ p => p
  | .array _ s t fd => .array s t.pattern fd
  | .dict _ es l fd => .dict es.entries l fd
/-- The members without the identities. -/
def Branches.entries : Branches → Entries
  | .nil => .nil
  | .cons k t r => .cons k t.pattern r.entries
end

/-- The identity of the root. -/
def Tree.id : Tree → Nat
  | .leaf i _ => i
  | .array i _ _ _ => i
  | .dict i _ _ _ => i

mutual
/-- The object `i` has a part in the tree. -/
def Tree.Has (i : Nat) : Tree → Prop
  | .leaf j _ => j = i
  | .array j _ t _ => j = i ∨ t.Has i
  | .dict j es _ _ => j = i ∨ es.Has i
/-- `Tree.Has` for the members. -/
def Branches.Has (i : Nat) : Branches → Prop
  | .nil => False
  | .cons _ t r => t.Has i ∨ r.Has i
end

mutual
/-- Another value for `default_validate`, wherever the object `i` occurs. -/
def Tree.validate (i : Nat) (b : Bool) : Tree → Tree
  | .leaf j p => .leaf j (if j = i then setValidate b p else p)
  | .array j s t fd => .array j s (t.validate i b) fd
  | .dict j es l fd => .dict j (es.validate i b) l fd
/-- `Tree.validate` for the members. -/
def Branches.validate (i : Nat) (b : Bool) : Branches → Branches
  | .nil => .nil
  | .cons k t r => .cons k (t.validate i b) (r.validate i b)
end

mutual
/-- Another value for `free_default`, wherever the object `i` occurs. -/
def Tree.free (i : Nat) (fd : Option Bool) : Tree → Tree
  | .leaf j p => .leaf j (if j = i then setFree fd p else p)
  | .array j s t fd' => .array j s (t.free i fd) (if j = i then fd else fd')
  | .dict j es l fd' => .dict j (es.free i fd) l (if j = i then fd else fd')
/-- `Tree.free` for the members. -/
def Branches.free (i : Nat) (fd : Option Bool) : Branches → Branches
  | .nil => .nil
  | .cons k t r => .cons k (t.free i fd) (r.free i fd)
end

mutual
/-- In the heap `h`, the object stands for the tree. -/
inductive Stands (h : Heap) : Nat → Tree → Prop
  | leaf {i p} (hi : h[i]? = some (.leaf p)) : Stands h i (.leaf i p)
  | array {i s b fd t} (hi : h[i]? = some (.array s b fd)) (ht : Stands h b t) : Stands h i (.array i s t fd)
  | dict {i ms l fd es} (hi : h[i]? = some (.dict ms l fd)) (hs : StandsEs h ms es) : Stands h i (.dict i es l fd)
/-- `Stands` for the members of a dictionary. -/
inductive StandsEs (h : Heap) : List (String × Nat) → Branches → Prop
  | nil : StandsEs h [] .nil
  | cons {k r ms t es} (ht : Stands h r t) (hs : StandsEs h ms es) : StandsEs h ((k, r) :: ms) (.cons k t es)
end

/-- A statement that makes only patterns that the constructors make, and does not put a dictionary into itself. -/
def Good : Stmt → Prop
  | .leaf p => Pattern.Built p ∧ p.isDict = false ∧ ∀ s b fd, p ≠ .array s b fd
  | .set d _ r => r ≠ d
  | _ => True

mutual
/-- The pattern with `b` for all its `default_validate`s. -/
def validating (b : Bool) : Pattern → Pattern
  | .numeric c s lb ub _ fd => .numeric c s lb ub b fd
  | .simplex k s _ fd => .simplex k s b fd
  | .psd n lb _ fd => .psd n lb b fd
  | .array s p fd => .array s (validating b p) fd
  | .dict es l fd => .dict (validatingEs b es) l fd
/-- `validating` for the members. -/
def validatingEs (b : Bool) : Entries → Entries
  | .nil => .nil
  | .cons k p r => .cons k (validating b p) (validatingEs b r)
end

mutual
/-- All parts of the tree that are not containers are the object `i`. -/
def Tree.Only (i : Nat) : Tree → Prop
  | .leaf j _ => j = i
  | .array _ _ t _ => t.Only i
  | .dict _ es _ _ => es.Only i
/-- `Tree.Only` for the members. -/
def Branches.Only (i : Nat) : Branches → Prop
  | .nil => True
  | .cons _ t r => t.Only i ∧ r.Only i
end

end Paragami.Attributes
