import Verif.Model.Pattern

/-! # Layout of containers, and patterns without defaults -/

namespace Paragami

namespace Spec

/-- The row-major rank of a multi-index, by Horner's rule. -/
def rank (s idx : List Nat) : Nat := (s.zip idx).foldl (fun acc ni => acc * ni.1 + ni.2) 0

/-- `idx` is a legal multi-index of an array of shape `s`. -/
def MultiIndex (s idx : List Nat) : Prop := List.Forall₂ (fun i n => i < n) idx s

mutual
/-- Two folded values hold the same thing under every key the pattern names, at every level. -/
def Agree {α : Type} : Pattern → Val α → Val α → Prop
  | .dict es _ _, .dict vs, .dict vs' => AgreeEs es vs vs'
  | _, v, v' => v = v'
/-- `Agree` for every member. -/
def AgreeEs {α : Type} : Entries → List (String × Val α) → List (String × Val α) → Prop
  | .nil, _, _ => True
  | .cons k p r, vs, vs' =>
    ((vs.lookup k = none ∧ vs'.lookup k = none) ∨
      ∃ v v', vs.lookup k = some v ∧ vs'.lookup k = some v' ∧ Agree p v v') ∧ AgreeEs r vs vs'
end

mutual
/-- The pattern with every `free_default`, at every node, replaced by `None`. -/
def strip : Pattern → Pattern
  | .numeric c s lb ub dv _ => .numeric c s lb ub dv none
  | .simplex k s dv _ => .simplex k s dv none
  | .psd n lb dv _ => .psd n lb dv none
  | .array s base _ => .array s (strip base) none
  | .dict es l _ => .dict (stripEs es) l none
/-- `strip` for every member. -/
def stripEs : Entries → Entries
  | .nil => .nil
  | .cons k p r => .cons k (strip p) (stripEs r)
end

end Spec

end Paragami
