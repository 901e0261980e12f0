import Verif.Model.Pattern

/-!
# Well-formed patterns and values

`Built p` says `p` can be produced by the public constructors and `PatternDict` updates.  `WF p` is the structural
description of such patterns; `Proofs/Built.lean` shows they are the same thing.
-/

namespace Paragami

namespace Pattern

mutual
/-- Structural well-formedness: what the constructors guarantee. -/
def WF : Pattern → Prop
  | numeric cls s lb ub _ _ =>
    s ≠ [] ∧ (cls = .vector → s.length = 1) ∧ (cls = .scalar → s = [1]) ∧
      lb.toFlt.NotNaN ∧ ub.toFlt.NotNaN ∧ lb.toFlt.lt ub.toFlt = true
  | simplex k _ _ _ => 2 ≤ k
  | psd _ lb _ _ => lb.toFlt.lt 0 = false
  | array s base _ => s ≠ [] ∧ base.isDict = false ∧ base.WF
  | dict es _ _ => es.keys.Nodup ∧ WFEs es
/-- Every member is well formed, and dictionary members are locked. -/
def WFEs : Entries → Prop
  | .nil => True
  | .cons _ p r => p.WF ∧ p.lock = p ∧ WFEs r
end

mutual
/-- No empty container: no `PatternDict` without members and no `PatternArray` with a zero dimension anywhere. -/
def NoEmpty : Pattern → Prop
  | array s base _ => 0 < s.prod ∧ base.NoEmpty
  | dict es _ _ => es ≠ .nil ∧ NoEmptyEs es
  | _ => True
/-- `NoEmpty` for every member. -/
def NoEmptyEs : Entries → Prop
  | .nil => True
  | .cons _ p r => p.NoEmpty ∧ NoEmptyEs r
end

mutual
/-- Every PSD pattern inside has a finite diagonal lower bound (the constructor also accepts `inf` and NaN). -/
def FiniteLb : Pattern → Prop
  | psd _ lb _ _ => lb.toFlt.IsFin
  | array _ base _ => base.FiniteLb
  | dict es _ _ => FiniteLbEs es
  | _ => True
/-- `FiniteLb` for every member. -/
def FiniteLbEs : Entries → Prop
  | .nil => True
  | .cons _ p r => p.FiniteLb ∧ FiniteLbEs r
end

/-- Patterns obtainable through the public API. -/
inductive Built : Pattern → Prop
  | numericArray {shape lb ub dv fd p} (h : mkNumericArray shape lb ub dv fd = .ok p) : Built p
  | numericVector {length lb ub dv fd p} (h : mkNumericVector length lb ub dv fd = .ok p) : Built p
  | numericScalar {lb ub dv fd p} (h : mkNumericScalar lb ub dv fd = .ok p) : Built p
  | simplex {size ashape dv fd p} (h : mkSimplex size ashape dv fd = .ok p) : Built p
  | psd {size lb dv fd p} (h : mkPSD size lb dv fd = .ok p) : Built p
  | array {ashape base fd p} (hb : Built base) (h : mkArray ashape base fd = .ok p) : Built p
  | dict (fd) : Built (mkDict fd)
  | set {d k p d'} (hd : Built d) (hp : Built p) (h : setItem d k p = .ok d') : Built d'
  | del {d k d'} (hd : Built d) (h : delItem d k = .ok d') : Built d'
  | lock {p} (hp : Built p) : Built p.lock

end Pattern

mutual
/-- A folded value all of whose arrays are genuine arrays (data length matches the shape). -/
def Val.WF {α : Type} : Val α → Prop
  | .arr a => a.WF
  | .dict es => Val.WFEs es
/-- `Val.WF` for every member. -/
def Val.WFEs {α : Type} : List (String × Val α) → Prop
  | [] => True
  | (_, v) :: r => v.WF ∧ Val.WFEs r
end

end Paragami
