import Verif.Spec.Accepted
import Verif.Spec.Canon

/-! # What becomes of values on the boundary of the constraint set -/

namespace Paragami
namespace Spec

mutual
/-- `v` satisfies the documented constraints, bounds included: numeric entries NaN or between the bounds or on them; simplexes without negative
entries, with a NaN or a sum within `1e-12` of one; symmetric real matrices with diagonal at least `diag_lb`; containers memberwise. -/
def Closed : Pattern → Val Flt → Prop
  | .numeric _ s lb ub _ _, .arr a =>
    a.WF ∧ a.atleast1d.shape = s ∧ ∀ x ∈ a.data, x = .nan ∨ (lb.toFlt.le x = true ∧ x.le ub.toFlt = true)
  | .simplex k s _ _, .arr a => a.WF ∧ a.shape = s ++ [k] ∧ ∀ i < s.prod, RowAccepted (block k a.data i)
  | .psd n lb _ _, .arr a =>
    ∃ M : Matrix (Fin n) (Fin n) ℝ, a = ⟨[n, n], matData M⟩ ∧ M.IsSymm ∧ ∀ i, lb.toFlt.toReal ≤ M i i
  | .array s base _, .arr a =>
    a.WF ∧ a.shape = s ++ base.shape ∧
      ∀ i < s.prod, Closed base (.arr ⟨base.shape, block base.shape.prod a.data i⟩)
  | .dict es _ _, .dict vs => ClosedEs es vs
  | _, _ => False
/-- Every member of the pattern is present and satisfies the constraints. -/
def ClosedEs : Entries → List (String × Val Flt) → Prop
  | .nil, _ => True
  | .cons k p r, vs => (∃ v, vs.lookup k = some v ∧ Closed p v) ∧ ClosedEs r vs
end

mutual
/-- All matrices, less `diag_lb` on the diagonal, are positive definite. -/
def PosDefs : Pattern → Val Flt → Prop
  | .psd n lb _ _, .arr a =>
    ∃ M : Matrix (Fin n) (Fin n) ℝ, a = ⟨[n, n], matData M⟩ ∧ (M - lb.toFlt.toReal • (1 : Matrix (Fin n) (Fin n) ℝ)).PosDef
  | .array s base _, .arr a => ∀ i < s.prod, PosDefs base (.arr ⟨base.shape, block base.shape.prod a.data i⟩)
  | .dict es _ _, .dict vs => PosDefsEs es vs
  | _, _ => True
/-- All matrices of the members. -/
def PosDefsEs : Entries → List (String × Val Flt) → Prop
  | .nil, _ => True
  | .cons k p r, vs => (∀ v, vs.lookup k = some v → PosDefs p v) ∧ PosDefsEs r vs
end

/-- An entry on the upper one of two finite bounds is lost. -/
def EntrySettles (lb ub x y : Flt) : Prop :=
  (lb.IsFin ∧ ub.IsFin ∧ x = ub → y = .nan) ∧ (¬ (lb.IsFin ∧ ub.IsFin ∧ x = ub) → y = x)

/-- A simplex with a NaN anywhere or a zero in front is lost; any other is divided by its sum. -/
def RowSettles (r q : List Flt) : Prop :=
  (.nan ∈ r ∧ q = List.replicate r.length .nan) ∨
  ∃ (x : ℝ) (xs : List ℝ), r = (x :: xs).map .fin ∧ (x = 0 → q = List.replicate r.length .nan) ∧
    (0 < x → q = ((x :: xs).map fun y => y / (x :: xs).sum).map .fin)

mutual
/-- `w` is what becomes of `v`. -/
def Settles : Pattern → Val Flt → Val Flt → Prop
  | .numeric _ s lb ub _ _, .arr a, .arr b => b.shape = s ∧ List.Forall₂ (EntrySettles lb.toFlt ub.toFlt) a.data b.data
  | .simplex k s _ _, .arr a, .arr b => b.WF ∧ b.shape = s ++ [k] ∧ ∀ i < s.prod, RowSettles (block k a.data i) (block k b.data i)
  | .psd _ _ _ _, v, w => w = v
  | .array s base _, .arr a, .arr b =>
    b.WF ∧ b.shape = s ++ base.shape ∧ ∀ i < s.prod, Settles base (.arr ⟨base.shape, block base.shape.prod a.data i⟩)
      (.arr ⟨base.shape, block base.shape.prod b.data i⟩)
  | .dict es _ _, .dict vs, .dict ws => SettlesEs es vs ws
  | _, _, _ => False
/-- The members in the order of the pattern. -/
def SettlesEs : Entries → List (String × Val Flt) → List (String × Val Flt) → Prop
  | .nil, _, ws => ws = []
  | .cons k p r, vs, ws => ∃ v w ws', vs.lookup k = some v ∧ ws = (k, w) :: ws' ∧ Settles p v w ∧ SettlesEs r vs ws'
end

mutual
/-- No entry is on the upper one of two finite bounds, and all simplexes are all NaN or have a positive first entry and a sum of exactly one. -/
def Survives : Pattern → Val Flt → Prop
  | .numeric _ _ lb ub _ _, .arr a => ¬ (lb.toFlt.IsFin ∧ ub.toFlt.IsFin ∧ ub.toFlt ∈ a.data)
  | .simplex k s _ _, .arr a => ∀ i < s.prod, (∀ x ∈ block k a.data i, x = .nan) ∨
      ∃ (x : ℝ) (xs : List ℝ), block k a.data i = (x :: xs).map .fin ∧ 0 < x ∧ (x :: xs).sum = 1
  | .array s base _, .arr a => ∀ i < s.prod, Survives base (.arr ⟨base.shape, block base.shape.prod a.data i⟩)
  | .dict es _ _, .dict vs => SurvivesEs es vs
  | _, _ => True
/-- All members. -/
def SurvivesEs : Entries → List (String × Val Flt) → Prop
  | .nil, _ => True
  | .cons k p r, vs => (∀ v, vs.lookup k = some v → Survives p v) ∧ SurvivesEs r vs
end

mutual
/-- No matrix has an infinite entry. -/
def FiniteMatrices : Pattern → Val Flt → Prop
  | .psd _ _ _ _, .arr a => ∀ x ∈ a.data, x ≠ .pinf ∧ x ≠ .ninf
  | .array s base _, .arr a => ∀ i < s.prod, FiniteMatrices base (.arr ⟨base.shape, block base.shape.prod a.data i⟩)
  | .dict es _ _, .dict vs => FiniteMatricesEs es vs
  | _, _ => True
/-- The same for the members. -/
def FiniteMatricesEs : Entries → List (String × Val Flt) → Prop
  | .nil, _ => True
  | .cons k p r, vs => (∀ v, vs.lookup k = some v → FiniteMatrices p v) ∧ FiniteMatricesEs r vs
end

end Spec
end Paragami
