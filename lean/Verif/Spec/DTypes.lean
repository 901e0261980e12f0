import Verif.Model.DTypes
import Verif.Spec.Canon
import Verif.Spec.WellFormed
import Verif.Spec.Rounding

/-! # Data types of arrays: vocabulary -/

namespace Paragami

namespace Spec

/-- The type of an entry. -/
def Num.dtype : Num → DType
  | .b _ => .bool
  | .i _ => .int
  | .f _ => .float

mutual
/-- The entries of every array have the type of the array. -/
def WellTyped : TVal → Prop
  | .arr d a => ∀ e ∈ a.data, Num.dtype e = d
  | .dict es => WellTypedEs es
/-- `WellTyped` for every member. -/
def WellTypedEs : List (String × TVal) → Prop
  | [] => True
  | (_, v) :: r => WellTyped v ∧ WellTypedEs r
end

mutual
/-- Some array that the pattern names has type `d`. -/
def Occurs (d : DType) : Pattern → TVal → Prop
  | .dict es _ _, .dict vs => OccursEs d es vs
  | _, .arr d' _ => d' = d
  | _, _ => False
/-- `Occurs` in some member. -/
def OccursEs (d : DType) : Entries → List (String × TVal) → Prop
  | .nil, _ => False
  | .cons k p r, vs => (∃ v, vs.lookup k = some v ∧ Occurs d p v) ∨ OccursEs d r vs
end

/-- `d` is the largest type among the arrays that the pattern names. -/
structure Largest (p : Pattern) (v : TVal) (d : DType) : Prop where
  occurs : Occurs d p v
  sup : ∀ d', Occurs d' p v → d.sup d' = d

mutual
/-- All arrays have type `d`. -/
def AllOfType (d : DType) : TVal → Prop
  | .arr d' _ => d' = d
  | .dict es => AllOfTypeEs d es
/-- `AllOfType` for every member. -/
def AllOfTypeEs (d : DType) : List (String × TVal) → Prop
  | [] => True
  | (_, v) :: r => AllOfType d v ∧ AllOfTypeEs d r
end

/-- An array pattern without items, on some level. -/
def Hollow : Pattern → Prop
  | .array s base _ => s.prod = 0 ∨ Hollow base
  | _ => False

mutual
/-- The value has the shape of the pattern; arrays of hollow patterns are float arrays, all others have type `d`. -/
def FoldedTypes (d : DType) : Pattern → TVal → Prop
  | .dict es _ _, .dict vs => FoldedTypesEs d es vs
  | p, .arr d' _ => (Hollow p → d' = .float) ∧ (¬ Hollow p → d' = d)
  | _, _ => False
/-- `FoldedTypes` for every member, in the order of the pattern. -/
def FoldedTypesEs (d : DType) : Entries → List (String × TVal) → Prop
  | .nil, vs => vs = []
  | .cons k p r, (k', v) :: vs => k' = k ∧ FoldedTypes d p v ∧ FoldedTypesEs d r vs
  | .cons _ _ _, [] => False
end

mutual
/-- The bounds are machine numbers, as Python floats are. -/
def MachineBounds (A : Arith) : Pattern → Prop
  | .numeric _ _ lb ub _ _ => A.Machine lb.toFlt ∧ A.Machine ub.toFlt
  | .simplex _ _ _ _ => True
  | .psd _ lb _ _ => A.Machine lb.toFlt
  | .array _ base _ => MachineBounds A base
  | .dict es _ _ => MachineBoundsEs A es
/-- `MachineBounds` for every member. -/
def MachineBoundsEs (A : Arith) : Entries → Prop
  | .nil => True
  | .cons _ p r => MachineBounds A p ∧ MachineBoundsEs A r
end

/-- `flatten(free=True)` copies the entries: a numeric pattern without bounds, or an array of such. -/
def Unbounded : Pattern → Prop
  | .numeric _ _ lb ub _ _ => lb.toFlt = .ninf ∧ ub.toFlt = .pinf
  | .array _ base _ => Unbounded base
  | _ => False

mutual
/-- Some array that the pattern names has type `d` in free form: its own type if the pattern is unbounded, and float otherwise. -/
def OccursFree (d : DType) : Pattern → TVal → Prop
  | .dict es _ _, .dict vs => OccursFreeEs d es vs
  | p, .arr d' _ => (Unbounded p ∧ d' = d) ∨ (¬ Unbounded p ∧ .float = d)
  | _, _ => False
/-- `OccursFree` in some member. -/
def OccursFreeEs (d : DType) : Entries → List (String × TVal) → Prop
  | .nil, _ => False
  | .cons k p r, vs => (∃ v, vs.lookup k = some v ∧ OccursFree d p v) ∨ OccursFreeEs d r vs
end

/-- `d` is the largest type among the arrays that the pattern names, in free form. -/
structure LargestFree (p : Pattern) (v : TVal) (d : DType) : Prop where
  occurs : OccursFree d p v
  sup : ∀ d', OccursFree d' p v → d.sup d' = d

/-- The value with all entries converted to floats. -/
noncomputable def asFloats (A : Arith) (v : Val Num) : Val Flt := v.map fun e => (e.cast A .float).toFlt

end Spec

end Paragami
