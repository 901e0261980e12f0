import Verif.Model.Json

/-! # What a pattern keeps when it goes through JSON, and when two patterns are equal -/

namespace Paragami

namespace Spec

mutual
/-- The pattern with everything dropped that its dictionary does not record: the `free_default` of every node other than
numeric ones, and the lock of the outermost dictionary (dictionaries inside a dictionary are always locked). -/
def forget : Pattern → Pattern
  | .numeric c s lb ub dv fd => .numeric c s lb ub dv fd
  | .simplex k s dv _ => .simplex k s dv none
  | .psd n lb dv _ => .psd n lb dv none
  | .array s base _ => .array s (forget base) none
  | .dict es _ _ => .dict (forgetEs es) false none
/-- `forget` for the members of a dictionary, which are locked. -/
def forgetEs : Entries → Entries
  | .nil => .nil
  | .cons k p r => .cons k (forget p).lock (forgetEs r)
end

mutual
/-- No `free_default` is set anywhere except on numeric patterns. -/
def NoDefault : Pattern → Prop
  | .numeric _ _ _ _ _ _ => True
  | .simplex _ _ _ fd => fd = none
  | .psd _ _ _ fd => fd = none
  | .array _ base fd => NoDefault base ∧ fd = none
  | .dict es _ fd => NoDefaultEs es ∧ fd = none
/-- `NoDefault` for every member. -/
def NoDefaultEs : Entries → Prop
  | .nil => True
  | .cons _ p r => NoDefault p ∧ NoDefaultEs r
end

/-- The pattern is not a locked dictionary. -/
def Unlocked : Pattern → Prop
  | .dict _ l _ => l = false
  | _ => True

/-- Two numbers that Python considers equal, in spite of possibly being an `int` and a `float`. -/
def NumEq (x y : PyNum) : Prop := x.toFlt = y.toFlt ∧ x.toFlt.NotNaN

/-- The pattern is not a PSD pattern whose diagonal bound is NaN (which equals no other NaN object). -/
def NotNaNBound : Pattern → Prop
  | .psd _ lb _ _ => lb.toFlt.NotNaN
  | _ => True

/-- What `p == q` should mean.  Leaves: same class, same shape, equal numbers, same flags.  Containers: same shape, same keys
in the same order, and members that are identical as far as `forget` can see, so that `0` and `0.0` count as different. -/
def Same : Pattern → Pattern → Prop
  | .numeric c s lb ub dv fd, .numeric c' s' lb' ub' dv' fd' =>
    c = c' ∧ s = s' ∧ NumEq lb lb' ∧ NumEq ub ub' ∧ dv = dv' ∧ fd = fd'
  | .simplex k s dv _, .simplex k' s' dv' _ => k = k' ∧ s = s' ∧ dv = dv'
  | .psd n lb dv _, .psd n' lb' dv' _ => n = n' ∧ NumEq lb lb' ∧ dv = dv'
  | .array s base _, .array s' base' _ => s = s' ∧ forget base = forget base'
  | .dict es _ _, .dict es' _ _ => forgetEs es = forgetEs es'
  | _, _ => False

/-- The two patterns cannot be told apart by `fold`, `flatten`, `validate_folded` and `flat_length` with an explicit `free`. -/
def SameBehaviour (p q : Pattern) : Prop :=
  ∀ (b : Bool) (x : NDArray Flt) (v : Val Flt) (vv : Option Bool),
    p.fold x (some b) vv = q.fold x (some b) vv ∧ p.flatten v (some b) vv = q.flatten v (some b) vv ∧
      p.validate v vv = q.validate v vv ∧ p.flatLength (some b) = q.flatLength (some b)

/-- Every shipped class is registered under its own name. -/
def HasBuiltins (reg : Registry) : Prop := ∀ b : Builtin, reg.lookup b.typename = some (.builtin b)

/-- The class that ends up registered after class `c0` and then a list of further `register_pattern_json` calls for the same
name: the last call with `allow_overwrite`. -/
def latest (c0 : Cls) (calls : List (Cls × Bool)) : Cls :=
  match (calls.filter (·.2)).getLast? with
  | some c => c.1
  | none => c0

end Spec

end Paragami
