import Verif.Spec.RoundingMatrix
import Verif.Spec.WellFormed
import Verif.Spec.Interior
import Verif.Model.RoundingFlatten

/-! # How close a computed value is to the exact one -/

namespace Paragami.Spec

/-- How far an entry may be from the exact entry `v`, after folding free values of size at most `B`: by the kind of array the entry is in. -/
noncomputable def foldError (B : ℝ) : Pattern → ℝ → ℝ
  | .numeric _ _ lb ub _ _, v => match lb.toFlt, ub.toFlt with
    | .fin a, .fin _ => 2 ^ (-53 : ℤ) * (|v| + 14 * (v - a))
    | .fin a, _ => 2 ^ (-53 : ℤ) * (|v| + 5 * (v - a))
    | _, .fin b => 2 ^ (-53 : ℤ) * (|v| + 5 * (b - v))
    | _, _ => 0
  | .simplex k _ _ _, v => 2 ^ (-53 : ℤ) * (5 * B + 2 * k + 45) * v
  | .psd n _ _ _, v => 2 ^ (-53 : ℤ) * ((3 * n + 17) * n * (Real.exp B + B) ^ 2 + |v|) + n * 2 ^ (-1073 : ℤ)
  | .array _ base _, v => foldError B base v
  | .dict _ _ _, _ => 0

mutual
/-- Two values with the structure of the pattern: the same keys, the same shapes, real numbers everywhere, and every entry of the second within
`err` of the entry of the first. -/
def Near (err : Pattern → ℝ → ℝ) : Pattern → Val Flt → Val Flt → Prop
  | .dict es _ _, .dict vs, .dict ws => NearEs err es vs ws
  | .dict _ _ _, _, _ => False
  | p, .arr a, .arr b => a.shape = p.shape ∧ b.shape = p.shape ∧ a.data.length = p.shape.prod ∧
      List.Forall₂ (fun x y => ∃ v w : ℝ, x = .fin v ∧ y = .fin w ∧ |w - v| ≤ err p v) a.data b.data
  | _, _, _ => False
/-- `Near` for every member. -/
def NearEs (err : Pattern → ℝ → ℝ) : Entries → List (String × Val Flt) → List (String × Val Flt) → Prop
  | .nil, [], [] => True
  | .cons k p r, (k₁, v) :: vs, (k₂, w) :: ws => k₁ = k ∧ k₂ = k ∧ Near err p v w ∧ NearEs err r vs ws
  | _, _, _ => False
end

/-- A bound that is absent or a machine number of moderate size. -/
def ModerateBound (A : Arith) (x : Flt) : Prop := ∀ c, x = .fin c → A.Machine (.fin c) ∧ |c| ≤ 2 ^ (300 : ℤ)

mutual
/-- Patterns with bounds of moderate size that are machine numbers, at most 500 probabilities and matrices of at most `2 ** 20` rows. -/
def Moderate (A : Arith) : Pattern → Prop
  | .numeric _ _ lb ub _ _ => ModerateBound A lb.toFlt ∧ ModerateBound A ub.toFlt ∧
      ∀ a b, lb.toFlt = .fin a → ub.toFlt = .fin b → 2 ^ (-200 : ℤ) ≤ b - a
  | .simplex k _ _ _ => k ≤ 500
  | .psd n lb _ _ => n ≤ 2 ^ 20 ∧ lb.toFlt.IsFin ∧ ModerateBound A lb.toFlt
  | .array _ base _ => Moderate A base
  | .dict es _ _ => ModerateEs A es
/-- `Moderate` for every member. -/
def ModerateEs (A : Arith) : Entries → Prop
  | .nil => True
  | .cons _ p r => Moderate A p ∧ ModerateEs A r
end

/-! ### Round trips -/

/-- How far an entry may be from the entry `v` that was flattened, after folding again.  `B` bounds the logarithms of probabilities and the free values of
matrices. -/
noncomputable def tripError (B : ℝ) : Pattern → ℝ → ℝ
  | .numeric _ _ lb ub _ _, v => match lb.toFlt, ub.toFlt with
    | .fin a, .fin b => 2 ^ (-53 : ℤ) * (|v| + 8 * (v - a) + (3 * |Real.log (v - a)| + 3 * |Real.log (b - v)| + 13) * ((v - a) * (b - v) / (b - a)))
    | .fin a, _ => 2 ^ (-53 : ℤ) * (|v| + (2 * |Real.log (v - a)| + 8) * (v - a))
    | _, .fin b => 2 ^ (-53 : ℤ) * (|v| + (2 * |Real.log (b - v)| + 8) * (b - v))
    | _, _ => 0
  | .simplex k _ _ _, v => 2 ^ (-53 : ℤ) * (22 * B + 2 * k + 1000) * v
  | .psd n _ _ _, v => 2 ^ (-53 : ℤ) * ((8 * n + 19) * n * ((1 + Real.exp B) * (Real.exp B + B)) ^ 2 + |v|) + n * 2 ^ (-498 : ℤ)
  | .array _ base _, v => tripError B base v
  | .dict _ _ _, _ => 0

/-- The values of a matrix pattern whose round trip is considered: symmetric, of machine numbers of moderate size, and with a Cholesky factor that the machine
finds, of moderate size. -/
def ComfortableMatrix (A : Arith) (B : ℝ) (vv : Option Bool) (n : ℕ) (lb : PyNum) (dv : Bool) (fd : Option Bool) (a : NDArray Flt) : Prop :=
  n ≤ 1000 ∧ (∃ M : Matrix (Fin n) (Fin n) ℝ, a = ⟨[n, n], matData M⟩ ∧ M.IsSymm ∧ (∀ i j, A.Machine (.fin (M i j)) ∧ |M i j| ≤ 2 ^ (900 : ℤ)) ∧
    ∀ c, lb.toFlt = .fin c → ∀ i, |M i i - c| ≤ 2 ^ 80) ∧
  ∃ y : List ℝ, (∀ u ∈ y, |u| ≤ B) ∧ (Pattern.psd n lb dv fd).flattenFreeA A (.arr a) vv = .ok ⟨[y.length], y.map .fin⟩

mutual
/-- Values of the pattern away from the bounds: machine numbers of moderate size, at least `2 ** -300` from every bound; probabilities of at least
`exp(-B)` with sums within `1e-13` of one; comfortable matrices. -/
def Comfortable (A : Arith) (B : ℝ) (vv : Option Bool) : Pattern → Val Flt → Prop
  | .numeric _ s lb ub _ _, .arr a => a.shape = s ∧ a.data.length = s.prod ∧ ∀ x ∈ a.data, ∃ v, x = .fin v ∧ A.Machine (.fin v) ∧ |v| ≤ 2 ^ (300 : ℤ) ∧
      (∀ c, lb.toFlt = .fin c → 2 ^ (-300 : ℤ) ≤ v - c) ∧ ∀ c, ub.toFlt = .fin c → 2 ^ (-300 : ℤ) ≤ c - v
  | .simplex k s _ _, .arr a => a.shape = s ++ [k] ∧ ∃ r : List ℝ, a.data = r.map .fin ∧ r.length = s.prod * k ∧
      (∀ v ∈ r, A.Machine (.fin v) ∧ 0 < v ∧ |Real.log v| ≤ B) ∧ ∀ i < s.prod, |(block k r i).sum - 1| ≤ 1 / 10 ^ 13
  | .psd n lb dv fd, .arr a => ComfortableMatrix A B vv n lb dv fd a
  | .array s base _, .arr a => a.shape = s ++ base.shape ∧ a.data.length = s.prod * base.shape.prod ∧
      ∀ i < s.prod, Comfortable A B vv base (.arr ⟨base.shape, block base.shape.prod a.data i⟩)
  | .dict es _ _, .dict vs => ComfortableEs A B vv es vs
  | _, _ => False
/-- `Comfortable` for every member. -/
def ComfortableEs (A : Arith) (B : ℝ) (vv : Option Bool) : Entries → List (String × Val Flt) → Prop
  | .nil, _ => True
  | .cons k p r, vs => (∃ v, vs.lookup k = some v ∧ Comfortable A B vv p v) ∧ ComfortableEs A B vv r vs
end

mutual
/-- The second value is what came back for the first: arrays as in `Near`; dictionaries with the keys in the order of the pattern, whatever the order was. -/
def Returned (err : Pattern → ℝ → ℝ) : Pattern → Val Flt → Val Flt → Prop
  | .dict es _ _, .dict vs, .dict ws => ReturnedEs err es vs ws
  | .dict _ _ _, _, _ => False
  | p, v, w => Near err p v w
/-- `Returned` for every member. -/
def ReturnedEs (err : Pattern → ℝ → ℝ) : Entries → List (String × Val Flt) → List (String × Val Flt) → Prop
  | .nil, _, [] => True
  | .cons k p r, vs, (k', w) :: ws => k' = k ∧ (∃ v, vs.lookup k = some v ∧ Returned err p v w) ∧ ReturnedEs err r vs ws
  | _, _, _ => False
end

end Paragami.Spec
