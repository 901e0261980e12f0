import Verif.Model.Rounding
import Verif.Spec.Valid

/-! # What is assumed of a machine, and what is claimed of rounded folds -/

namespace Paragami

/-- A machine number: rounding leaves it alone. -/
def Arith.Machine (A : Arith) (x : Flt) : Prop := A.round x = x

/-- What the theorems on rounded folds assume of a machine.  Nothing is said about accuracy. -/
structure Arith.Sane (A : Arith) : Prop where
  /-- Rounding preserves the order (and never yields NaN). -/
  mono : ∀ a b, a ≤ b → (A.rnd a).le (A.rnd b) = true
  /-- Rounding twice is rounding once. -/
  idem : ∀ a, A.Machine (A.rnd a)
  /-- The machine numbers include zero and one, and with a number its negative. -/
  zero : A.rnd 0 = .fin 0
  one : A.rnd 1 = .fin 1
  neg : ∀ a, A.Machine (.fin a) → A.Machine (.fin (-a))
  /-- `exp` of the special values. -/
  exp_nan : A.exp .nan = .nan
  exp_pinf : A.exp .pinf = .pinf
  exp_ninf : A.exp .ninf = .fin 0
  exp_zero : A.exp (.fin 0) = .fin 1
  /-- `exp` returns machine numbers, nonnegative, and at most one for nonpositive arguments. -/
  exp_machine : ∀ x, A.Machine (A.exp x)
  exp_nonneg : ∀ r, (Flt.fin 0).le (A.exp (.fin r)) = true
  exp_le_one : ∀ r, r ≤ 0 → (A.exp (.fin r)).le (.fin 1) = true
  /-- `log` is nonnegative from one on. -/
  log_nonneg : ∀ x, (Flt.fin 1).le x = true → (Flt.fin 0).le (A.log x) = true
  /-- The computed sum of nonnegative machine numbers is at least each of them. -/
  sum_ge : ∀ l : List Flt, (∀ x ∈ l, (Flt.fin 0).le x = true ∧ A.Machine x) → ∀ x ∈ l, x.le (A.sum l) = true
  /-- The entries `(i, j)` and `(j, i)` of `C @ C.T` are computed alike. -/
  dot_comm : ∀ l, A.dot (l.map Prod.swap) = A.dot l
  /-- A computed sum of squares is nonnegative, and zero if everything is zero. -/
  dot_sq : ∀ l : List (Flt × Flt), (∀ p ∈ l, p.1 = p.2 ∧ p.1.NotNaN) → (Flt.fin 0).le (A.dot l) = true
  dot_zero : ∀ l : List (Flt × Flt), (∀ p ∈ l, p.1 = .fin 0 ∧ p.2 = .fin 0) → A.dot l = .fin 0
  /-- `cholesky` fails if the first entry is not positive. -/
  chol_fails : ∀ n a, 0 < n → (entry n a.data 0 0).le (.fin 0) = true → A.chol n a = .error .linAlgError

/-- Binary64 with library functions that are accurate to about one unit in the last place. -/
structure Arith.Accurate (A : Arith) : Prop where
  rnd : A.rnd = rnd64
  /-- `exp` below the overflow threshold; the absolute terms cover underflow. -/
  exp : ∀ r ≤ 709, ∃ v, A.exp (.fin r) = .fin v ∧ |v - Real.exp r| ≤ 2 ^ (-52 : ℤ) * Real.exp r + 2 ^ (-1074 : ℤ)
  log : ∀ r, 1 ≤ r → r < overflow64 →
    ∃ v, A.log (.fin r) = .fin v ∧ |v - Real.log r| ≤ 2 ^ (-52 : ℤ) * Real.log r + 2 ^ (-1074 : ℤ)
  /-- `np.sum` of machine numbers between zero and two, in any order. -/
  sum : ∀ l : List ℝ, (∀ x ∈ l, 0 ≤ x ∧ x ≤ 2 ∧ A.Machine (.fin x)) → l.length ≤ 2 ^ 20 →
    ∃ v, A.sum (l.map .fin) = .fin v ∧ |v - l.sum| ≤ l.length * 2 ^ (-52 : ℤ) * l.sum

namespace Spec

mutual
/-- Patterns whose rounded free folds cannot leave the constraint set: no simplexes, bounds and diagonal bounds that are
machine numbers, and two-sided bounds only of computed width one that the computed `1 + lb` does not overshoot. -/
def RoundSafe (A : Arith) : Pattern → Prop
  | .numeric _ _ lb ub _ _ => A.Machine lb.toFlt ∧ A.Machine ub.toFlt ∧
      (lb.toFlt = .ninf ∨ ub.toFlt = .pinf ∨
        (A.sub ub.toFlt lb.toFlt = .fin 1 ∧ (A.add 1 lb.toFlt).le ub.toFlt = true))
  | .simplex _ _ _ _ => False
  | .psd _ lb _ _ => A.Machine lb.toFlt
  | .array _ base _ => RoundSafe A base
  | .dict es _ _ => RoundSafeEs A es
/-- `RoundSafe` for every member. -/
def RoundSafeEs (A : Arith) : Entries → Prop
  | .nil => True
  | .cons _ p r => RoundSafe A p ∧ RoundSafeEs A r
end

end Spec
end Paragami
