import Mathlib.Analysis.SpecialFunctions.Log.Basic
import Mathlib.Analysis.SpecialFunctions.Sqrt

/-!
# Python / numpy floats

`Flt` models the `float64` values that flow through paragami: exact reals plus the IEEE special values.
Simplifications (recorded in DESIGN.md): no rounding, no overflow or underflow, and a single zero (`+0`).
-/

namespace Paragami

/-- A Python/numpy float: an exact real, an infinity, or NaN (numpy `float64`, idealised). -/
inductive Flt where
  | fin (r : ℝ)
  | pinf
  | ninf
  | nan

namespace Flt

noncomputable section

/-- The number is an ordinary (finite) number. -/
def IsFin : Flt → Prop
  | fin _ => True
  | _ => False

/-- The number is not NaN. -/
def NotNaN : Flt → Prop
  | nan => False
  | _ => True

/-- IEEE negation. -/
protected def neg : Flt → Flt
  | fin a => fin (-a)
  | pinf => ninf
  | ninf => pinf
  | nan => nan

/-- IEEE addition (`inf + -inf = nan`). -/
protected def add : Flt → Flt → Flt
  | fin a, fin b => fin (a + b)
  | nan, _ => nan
  | _, nan => nan
  | pinf, ninf => nan
  | ninf, pinf => nan
  | pinf, _ => pinf
  | _, pinf => pinf
  | ninf, _ => ninf
  | _, ninf => ninf

/-- `sgn r * inf` (`0 * inf = nan`). -/
def scaleInf (r : ℝ) : Flt := if 0 < r then pinf else if r < 0 then ninf else nan

/-- IEEE multiplication (`0 * inf = nan`). -/
protected def mul : Flt → Flt → Flt
  | fin a, fin b => fin (a * b)
  | nan, _ => nan
  | _, nan => nan
  | fin a, pinf => scaleInf a
  | fin a, ninf => scaleInf (-a)
  | pinf, fin b => scaleInf b
  | ninf, fin b => scaleInf (-b)
  | pinf, pinf => pinf
  | ninf, ninf => pinf
  | pinf, ninf => ninf
  | ninf, pinf => ninf

/-- IEEE division; every zero is `+0` (`1/0 = inf`, `0/0 = nan`, `inf/inf = nan`, `x/inf = 0`). -/
protected def div : Flt → Flt → Flt
  | nan, _ => nan
  | _, nan => nan
  | fin a, fin b => if b = 0 then scaleInf a else fin (a / b)
  | fin _, pinf => fin 0
  | fin _, ninf => fin 0
  | pinf, fin b => if b < 0 then ninf else pinf
  | ninf, fin b => if b < 0 then pinf else ninf
  | pinf, pinf => nan
  | pinf, ninf => nan
  | ninf, pinf => nan
  | ninf, ninf => nan

instance : Neg Flt := ⟨Flt.neg⟩
instance : Add Flt := ⟨Flt.add⟩
instance : Sub Flt := ⟨fun a b => Flt.add a (Flt.neg b)⟩
instance : Mul Flt := ⟨Flt.mul⟩
instance : Div Flt := ⟨Flt.div⟩
instance instOfNat (n : ℕ) : OfNat Flt n := ⟨fin (n : ℝ)⟩

/-- `np.exp`. -/
def exp : Flt → Flt
  | fin a => fin (Real.exp a)
  | pinf => pinf
  | ninf => fin 0
  | nan => nan

/-- `np.log` (`log 0 = -inf`, `log` of a negative number is NaN). -/
def log : Flt → Flt
  | fin a => if a = 0 then ninf else if a < 0 then nan else fin (Real.log a)
  | pinf => pinf
  | ninf => nan
  | nan => nan

/-- `np.abs`. -/
def abs : Flt → Flt
  | fin a => fin |a|
  | pinf => pinf
  | ninf => pinf
  | nan => nan

/-- `a < b` (false when either is NaN). -/
def lt : Flt → Flt → Bool
  | fin a, fin b => decide (a < b)
  | ninf, fin _ => true
  | ninf, pinf => true
  | fin _, pinf => true
  | _, _ => false

/-- `a == b` (false when either is NaN). -/
def eq : Flt → Flt → Bool
  | fin a, fin b => decide (a = b)
  | pinf, pinf => true
  | ninf, ninf => true
  | _, _ => false

/-- `a <= b`. -/
def le (a b : Flt) : Bool := lt a b || eq a b
/-- `a > b`. -/
def gt (a b : Flt) : Bool := lt b a
/-- `a >= b`. -/
def ge (a b : Flt) : Bool := le b a

/-- `np.sum` of a vector. -/
def sum (l : List Flt) : Flt := l.foldl (· + ·) 0

/-- `np.maximum` (NaN-propagating). -/
def max2 : Flt → Flt → Flt
  | nan, _ => nan
  | _, nan => nan
  | a, b => if lt a b then b else a

/-- `np.max` of a non-empty vector `a :: l`. -/
def maxOf (a : Flt) (l : List Flt) : Flt := l.foldl max2 a

/-- The real number behind a finite float (`0` otherwise; used only to state calculus facts). -/
def toReal : Flt → ℝ
  | fin a => a
  | _ => 0

end

/-! ### Evaluation lemmas -/

@[simp] theorem neg_fin (a : ℝ) : -(fin a) = fin (-a) := rfl
@[simp] theorem neg_pinf : -pinf = ninf := rfl
@[simp] theorem neg_ninf : -ninf = pinf := rfl
@[simp] theorem add_fin (a b : ℝ) : fin a + fin b = fin (a + b) := rfl
@[simp] theorem sub_fin (a b : ℝ) : fin a - fin b = fin (a - b) := by
  change fin (a + -b) = _; rw [sub_eq_add_neg]
@[simp] theorem mul_fin (a b : ℝ) : fin a * fin b = fin (a * b) := rfl
theorem div_fin (a b : ℝ) (h : b ≠ 0) : fin a / fin b = fin (a / b) := by
  change Flt.div _ _ = _; simp [Flt.div, h]
@[simp] theorem ofNat_fin (n : ℕ) : (OfNat.ofNat n : Flt) = fin (n : ℝ) := rfl
@[simp] theorem exp_fin (a : ℝ) : exp (fin a) = fin (Real.exp a) := rfl
@[simp] theorem exp_pinf : exp pinf = pinf := rfl
@[simp] theorem exp_ninf : exp ninf = fin 0 := rfl
@[simp] theorem exp_nan : exp nan = nan := rfl
theorem log_fin {a : ℝ} (h : 0 < a) : log (fin a) = fin (Real.log a) := by
  simp [log, h.ne', h.le]
@[simp] theorem log_zero : log (fin 0) = ninf := by simp [log]
@[simp] theorem abs_fin (a : ℝ) : abs (fin a) = fin |a| := rfl
@[simp] theorem lt_fin (a b : ℝ) : lt (fin a) (fin b) = decide (a < b) := rfl
@[simp] theorem eq_fin (a b : ℝ) : eq (fin a) (fin b) = decide (a = b) := rfl
@[simp] theorem le_fin (a b : ℝ) : le (fin a) (fin b) = decide (a ≤ b) := by
  simp only [le, lt_fin, eq_fin]
  rcases lt_trichotomy a b with h | h | h
  · simp [h, h.le]
  · simp [h]
  · simp [h.not_gt, h.not_ge, h.ne']
@[simp] theorem toReal_fin (a : ℝ) : toReal (fin a) = a := rfl
@[simp] theorem isFin_fin (a : ℝ) : IsFin (fin a) := trivial
@[simp] theorem notNaN_fin (a : ℝ) : NotNaN (fin a) := trivial
@[simp] theorem notNaN_pinf : NotNaN pinf := trivial
@[simp] theorem notNaN_ninf : NotNaN ninf := trivial
@[simp] theorem not_notNaN_nan : ¬ NotNaN nan := fun h => h
@[simp] theorem not_isFin_nan : ¬ IsFin nan := fun h => h
@[simp] theorem not_isFin_pinf : ¬ IsFin pinf := fun h => h
@[simp] theorem not_isFin_ninf : ¬ IsFin ninf := fun h => h

theorem isFin_iff {x : Flt} : IsFin x ↔ ∃ r, x = fin r := by
  cases x <;> simp [IsFin]

theorem fin_injective : Function.Injective fin := fun _ _ h => by injection h

end Flt

/-- A Python number as the user wrote it: `int` or `float` (they compare by value but print differently in JSON). -/
inductive PyNum where
  | int (i : ℤ)
  | flt (f : Flt)

namespace PyNum
/-- The numeric value used in numpy arithmetic and comparisons. -/
noncomputable def toFlt : PyNum → Flt
  | int i => Flt.fin (i : ℝ)
  | flt f => f
end PyNum

end Paragami
