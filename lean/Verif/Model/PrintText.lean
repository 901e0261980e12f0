import Verif.Model.Optimization
import Mathlib.Algebra.Order.Floor.Semiring

/-!
# The text printed by `OptimizationObjective`

Texts are lists of characters.  Python formats a double from its exact value, so that the exact reals of `Flt` lose nothing; zero has no sign.
-/

namespace Paragami
namespace PrintText

noncomputable section

open Classical in
/-- The closest integer to a number that is not negative, the even one of two (`_Py_dg_dtoa`). -/
def roundEven (y : ℝ) : Nat :=
  let n := ⌊y⌋₊
  if y - n < 1 / 2 then n else if 1 / 2 < y - n then n + 1 else if n % 2 = 0 then n else n + 1

/-- The last `w` decimal digits. -/
def lastDigits : Nat → Nat → List Char
  | 0, _ => []
  | w + 1, n => lastDigits w (n / 10) ++ [Nat.digitChar (n % 10)]

open Classical in
/-- `'{:0.8f}'.format(r)` for a finite number; the zero before the point has no effect without a width. -/
def fixed (r : ℝ) : List Char :=
  let n := roundEven (|r| * 10 ^ 8)
  (if r < 0 then ['-'] else []) ++ (Nat.toDigits 10 (n / 10 ^ 8) ++ '.' :: lastDigits 8 n)

/-- `'{:0.8f}'.format(f_val)`. -/
def number : Flt → List Char
  | .fin r => fixed r
  | .pinf => ['i', 'n', 'f']
  | .ninf => ['-', 'i', 'n', 'f']
  | .nan => ['n', 'a', 'n']

/-- optimization_lib.py:427-441 `print_value`: `print('Iter {}: f = {:0.8f}'.format(num_f_evals, f_val))`. -/
def line (e : Nat × Flt) : List Char :=
  ['I', 't', 'e', 'r', ' '] ++ (Nat.toDigits 10 e.1 ++ ([':', ' ', 'f', ' ', '=', ' '] ++ (number e.2 ++ ['\n'])))

/-- Everything printed, one line after the other. -/
def output (l : List (Nat × Flt)) : List Char := l.flatMap line

end

end PrintText
end Paragami
