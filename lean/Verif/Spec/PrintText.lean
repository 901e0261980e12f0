import Verif.Spec.JsonText
import Verif.Model.PrintText

/-! # What a printed number says -/

namespace Paragami
namespace Spec

/-- The text is a decimal fraction with eight decimals: a sign or none, digits without superfluous zeros, a point and eight more digits.  `n` is
the number that all the digits make. -/
def FixedPoint (t : List Char) (neg : Bool) (n : Nat) : Prop :=
  ∃ w d, t = (if neg then ['-'] else []) ++ (w ++ '.' :: d) ∧ DecDigits w ∧ (w = ['0'] ∨ w.head? ≠ some '0') ∧ DecDigits d ∧ d.length = 8 ∧
    n = Nat.ofDigitChars 10 (w ++ d) 0

/-- The number it says. -/
noncomputable def said (neg : Bool) (n : Nat) : ℝ := (if neg then -(n : ℝ) else n) / 10 ^ 8

/-- The same text can stand for both numbers: the same special value, or two numbers which differ by at most 1e-8. -/
def Alike : Flt → Flt → Prop
  | .fin r, .fin s => |r - s| ≤ 1 / 10 ^ 8
  | .pinf, .pinf => True
  | .ninf, .ninf => True
  | .nan, .nan => True
  | _, _ => False

end Spec
end Paragami
