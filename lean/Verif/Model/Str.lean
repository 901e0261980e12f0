import Verif.Model.Pattern

/-!
# `str` of patterns (the `__str__` methods)

The text of a float is a parameter `fmt` (Python's `repr`); `int`s print in decimal.
-/

namespace Paragami

/-- Python's `str` of a tuple of ints. -/
def tupleStr : List Nat → String
  | [] => "()"
  | [n] => "(" ++ toString n ++ ",)"
  | l => "(" ++ ", ".intercalate (l.map toString) ++ ")"

/-- Python's `str` of a number. -/
def PyNum.str (fmt : Flt → String) : PyNum → String
  | .int i => toString i
  | .flt f => fmt f

namespace Pattern

mutual
/-- `__str__`: numeric_array_patterns.py:167-169 (inherited by vectors and scalars), simplex_patterns.py:115-117,
psdmatrix_patterns.py:206-208, pattern_containers.py:481-483 (`PatternArray`), 188-194 (`PatternDict`). -/
def str (fmt : Flt → String) : Pattern → String
  | numeric _ s lb ub _ _ => "NumericArrayPattern " ++ tupleStr s ++ " (lb=" ++ lb.str fmt ++ ", ub=" ++ ub.str fmt ++ ")"
  | simplex k s _ _ => "SimplexArrayPattern " ++ tupleStr s ++ " of " ++ toString k ++ "-d simplices"
  | psd n lb _ _ => "PDMatrix " ++ toString n ++ "x" ++ toString n ++ " (diag_lb = " ++ lb.str fmt ++ ")"
  | array s base _ => "PatternArray " ++ tupleStr s ++ " of " ++ base.str fmt
  | dict es _ _ => "OrderedDict:\n" ++ "\n".intercalate (strEs fmt es)
/-- The lines for the members of a dictionary. -/
def strEs (fmt : Flt → String) : Entries → List String
  | .nil => []
  | .cons k p r => ("\t[" ++ k ++ "] = " ++ p.str fmt) :: strEs fmt r
end

section
variable {fmt : Flt → String}
theorem str_num {c s lb ub dv fd} : (numeric c s lb ub dv fd).str fmt =
    "NumericArrayPattern " ++ tupleStr s ++ " (lb=" ++ lb.str fmt ++ ", ub=" ++ ub.str fmt ++ ")" := rfl
theorem str_sim {k s dv fd} : (simplex k s dv fd).str fmt =
    "SimplexArrayPattern " ++ tupleStr s ++ " of " ++ toString k ++ "-d simplices" := rfl
theorem str_psd {n lb dv fd} : (psd n lb dv fd).str fmt =
    "PDMatrix " ++ toString n ++ "x" ++ toString n ++ " (diag_lb = " ++ lb.str fmt ++ ")" := rfl
theorem str_arr {s b fd} : (array s b fd).str fmt = "PatternArray " ++ tupleStr s ++ " of " ++ b.str fmt := rfl
theorem str_dict {es l fd} : (dict es l fd).str fmt = "OrderedDict:\n" ++ "\n".intercalate (strEs fmt es) := rfl
theorem strEs_nil : strEs fmt .nil = [] := rfl
theorem strEs_cons {k p r} : strEs fmt (.cons k p r) = ("\t[" ++ k ++ "] = " ++ p.str fmt) :: strEs fmt r := rfl
end

end Pattern
end Paragami
