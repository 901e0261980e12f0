import Verif.Model.Json
import Verif.Model.Messages

/-! # The texts of the exceptions of `from_json` -/

namespace Paragami.Json
noncomputable section

/-- base_patterns.py:377-385, pattern_containers.py:372-378 and 633-639, with the whole message.  `texts` is Python's `str` of a value that
is not a string. -/
def checkTypeText (texts : PyVal → String) (fs : List (String × PyVal)) (name : String) : Except Err Unit := do
  let t ← field fs "pattern"
  let shown := match t with
    | .str s => s
    | t => texts t
  if t matches .str _ ∧ shown = name then .ok ()
  else .error (.valueError (pyFormat ["", ".from_json must be called on a json_string made from a the same pattern type.  The json_string pattern type was ",
    "."] [name, shown]))

/-- `C.from_json(json_string)` for a shipped class with the whole message: the check of the type first, and then as in `fromJson` (whose own
check of the type then succeeds). -/
def fromJsonText (reg : Registry) (user : Nat → PyVal → Except Err Pattern) (texts : PyVal → String) (b : Builtin) :
    PyVal → Except Err Pattern
  | .text (.dict fs) => do
    checkTypeText texts fs b.typename
    fromJson reg user b (.text (.dict fs))
  | v => fromJson reg user b v

end
end Paragami.Json
