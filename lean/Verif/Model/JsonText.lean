import Verif.Model.Json

/-!
# JSON texts character by character

`Model/Json.lean` represents a JSON text by the value it encodes.  Here texts are lists of characters: `json.dumps` with its default
arguments (`ensure_ascii=True`, separators `", "` and `": "`, `allow_nan=True`), `json.loads`, and `get_pattern_from_json` and
`from_json` on top of them.  Source of the former: the Python files `encoder.py`, `scanner.py` and `decoder.py` of the standard library,
whose C versions do the same.  Lone surrogates do not exist as characters in Lean; a string with one is `unmodelled`.  The recursion limit of
the interpreter is not modelled.
-/

namespace Paragami

noncomputable section

namespace JsonText

/-- Floats as texts: `float.__repr__` of a finite double and `float` of a text. -/
structure FloatText where
  /-- `float.__repr__(x)` -/
  repr : ℝ → List Char
  /-- `float(text)` -/
  float : List Char → Flt

/-! ### `json.dumps` -/

/-- `'\\u{0:04x}'.format(n)`. -/
def u4 (n : Nat) : List Char :=
  ['\\', 'u', Nat.digitChar (n / 4096 % 16), Nat.digitChar (n / 256 % 16), Nat.digitChar (n / 16 % 16), Nat.digitChar (n % 16)]

/-- `py_encode_basestring_ascii`, one character. -/
def esc (c : Char) : List Char :=
  if c = '"' then ['\\', '"']
  else if c = '\\' then ['\\', '\\']
  else if c = '\n' then ['\\', 'n']
  else if c = '\r' then ['\\', 'r']
  else if c = '\t' then ['\\', 't']
  else if c.toNat = 12 then ['\\', 'f']
  else if c.toNat = 8 then ['\\', 'b']
  else if 32 ≤ c.toNat ∧ c.toNat ≤ 126 then [c]
  else if c.toNat < 65536 then u4 c.toNat
  else u4 (55296 + (c.toNat - 65536) / 1024) ++ u4 (56320 + (c.toNat - 65536) % 1024)

/-- `py_encode_basestring_ascii`. -/
def quote (s : List Char) : List Char := '"' :: (s.flatMap esc ++ ['"'])

/-- `int.__repr__`. -/
def intText : ℤ → List Char
  | .ofNat n => Nat.toDigits 10 n
  | .negSucc n => '-' :: Nat.toDigits 10 (n + 1)

/-- `floatstr` and `int.__repr__`. -/
def numText (F : FloatText) : PyNum → List Char
  | .int i => intText i
  | .flt (.fin r) => F.repr r
  | .flt .pinf => ['I', 'n', 'f', 'i', 'n', 'i', 't', 'y']
  | .flt .ninf => ['-', 'I', 'n', 'f', 'i', 'n', 'i', 't', 'y']
  | .flt .nan => ['N', 'a', 'N']

mutual
/-- `json.dumps(v)` (`_make_iterencode`).  A `text` is a string, written with its characters. -/
def dumps (F : FloatText) : PyVal → List Char
  | .none => ['n', 'u', 'l', 'l']
  | .bool true => ['t', 'r', 'u', 'e']
  | .bool false => ['f', 'a', 'l', 's', 'e']
  | .num x => numText F x
  | .str s => quote s.toList
  | .list l => '[' :: (dumpsItems F l ++ [']'])
  | .tuple l => '[' :: (dumpsItems F l ++ [']'])
  | .dict fs => '{' :: (dumpsFields F fs ++ ['}'])
  | .text j => quote (dumps F j)
/-- The entries of a list. -/
def dumpsItems (F : FloatText) : List PyVal → List Char
  | [] => []
  | v :: l => dumps F v ++ dumpsItemsTail F l
/-- The entries of a list after the first one. -/
def dumpsItemsTail (F : FloatText) : List PyVal → List Char
  | [] => []
  | v :: l => ',' :: ' ' :: (dumps F v ++ dumpsItemsTail F l)
/-- The entries of a dictionary. -/
def dumpsFields (F : FloatText) : List (String × PyVal) → List Char
  | [] => []
  | (k, v) :: fs => quote k.toList ++ (':' :: ' ' :: (dumps F v ++ dumpsFieldsTail F fs))
/-- The entries of a dictionary after the first one. -/
def dumpsFieldsTail (F : FloatText) : List (String × PyVal) → List Char
  | [] => []
  | (k, v) :: fs => ',' :: ' ' :: (quote k.toList ++ (':' :: ' ' :: (dumps F v ++ dumpsFieldsTail F fs)))
end

/-! ### `json.loads` -/

/-- `json.JSONDecodeError`, a `ValueError`. -/
def bad {α : Type} : Except Err α := .error (.valueError "JSONDecodeError")

/-- `WHITESPACE_STR`. -/
def isWs (c : Char) : Bool := c == ' ' || c == '\t' || c == '\n' || c == '\r'

/-- `WHITESPACE.match(s, idx).end()`. -/
def skip (t : List Char) : List Char := t.dropWhile isWs

/-- One hexadecimal digit. -/
def hexVal (c : Char) : Option Nat :=
  if 48 ≤ c.toNat ∧ c.toNat ≤ 57 then some (c.toNat - 48)
  else if 97 ≤ c.toNat ∧ c.toNat ≤ 102 then some (c.toNat - 87)
  else if 65 ≤ c.toNat ∧ c.toNat ≤ 70 then some (c.toNat - 55)
  else none

/-- `_decode_uXXXX`. -/
def hex4 : List Char → Except Err (Nat × List Char)
  | a :: b :: c :: d :: t =>
    match hexVal a, hexVal b, hexVal c, hexVal d with
    | some a, some b, some c, some d => .ok (a * 4096 + b * 256 + c * 16 + d, t)
    | _, _, _, _ => bad
  | _ => bad

/-- The part of `py_scanstring` after `\u`; `none` is a lone surrogate. -/
def unicode (t : List Char) : Except Err (Option Char × List Char) := do
  let (u, t) ← hex4 t
  if 55296 ≤ u ∧ u ≤ 56319 then
    match t with
    | '\\' :: 'u' :: t' => do
      let (w, t'') ← hex4 t'
      if 56320 ≤ w ∧ w ≤ 57343 then .ok (some (Char.ofNat (65536 + (u - 55296) * 1024 + (w - 56320))), t'') else .ok (none, t)
    | _ => .ok (none, t)
  else if 56320 ≤ u ∧ u ≤ 57343 then .ok (none, t)
  else .ok (some (Char.ofNat u), t)

/-- The part of `py_scanstring` after a backslash. -/
def escape : List Char → Except Err (Option Char × List Char)
  | [] => bad
  | c :: t =>
    if c = 'u' then unicode t
    else if c = '"' then .ok (some '"', t)
    else if c = '\\' then .ok (some '\\', t)
    else if c = '/' then .ok (some '/', t)
    else if c = 'b' then .ok (some (Char.ofNat 8), t)
    else if c = 'f' then .ok (some (Char.ofNat 12), t)
    else if c = 'n' then .ok (some '\n', t)
    else if c = 'r' then .ok (some '\r', t)
    else if c = 't' then .ok (some '\t', t)
    else bad

/-- `py_scanstring` with `strict=True`, after the opening quotation mark.  The number bounds the characters left to read. -/
def scanString : Nat → List Char → Except Err (List Char × List Char)
  | 0, _ => bad
  | _ + 1, [] => bad
  | n + 1, c :: t =>
    if c = '"' then .ok ([], t)
    else if c = '\\' then do
      let (d, t) ← escape t
      let (s, t) ← scanString n t
      match d with
      | some d => return (d :: s, t)
      | none => .error .unmodelled
    else if c.toNat < 32 then bad
    else do
      let (s, t) ← scanString n t
      return (c :: s, t)

/-- `0|[1-9][0-9]*`. -/
def natPart : List Char → Option (List Char × List Char)
  | [] => none
  | c :: t =>
    if c = '0' then some (['0'], t)
    else if c.isDigit then some (c :: t.takeWhile Char.isDigit, t.dropWhile Char.isDigit)
    else none

/-- `-?(?:0|[1-9][0-9]*)`. -/
def intPart : List Char → Option (List Char × List Char)
  | [] => none
  | c :: t => if c = '-' then (natPart t).map fun a => ('-' :: a.1, a.2) else natPart (c :: t)

/-- `(\.[0-9]+)?`. -/
def fracPart : List Char → List Char × List Char
  | [] => ([], [])
  | c :: t =>
    if c = '.' ∧ t.takeWhile Char.isDigit ≠ [] then ('.' :: t.takeWhile Char.isDigit, t.dropWhile Char.isDigit) else ([], c :: t)

/-- `[-+]?`. -/
def signPart : List Char → List Char × List Char
  | [] => ([], [])
  | c :: t => if c = '-' ∨ c = '+' then ([c], t) else ([], c :: t)

/-- `([eE][-+]?[0-9]+)?`. -/
def expPart : List Char → List Char × List Char
  | [] => ([], [])
  | c :: t =>
    if (c = 'e' ∨ c = 'E') ∧ (signPart t).2.takeWhile Char.isDigit ≠ [] then
      (c :: ((signPart t).1 ++ (signPart t).2.takeWhile Char.isDigit), (signPart t).2.dropWhile Char.isDigit)
    else ([], c :: t)

/-- `int(text)` of a matched integer. -/
def intVal : List Char → ℤ
  | [] => 0
  | c :: t => if c = '-' then -(Nat.ofDigitChars 10 t 0 : ℤ) else (Nat.ofDigitChars 10 (c :: t) 0 : ℤ)

/-- `NUMBER_RE` and what `scan_once` does with the groups. -/
def number (F : FloatText) (t : List Char) : Option (PyVal × List Char) :=
  (intPart t).map fun a =>
    let f := fracPart a.2
    let e := expPart f.2
    (if f.1 = [] ∧ e.1 = [] then .num (.int (intVal a.1)) else .num (.flt (F.float (a.1 ++ f.1 ++ e.1))), e.2)

/-- The constants of `scan_once`. -/
def constants : List (List Char × PyVal) :=
  [(['n', 'u', 'l', 'l'], .none), (['t', 'r', 'u', 'e'], .bool true), (['f', 'a', 'l', 's', 'e'], .bool false),
   (['N', 'a', 'N'], .num (.flt .nan)), (['I', 'n', 'f', 'i', 'n', 'i', 't', 'y'], .num (.flt .pinf)),
   (['-', 'I', 'n', 'f', 'i', 'n', 'i', 't', 'y'], .num (.flt .ninf))]

/-- The text after `l`, if it starts with `l`. -/
def lit : List Char → List Char → Option (List Char)
  | [], t => some t
  | _ :: _, [] => none
  | a :: l, c :: t => if a = c then lit l t else none

/-- `scan_once` on anything but strings, lists and dictionaries; constants and numbers start differently, so the order does not
matter. -/
def scalar (F : FloatText) (t : List Char) : Except Err (PyVal × List Char) :=
  match number F t with
  | some x => .ok x
  | none =>
    match constants.findSome? (fun a => (lit a.1 t).map fun r => (a.2, r)) with
    | some x => .ok x
    | none => bad

/-- Assignment `d[k] = v`. -/
def assign : List (String × PyVal) → String → PyVal → List (String × PyVal)
  | [], k, v => [(k, v)]
  | (k', v') :: fs, k, v => if k' = k then (k, v) :: fs else (k', v') :: assign fs k v

/-- `dict(pairs)`: the last value of a key, at the place of the first one. -/
def pyDict (fs : List (String × PyVal)) : List (String × PyVal) := fs.foldl (fun d f => assign d f.1 f.2) []

mutual
/-- `scan_once`; the value and the rest of the text.  The number bounds the nesting of the calls. -/
def value (F : FloatText) : Nat → List Char → Except Err (PyVal × List Char)
  | 0, _ => .error .unmodelled
  | _ + 1, [] => bad
  | n + 1, c :: t =>
    if c = '"' then do
      let (s, r) ← scanString t.length t
      return (.str (String.ofList s), r)
    else if c = '{' then
      match skip t with
      | [] => bad
      | d :: r =>
        if d = '}' then .ok (.dict [], r)
        else do
          let (fs, r) ← members F n (d :: r)
          return (.dict (pyDict fs), r)
    else if c = '[' then
      match skip t with
      | [] => bad
      | d :: r =>
        if d = ']' then .ok (.list [], r)
        else do
          let (l, r) ← items F n (d :: r)
          return (.list l, r)
    else scalar F (c :: t)
/-- The loop of `JSONArray`. -/
def items (F : FloatText) : Nat → List Char → Except Err (List PyVal × List Char)
  | 0, _ => .error .unmodelled
  | n + 1, t => do
    let (v, r) ← value F n t
    match skip r with
    | [] => bad
    | d :: r =>
      if d = ',' then do
        let (l, r) ← items F n (skip r)
        return (v :: l, r)
      else if d = ']' then return ([v], r)
      else bad
/-- The loop of `JSONObject`. -/
def members (F : FloatText) : Nat → List Char → Except Err (List (String × PyVal) × List Char)
  | 0, _ => .error .unmodelled
  | _ + 1, [] => bad
  | n + 1, q :: t =>
    if q = '"' then do
      let (k, r) ← scanString t.length t
      match skip r with
      | [] => bad
      | d :: r =>
        if d = ':' then do
          let (v, r) ← value F n (skip r)
          match skip r with
          | [] => bad
          | d :: r =>
            if d = ',' then do
              let (fs, r) ← members F n (skip r)
              return ((String.ofList k, v) :: fs, r)
            else if d = '}' then return ([(String.ofList k, v)], r)
            else bad
        else bad
    else bad
end

/-- `json.loads(t)` of a string. -/
def loads (F : FloatText) (t : List Char) : Except Err PyVal := do
  let (v, r) ← value F (2 * t.length + 1) (skip t)
  if skip r = [] then return v else bad

/-! ### Patterns -/

/-- base_patterns.py:363-370 `to_json`. -/
def toJson (F : FloatText) (p : Pattern) : List Char := dumps F p.asDict

variable (F : FloatText) (reg : Registry) (user : Nat → List Char → Except Err Pattern)

/-- `get` of the values of a dictionary; `json.loads` of anything but a string raises `TypeError`. -/
def eachWith (get : List Char → Except Err Pattern) (fs : List (String × PyVal)) : List (String × Except Err Pattern) :=
  fs.map fun f => (f.1, match f.2 with | .str s => get s.toList | _ => .error .typeError)

/-- `get` of the entries of the dictionaries in a dictionary. -/
def innerWith (get : List Char → Except Err Pattern) (fs : List (String × PyVal)) : List (String × List (String × Except Err Pattern)) :=
  fs.filterMap fun f => match f.2 with | .dict gs => some (f.1, eachWith get gs) | _ => none

/-- pattern_containers.py:49-77 `get_pattern_from_json`, with a bound on the depth of the nesting. -/
def getN : Nat → List Char → Except Err Pattern
  | 0, _ => .error .unmodelled
  | n + 1, t => do
    match ← loads F t with
    | .dict fs => Json.dispatch reg (fun id _ => user id t) fs (eachWith (getN n) fs) (innerWith (getN n) fs)
    | _ => .error .typeError

/-- pattern_containers.py:49-77 `get_pattern_from_json`; a text inside a text is shorter. -/
def getPatternFromJson (t : List Char) : Except Err Pattern := getN F reg user (t.length + 1) t

/-- `C.from_json(json_string)` of a shipped class. -/
def fromJson (b : Builtin) (t : List Char) : Except Err Pattern := do
  match ← loads F t with
  | .dict fs => Json.builtinFromJson b fs (eachWith (getPatternFromJson F reg user) fs) (innerWith (getPatternFromJson F reg user) fs)
  | _ => .error .typeError

end JsonText

end

end Paragami
