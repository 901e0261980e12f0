import Verif.Model.JsonText
import Mathlib.Data.List.Dedup

/-!
# The grammar of JSON texts

What it means that a text is a way to write a value, independently of how texts are produced and read.
-/

namespace Paragami
namespace Spec
open JsonText

/-- One or more decimal digits. -/
def DecDigits (d : List Char) : Prop := d ≠ [] ∧ ∀ c ∈ d, c.isDigit = true

/-- An integer without superfluous zeros. -/
def IntSyntax (a : List Char) : Prop :=
  ∃ sg d, a = sg ++ d ∧ (sg = [] ∨ sg = ['-']) ∧ DecDigits d ∧ (d = ['0'] ∨ d.head? ≠ some '0')

/-- An integer followed by a fraction, an exponent or both. -/
def FloatSyntax (t : List Char) : Prop :=
  ∃ a f e, t = a ++ f ++ e ∧ IntSyntax a ∧ (f = [] ∨ ∃ d, f = '.' :: d ∧ DecDigits d) ∧
    (e = [] ∨ ∃ c sg d, e = c :: (sg ++ d) ∧ (c = 'e' ∨ c = 'E') ∧ (sg = [] ∨ sg = ['-'] ∨ sg = ['+']) ∧ DecDigits d) ∧ (f ≠ [] ∨ e ≠ [])

/-- `repr` writes the numbers in `D` (the doubles) with a fraction or an exponent, and `float` reads them back. -/
def Faithful (F : FloatText) (D : ℝ → Prop) : Prop := ∀ r, D r → FloatSyntax (F.repr r) ∧ F.float (F.repr r) = .fin r

/-- White space. -/
def Ws (w : List Char) : Prop := ∀ c ∈ w, c = ' ' ∨ c = '\t' ∨ c = '\n' ∨ c = '\r'

/-- One hexadecimal digit, in lower or upper case. -/
def HexDigit (c : Char) (n : Nat) : Prop := n < 16 ∧ (c = Nat.digitChar n ∨ c = (Nat.digitChar n).toUpper)

/-- Four hexadecimal digits. -/
def Hex4 (h : List Char) (n : Nat) : Prop :=
  ∃ c1 c2 c3 c4 n1 n2 n3 n4, h = [c1, c2, c3, c4] ∧ HexDigit c1 n1 ∧ HexDigit c2 n2 ∧ HexDigit c3 n3 ∧ HexDigit c4 n4 ∧
    n = n1 * 4096 + n2 * 256 + n3 * 16 + n4

/-- The characters that can be written as a backslash and one character, and this character. -/
def shorts : List (Char × Char) :=
  [('"', '"'), ('\\', '\\'), ('/', '/'), ('b', Char.ofNat 8), ('f', Char.ofNat 12), ('n', '\n'), ('r', '\r'), ('t', '\t')]

/-- Ways to write the characters of a string: as they are, unless they are quotation marks, backslashes or control characters; by a
backslash and a character; by `\u` and the code; or, if the code has more than 16 bits, by two of these, a surrogate pair. -/
inductive WritesStr : List Char → List Char → Prop
  | nil : WritesStr [] []
  | plain {c s t} : c ≠ '"' → c ≠ '\\' → 32 ≤ c.toNat → WritesStr s t → WritesStr (c :: s) (c :: t)
  | short {d c s t} : (d, c) ∈ shorts → WritesStr s t → WritesStr (c :: s) ('\\' :: d :: t)
  | code {h c s t} : Hex4 h c.toNat → WritesStr s t → WritesStr (c :: s) ('\\' :: 'u' :: (h ++ t))
  | pair {h h' a b c s t} : Hex4 h (0xD800 + a) → Hex4 h' (0xDC00 + b) → a < 1024 → b < 1024 → c.toNat = 0x10000 + (a * 1024 + b) →
      WritesStr s t → WritesStr (c :: s) ('\\' :: 'u' :: (h ++ '\\' :: 'u' :: (h' ++ t)))

/-- What `gs` has after its entries were assigned in the order of `fs`: each key once, in the order of its first occurrence, with its last
value. -/
def Updated (fs gs : List (String × PyVal)) : Prop :=
  gs.map (·.1) = (fs.map (·.1)).reverse.dedup.reverse ∧ ∀ k, gs.lookup k = fs.reverse.lookup k

mutual
/-- Ways to write a value, with any white space between the tokens. -/
inductive Writes (F : FloatText) : PyVal → List Char → Prop
  | null : Writes F .none "null".toList
  | true : Writes F (.bool true) "true".toList
  | false : Writes F (.bool false) "false".toList
  | nan : Writes F (.num (.flt .nan)) "NaN".toList
  | pinf : Writes F (.num (.flt .pinf)) "Infinity".toList
  | ninf : Writes F (.num (.flt .ninf)) "-Infinity".toList
  | int (i : ℤ) : Writes F (.num (.int i)) (toString i).toList
  | negZero : Writes F (.num (.int 0)) "-0".toList
  | float {t} : FloatSyntax t → Writes F (.num (.flt (F.float t))) t
  | str {s t} : WritesStr s t → Writes F (.str (String.ofList s)) ('"' :: (t ++ ['"']))
  | emptyList {w} : Ws w → Writes F (.list []) ('[' :: (w ++ [']']))
  | list {l w u} : Ws w → WritesItems F l u → Writes F (.list l) ('[' :: (w ++ u))
  | emptyDict {w} : Ws w → Writes F (.dict []) ('{' :: (w ++ ['}']))
  | dict {fs gs w u} : Ws w → WritesFields F fs u → Updated fs gs → Writes F (.dict gs) ('{' :: (w ++ u))
/-- The entries of a list and the closing bracket. -/
inductive WritesItems (F : FloatText) : List PyVal → List Char → Prop
  | last {v t w} : Writes F v t → Ws w → WritesItems F [v] (t ++ (w ++ [']']))
  | cons {v t w w' l u} : Writes F v t → Ws w → Ws w' → WritesItems F l u → WritesItems F (v :: l) (t ++ (w ++ ',' :: (w' ++ u)))
/-- The entries of a dictionary and the closing brace. -/
inductive WritesFields (F : FloatText) : List (String × PyVal) → List Char → Prop
  | last {k s v t w1 w2 w3} : WritesStr k s → Ws w1 → Ws w2 → Writes F v t → Ws w3 →
      WritesFields F [(String.ofList k, v)] ('"' :: (s ++ '"' :: (w1 ++ ':' :: (w2 ++ (t ++ (w3 ++ ['}']))))))
  | cons {k s v t w1 w2 w3 w4 fs u} : WritesStr k s → Ws w1 → Ws w2 → Writes F v t → Ws w3 → Ws w4 → WritesFields F fs u →
      WritesFields F ((String.ofList k, v) :: fs) ('"' :: (s ++ '"' :: (w1 ++ ':' :: (w2 ++ (t ++ (w3 ++ ',' :: (w4 ++ u)))))))
end

/-- The text has an escape `\ud…`, the code of a surrogate. -/
def SurrogateEscape (t : List Char) : Prop := ∃ a d b, t = a ++ '\\' :: 'u' :: d :: b ∧ (d = 'd' ∨ d = 'D')

mutual
/-- The value with tuples turned into lists and texts into strings of characters. -/
noncomputable def chars (F : FloatText) : PyVal → PyVal
  | .none => .none
  | .bool b => .bool b
  | .num x => .num x
  | .str s => .str s
  | .list l => .list (charsList F l)
  | .tuple l => .list (charsList F l)
  | .dict fs => .dict (charsFields F fs)
  | .text j => .str (String.ofList (dumps F j))
/-- `chars` in a list. -/
noncomputable def charsList (F : FloatText) : List PyVal → List PyVal
  | [] => []
  | v :: l => chars F v :: charsList F l
/-- `chars` in a dictionary. -/
noncomputable def charsFields (F : FloatText) : List (String × PyVal) → List (String × PyVal)
  | [] => []
  | (k, v) :: fs => (k, chars F v) :: charsFields F fs
end

mutual
/-- The finite floats in the value are in `D`, and no dictionary has a key twice. -/
def Printable (D : ℝ → Prop) : PyVal → Prop
  | .num (.flt (.fin r)) => D r
  | .list l => PrintableList D l
  | .tuple l => PrintableList D l
  | .dict fs => (fs.map (·.1)).Nodup ∧ PrintableFields D fs
  | _ => True
/-- `Printable` for every entry. -/
def PrintableList (D : ℝ → Prop) : List PyVal → Prop
  | [] => True
  | v :: l => Printable D v ∧ PrintableList D l
/-- `Printable` for every entry. -/
def PrintableFields (D : ℝ → Prop) : List (String × PyVal) → Prop
  | [] => True
  | (_, v) :: fs => Printable D v ∧ PrintableFields D fs
end

/-- The name of the class is not itself a text encoding a value (`PyVal.text`), nor a tuple. -/
def NameClean : PyVal → Prop
  | .dict fs => ∀ v, fs.lookup "pattern" = some v → (∀ j, v ≠ .text j) ∧ ∀ l, v ≠ .tuple l
  | _ => True

mutual
/-- The value is one that `json.loads` could have returned, where some strings are given by the values they encode: it has no tuples, the
finite floats are in `D`, no dictionary has a key twice, and so on inside texts. -/
def Clean (D : ℝ → Prop) : PyVal → Prop
  | .num (.flt (.fin r)) => D r
  | .list l => CleanList D l
  | .tuple _ => False
  | .dict fs => (fs.map (·.1)).Nodup ∧ CleanFields D fs
  | .text j => Clean D j ∧ NameClean j
  | _ => True
/-- `Clean` for every entry. -/
def CleanList (D : ℝ → Prop) : List PyVal → Prop
  | [] => True
  | v :: l => Clean D v ∧ CleanList D l
/-- `Clean` for every entry. -/
def CleanFields (D : ℝ → Prop) : List (String × PyVal) → Prop
  | [] => True
  | (_, v) :: fs => Clean D v ∧ CleanFields D fs
end

/-- The number is infinite, not a number, an integer, or in `D`. -/
def NumIn (D : ℝ → Prop) : PyNum → Prop
  | .flt (.fin r) => D r
  | _ => True

mutual
/-- The finite bounds of the pattern that are floats are in `D`. -/
def FloatsIn (D : ℝ → Prop) : Pattern → Prop
  | .numeric _ _ lb ub _ _ => NumIn D lb ∧ NumIn D ub
  | .simplex _ _ _ _ => True
  | .psd _ lb _ _ => NumIn D lb
  | .array _ b _ => FloatsIn D b
  | .dict es _ _ => FloatsInEs D es
/-- `FloatsIn` for every entry. -/
def FloatsInEs (D : ℝ → Prop) : Entries → Prop
  | .nil => True
  | .cons _ p r => FloatsIn D p ∧ FloatsInEs D r
end

mutual
/-- How deep containers are nested. -/
def depth : Pattern → Nat
  | .array _ b _ => depth b + 1
  | .dict es _ _ => depthEs es
  | _ => 0
/-- How deep the entries are nested, counting the dictionary. -/
def depthEs : Entries → Nat
  | .nil => 0
  | .cons _ p r => max (depth p + 1) (depthEs r)
end

/-- The result of reading a text by the value it encodes agrees with the result of reading its characters, unless it is `unmodelled`. -/
def Refines {α : Type} (a b : Except Err α) : Prop := a = .error .unmodelled ∨ a = b

/-- `from_json` of user classes, called on a text given by the value it encodes. -/
noncomputable def onValues (F : FloatText) (user : Nat → List Char → Except Err Pattern) (id : Nat) : PyVal → Except Err Pattern
  | .text j => user id (dumps F j)
  | _ => .error .unmodelled

end Spec
end Paragami
