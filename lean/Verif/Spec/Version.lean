import Verif.Model.Version

/-! # What `git` prints and what a version shows, independently of the code that reads it -/

namespace Paragami
namespace Spec
open Version

/-- One or more decimal digits. -/
def Digits (t : Text) : Prop := t ≠ [] ∧ ∀ c ∈ t, c.isDigit = true

/-- One or more of `0`-`9`, `a`-`f`. -/
def Hex (t : Text) : Prop := t ≠ [] ∧ ∀ c ∈ t, c.isDigit = true ∨ c ∈ ['a', 'b', 'c', 'd', 'e', 'f']

/-- The documented form `TAG-NUM-gHEX`. -/
structure Describes (t tag num hex : Text) : Prop where
  eq : t = tag ++ ['-'] ++ num ++ ['-', 'g'] ++ hex
  tag : tag ≠ [] ∧ '\n' ∉ tag
  num : Digits num
  hex : Hex hex

/-- ASCII white space: blank, tab, line feed, vertical tab, form feed, carriage return. -/
def Space (c : Char) : Prop := c.toNat = 32 ∨ 9 ≤ c.toNat ∧ c.toNat ≤ 13

/-- A text without white space. -/
def Word (t : Text) : Prop := ∀ c ∈ t, ¬ Space c

/-- A text that neither starts nor ends with white space. -/
def Trimmed (t : Text) : Prop := (∀ c ∈ t.head?, ¬ Space c) ∧ ∀ c ∈ t.getLast?, ¬ Space c

/-- The text with white space around it. -/
def Padded (t out : Text) : Prop := ∃ a b, (∀ c ∈ a, Space c) ∧ (∀ c ∈ b, Space c) ∧ out = a ++ t ++ b

/-- The text that `git describe --dirty` appends. -/
def dirtyMark (dirty : Bool) : Text := if dirty then "-dirty".toList else []

/-- Git works in the directory: it describes the commit as `desc`, names it `full`, and gives its date in three parts. -/
structure GitSays (g : Git) (desc full day time zone : Text) : Prop where
  gitDir : g.gitDir ≠ none
  describe : ∃ out, g.describe = some out ∧ Padded desc out
  descTrim : Trimmed desc
  head : ∃ out, g.head = some out ∧ Padded full out
  fullWord : Word full
  date : ∃ out, g.date = some out ∧ Padded (day ++ [' '] ++ time ++ [' '] ++ zone) out
  dateWords : (day ≠ [] ∧ Word day) ∧ Word time ∧ zone ≠ [] ∧ Word zone

/-- Exactly at a tag, with nothing changed. -/
def AtTag (p : Pieces) : Prop := p.closestTag ≠ none ∧ p.distance = 0 ∧ p.dirty = false

/-- The file comes from `git archive`, for a commit with the references `refs`, as `HEAD -> master` or `tag: v1.0`. -/
structure Archived (k : Keywords) (refs : List Text) (full day time zone : Text) : Prop where
  refsForm : refs ≠ [] ∧ ∀ r ∈ refs, ',' ∉ r ∧ '(' ∉ r ∧ ')' ∉ r ∧ Trimmed r
  refnames : Padded (['('] ++ [',', ' '].intercalate refs ++ [')']) k.refnames
  fullForm : Word full ∧ Padded full k.full
  date : Padded (day ++ [' '] ++ time ++ [' '] ++ zone) k.date
  dateWords : (day ≠ [] ∧ Word day) ∧ Word time ∧ zone ≠ [] ∧ Word zone

/-- The file comes from a checkout: git has not filled in the reference names. -/
def Unexpanded (k : Keywords) : Prop := ∃ rest, Padded ("$Format".toList ++ rest) k.refnames ∧ Trimmed ("$Format".toList ++ rest)

/-- The order of texts by code points: a proper prefix is less, else the first difference decides. -/
inductive TextLe : Text → Text → Prop
  | nil (t) : TextLe [] t
  | less {a b : Char} (s t) : a.toNat < b.toNat → TextLe (a :: s) (b :: t)
  | cons (a : Char) {s t} : TextLe s t → TextLe (a :: s) (a :: t)

end Spec
end Paragami
