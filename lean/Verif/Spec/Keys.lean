import Verif.Model.Keys
import Verif.Spec.WellFormed
import Verif.Spec.Json

/-!
# Dictionaries with any keys and dictionaries with strings as keys

Giving every key a name turns a pattern with any keys into one with strings as keys.
-/

namespace Paragami
namespace Spec

/-- The same class of exception, perhaps with another message. -/
def SameKind : Err → Err → Prop
  | .valueError _, .valueError _ => True
  | .keyError _, .keyError _ => True
  | .notImplementedError _, .notImplementedError _ => True
  | e, e' => e = e'

/-- Both calls return, with results related by `R`, or both raise exceptions of the same class. -/
def SameOutcome {A B : Type} (R : A → B → Prop) : Except Err A → Except Err B → Prop
  | .ok a, .ok b => R a b
  | .error e, .error e' => SameKind e e'
  | _, _ => False

/-- The number that an entry of a tuple is, if it is a number. -/
def atomNumber : Atom → Option ℚ
  | .bool true => some 1
  | .bool false => some 0
  | .int i => some i
  | .float q => some q
  | _ => none

/-- Entries of tuples which are equal in Python: the same string, the same number, or `None` twice. -/
def EqualAtoms (a b : Atom) : Prop := a = b ∨ ∃ q, atomNumber a = some q ∧ atomNumber b = some q

/-- The number that a key is, if it is a number. -/
def number : Key → Option ℚ
  | .bool true => some 1
  | .bool false => some 0
  | .int i => some i
  | .float q => some q
  | _ => none

/-- Keys which are equal in Python: identical ones, the same number in any type, and tuples with equal entries. -/
def Equal (a b : Key) : Prop :=
  a = b ∨ (∃ q, number a = some q ∧ number b = some q) ∨ ∃ l l', a = .tuple l ∧ b = .tuple l' ∧ List.Forall₂ EqualAtoms l l'

/-- Two keys have the same name exactly if they are equal in Python. -/
def Names (ν : Key → String) : Prop := ∀ a b, ν a = ν b ↔ Equal a b

mutual
/-- The pattern with its keys named by `ν`. -/
def rename (ν : Key → String) : KPattern → Pattern
  | .leaf p => p
  | .dict es l fd => .dict (renameEs ν es) l fd
/-- `rename` for every member. -/
def renameEs (ν : Key → String) : KEntries → Entries
  | .nil => .nil
  | .cons k p r => .cons (ν k) (rename ν p) (renameEs ν r)
end

mutual
/-- The folded value with its keys named by `ν`. -/
def renameVal {α : Type} (ν : Key → String) : KVal α → Val α
  | .arr a => .arr a
  | .dict vs => .dict (renameVals ν vs)
/-- `renameVal` for every entry. -/
def renameVals {α : Type} (ν : Key → String) : List (Key × KVal α) → List (String × Val α)
  | [] => []
  | (k, v) :: vs => (ν k, renameVal ν v) :: renameVals ν vs
end

mutual
/-- A pattern with strings as keys. -/
def withKeys : Pattern → KPattern
  | .dict es l fd => .dict (withKeysEs es) l fd
  | .numeric c s lb ub dv fd => .leaf (.numeric c s lb ub dv fd)
  | .simplex k s dv fd => .leaf (.simplex k s dv fd)
  | .psd n lb dv fd => .leaf (.psd n lb dv fd)
  | .array s b fd => .leaf (.array s b fd)
/-- `withKeys` for every member. -/
def withKeysEs : Entries → KEntries
  | .nil => .nil
  | .cons k p r => .cons (.str k) (withKeys p) (withKeysEs r)
end

mutual
/-- A folded value with strings as keys. -/
def valWithKeys {α : Type} : Val α → KVal α
  | .arr a => .arr a
  | .dict vs => .dict (valsWithKeys vs)
/-- `valWithKeys` for every entry. -/
def valsWithKeys {α : Type} : List (String × Val α) → List (Key × KVal α)
  | [] => []
  | (k, v) :: vs => (.str k, valWithKeys v) :: valsWithKeys vs
end

/-- Patterns obtainable through the public API. -/
inductive KBuilt : KPattern → Prop
  | leaf {p} (hp : Pattern.Built p) (hd : p.isDict = false) : KBuilt (.leaf p)
  | dict (fd) : KBuilt (.dict .nil false fd)
  | set {d k p d'} (hd : KBuilt d) (hp : KBuilt p) (h : d.setItem k p = .ok d') : KBuilt d'
  | del {shw d k d'} (hd : KBuilt d) (h : d.delItem shw k = .ok d') : KBuilt d'
  | lock {p} (hp : KBuilt p) : KBuilt p.lock

mutual
/-- All keys of the pattern, also those of its members, satisfy `S`. -/
def KeysIn (S : Key → Prop) : KPattern → Prop
  | .leaf _ => True
  | .dict es _ _ => KeysInEs S es
/-- `KeysIn` for the members, and their keys. -/
def KeysInEs (S : Key → Prop) : KEntries → Prop
  | .nil => True
  | .cons k p r => S k ∧ KeysIn S p ∧ KeysInEs S r
end

mutual
/-- All keys of the folded value satisfy `S`. -/
def ValKeysIn {α : Type} (S : Key → Prop) : KVal α → Prop
  | .arr _ => True
  | .dict vs => ValsKeysIn S vs
/-- `ValKeysIn` for the entries, and their keys. -/
def ValsKeysIn {α : Type} (S : Key → Prop) : List (Key × KVal α) → Prop
  | [] => True
  | (k, v) :: vs => S k ∧ ValKeysIn S v ∧ ValsKeysIn S vs
end

/-- The key is a string. -/
def IsStr (k : Key) : Prop := ∃ s, k = .str s

/-- The key is a tuple. -/
def IsTuple (k : Key) : Prop := ∃ l, k = .tuple l

/-- If the key is a float, `D` contains it. -/
def FloatKeyIn (D : ℝ → Prop) (k : Key) : Prop := ∀ q : ℚ, k = .float q → D q

/-- The members with their keys, in order. -/
def memberList : KEntries → List (Key × KPattern)
  | .nil => []
  | .cons k p r => (k, p) :: memberList r

/-- How a key is written as the key of a JSON object; `repr` writes floats.  (A tuple cannot be written.) -/
def jsonKey (repr : ℝ → List Char) : Key → String
  | .str s => s
  | .bool true => "true"
  | .bool false => "false"
  | .int i => toString i
  | .float q => String.ofList (repr q)
  | .none => "null"
  | .tuple _ => ""

/-- What JSON makes of a key that stands in a list. -/
noncomputable def jsonValue : Key → PyVal
  | .str s => .str s
  | .bool b => .bool b
  | .int i => .num (.int i)
  | .float q => .num (.flt (.fin q))
  | .none => .none
  | .tuple _ => .none

mutual
/-- The folded value has the keys of the pattern, of the same types and in the same order. -/
def Spelled {α : Type} : KPattern → KVal α → Prop
  | .leaf _, v => ∃ a, v = .arr a
  | .dict es _ _, .dict vs => SpelledEs es vs
  | .dict .., .arr _ => False
/-- `Spelled` for every member, and the same key. -/
def SpelledEs {α : Type} : KEntries → List (Key × KVal α) → Prop
  | .nil, [] => True
  | .cons k p r, (k', v) :: vs => k' = k ∧ Spelled p v ∧ SpelledEs r vs
  | _, _ => False
end

mutual
/-- The same patterns, apart from what `to_json` leaves out, under identical keys: of the same types and in the same order. -/
def SameText : KPattern → KPattern → Prop
  | .leaf p, .leaf q => forget p = forget q
  | .dict es _ _, .dict fs _ _ => SameTextEs es fs
  | _, _ => False
/-- `SameText` for the members, and identical keys. -/
def SameTextEs : KEntries → KEntries → Prop
  | .nil, .nil => True
  | .cons k p r, .cons k' q s => k = k' ∧ SameText p q ∧ SameTextEs r s
  | _, _ => False
end

/-- Equal keys in the same order, with members that are `SameText`. -/
def EqualEntries : KEntries → KEntries → Prop
  | .nil, .nil => True
  | .cons k p r, .cons k' q s => Equal k k' ∧ SameText p q ∧ EqualEntries r s
  | _, _ => False

/-- All keys of the members, but not the keys under which they are, satisfy `S`. -/
def MembersIn (S : Key → Prop) : KEntries → Prop
  | .nil => True
  | .cons _ p r => KeysIn S p ∧ MembersIn S r

mutual
/-- No `PatternDict` without members. -/
def NoEmptyDict : KPattern → Prop
  | .leaf _ => True
  | .dict es _ _ => es ≠ .nil ∧ NoEmptyDictEs es
/-- `NoEmptyDict` for every member. -/
def NoEmptyDictEs : KEntries → Prop
  | .nil => True
  | .cons _ p r => NoEmptyDict p ∧ NoEmptyDictEs r
end

mutual
/-- Every member that has entries has a string as its key. -/
def KeysNamed (free : Bool) : KPattern → Prop
  | .leaf _ => True
  | .dict es _ _ => KeysNamedEs free es
/-- `KeysNamed` for every member, and the condition for its key. -/
def KeysNamedEs (free : Bool) : KEntries → Prop
  | .nil => True
  | .cons k p r => KeysNamed free p ∧ (0 < p.flatLen free → IsStr k) ∧ KeysNamedEs free r
end

end Spec
end Paragami
