import Verif
/-!
Run with `lake env lean ../tools/Deps.lean.txt` in /verif/lean.  For every property theorem, prints the constants of this project its statement and
proof depend on, transitively: `theorem<TAB>constant`.  For every definition, the same from its body alone.
-/
open Lean

def ofProject (env : Environment) (n : Name) : Bool :=
  match env.getModuleIdxFor? n with
  | some i => (`Verif).isPrefixOf env.header.moduleNames[i.toNat]!
  | none => false

partial def close (env : Environment) (todo : List Name) (seen : NameSet) : NameSet :=
  match todo with
  | [] => seen
  | n :: r =>
    if seen.contains n then close env r seen
    else match env.find? n with
      | none => close env r seen
      | some c =>
        let used := c.getUsedConstantsAsSet.toList.filter (ofProject env)
        close env (used ++ r) (seen.insert n)

def isProp (n : Name) : Bool :=
  let s := n.getString!
  n.isStr && s.length > 4 && s.front == 'C' && (s.toList.getD 1 'x').isDigit && (s.toList.getD 2 'x').isDigit && ((s.toList.drop 3).dropWhile Char.isDigit).head? == some '_'

run_cmd do
  let env ← getEnv
  let mut out := ""
  for (n, c) in env.constants.map₁.toList do
    if ofProject env n && n.isStr && isProp n && c.isThm then
      for d in (close env [n] {}).toList do
        out := out ++ s!"{n.getString!}\t{d}\t{env.header.moduleNames[(env.getModuleIdxFor? d).get!.toNat]!}\n"
  IO.FS.writeFile "/tmp/deps/deps.tsv" out
