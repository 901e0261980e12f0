import Verif
/-! Prints every property theorem and whether it depends on `sorryAx`: `theorem<TAB>lost|holds`. -/
open Lean

partial def usesSorry (env : Environment) (todo : List Name) (seen : NameSet) : Bool :=
  match todo with
  | [] => false
  | n :: r =>
    if n == ``sorryAx then true
    else if seen.contains n then usesSorry env r seen
    else match env.find? n with
      | none => usesSorry env r seen
      | some c =>
        let used := c.getUsedConstantsAsSet.toList.filter fun d => d == ``sorryAx ||
          match env.getModuleIdxFor? d with
          | some i => (`Verif).isPrefixOf env.header.moduleNames[i.toNat]!
          | none => false
        usesSorry env (used ++ r) (seen.insert n)

run_cmd do
  let env ← getEnv
  for (n, c) in env.constants.map₁.toList do
    if c.isThm && n.isStr then
      let l := n.getString!.toList
      if l.length > 4 && l.getD 0 'x' == 'C' && (l.getD 1 'x').isDigit && (l.getD 2 'x').isDigit && l.getD 3 'x' == '_' then
        if (`Paragami).isPrefixOf n then
          IO.println s!"{n.getString!}\t{if usesSorry env [n] {} then "lost" else "holds"}"
