import Lean
/-!
`lake env lean --run Keep.lean.txt FILE MODULE OUT`: elaborate a file and write its .olean even if some proofs fail (Lean then closes them with
`sorryAx`).  Used by tools/exact.py to see which property theorems still hold of a wrong program without relying on a failed proof.
-/
open Lean Elab

unsafe def main (args : List String) : IO UInt32 := do
  let [file, mod, out] := args | return 1
  initSearchPath (← findSysroot)
  enableInitializersExecution
  let input ← IO.FS.readFile file
  let ctx := Parser.mkInputContext input file
  let (header, ps, msgs) ← Parser.parseHeader ctx
  let opts : Options := maxRecDepth.set (Elab.async.set {} false) defaultMaxRecDepth
  let (env, msgs) ← processHeader header opts msgs ctx
  let env := env.setMainModule mod.toName
  let s ← IO.processCommands ctx ps (Command.mkState env msgs opts)
  let mut bad := false
  for m in s.commandState.messages.toList do
    if m.severity == .error then
      bad := true
      IO.println s!"{mod}:{m.pos.line}: {((← m.data.toString).splitOn "\n").head!}"
  writeModule s.commandState.env out
  return if bad then 2 else 0
