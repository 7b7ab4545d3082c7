import Lean
open Lean Elab

/-- compile one module, writing the olean whatever errors there are; print the errors -/
unsafe def main (args : List String) : IO UInt32 := do
  initSearchPath (← findSysroot) (args.drop 3 |>.map System.FilePath.mk)
  enableInitializersExecution
  let file := args[0]!
  let modName := args[1]!.toName
  let out := args[2]!
  let input ← IO.FS.readFile file
  let inputCtx := Parser.mkInputContext input file
  let (header, pstate, messages) ← Parser.parseHeader inputCtx
  let opts : Options := maxRecDepth.set {} 512
  let (env, messages) ← processHeader header opts messages inputCtx (mainModule := modName)
  let cmdState := Command.mkState env messages opts
  let s ← IO.processCommands inputCtx pstate cmdState
  let mut n := 0
  for m in s.commandState.messages.toList do
    if m.severity == .error then
      n := n + 1
      IO.println s!"ERR {m.pos.line}"
      if n < 4 then IO.eprintln (((← m.toString).take 300).toString)
  writeModule s.commandState.env out
  return 0
