import Lean
open Lean

partial def bad (env : Environment) (n : Name) : StateM (Std.HashMap Name Bool) Bool := do
  if n == ``sorryAx then return true
  if let some b := (← get)[n]? then return b
  let some i := env.getModuleIdxFor? n | return false
  let m := env.header.moduleNames[i.toNat]!
  if m.getRoot != `Verif then return false
  modify (·.insert n false)
  let some ci := env.find? n | return false
  let mut r := false
  for c in ci.type.getUsedConstants do
    if ← bad env c then r := true
  if let some v := ci.value? (allowOpaque := true) then
    for c in v.getUsedConstants do
      if ← bad env c then r := true
  if let .inductInfo v := ci then
    for c in v.ctors do
      if ← bad env c then r := true
  if r then modify (·.insert n true)
  return r

unsafe def main (args : List String) : IO UInt32 := do
  initSearchPath (← findSysroot) (args.map System.FilePath.mk)
  enableInitializersExecution
  let env ← importModules #[{module := `Verif}] {} 0
  let mut memo : Std.HashMap Name Bool := {}
  for (n, ci) in env.constants.toList do
    match n with
    | .str _ s =>
      if s.length > 4 && s.front == 'C' && (s.toList.getD 1 ' ').isDigit && (s.toList.getD 3 ' ') == '_' then
        if let .thmInfo _ := ci then
          let (b, memo') := (bad env n).run memo
          memo := memo'
          IO.println s!"{n} {b}"
    | _ => pure ()
  return 0
