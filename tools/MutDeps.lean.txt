import Lean
open Lean

partial def go (env : Environment) (n : Name) : StateM (Std.HashSet Name) Unit := do
  if (← get).contains n then return
  let some i := env.getModuleIdxFor? n | return
  let m := env.header.moduleNames[i.toNat]!
  if m.getRoot != `Verif then return
  modify (·.insert n)
  let some ci := env.find? n | return
  for c in ci.type.getUsedConstants do go env c
  if let some v := ci.value? (allowOpaque := true) then
    for c in v.getUsedConstants do go env c
  if let .inductInfo v := ci then
    for c in v.ctors do go env c

unsafe def main (args : List String) : IO UInt32 := do
  initSearchPath (← findSysroot) (args.map System.FilePath.mk)
  enableInitializersExecution
  let env ← importModules #[{module := `Verif}] {} 0
  let mut idx : Std.HashMap Name Nat := {}
  for (n, ci) in env.constants.toList do
    match n with
    | .str _ s =>
      if s.length > 4 && s.front == 'C' && (s.toList.getD 1 ' ').isDigit && (s.toList.getD 3 ' ') == '_' then
        if let .thmInfo _ := ci then
          let (_, set) := (go env n).run {}
          let mut out := s!"T {s}"
          for c in set.toList do
            match idx[c]? with
            | some k => out := out ++ s!" {k}"
            | none =>
              let k := idx.size
              idx := idx.insert c k
              let i := env.getModuleIdxFor? c |>.get!
              IO.println s!"N {k} {env.header.moduleNames[i.toNat]!} {c}"
              out := out ++ s!" {k}"
          IO.println out
    | _ => pure ()
  return 0
