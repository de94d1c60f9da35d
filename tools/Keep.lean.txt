import Lean
open Lean Elab

instance : MonadEnv (StateM Environment) := ⟨get, fun f => modify f⟩

unsafe def main (args : List String) : IO UInt32 := do
  let [file, modName, out] := args | throw <| IO.userError "args"
  initSearchPath (← findSysroot)
  enableInitializersExecution
  let input ← IO.FS.readFile file
  let inputCtx := Parser.mkInputContext input file
  let (header, parserState, messages) ← Parser.parseHeader inputCtx
  let mn := modName.toName
  let (env, messages) ← processHeader header {} messages inputCtx (mainModule := mn)
  let opts : Options := {}
  let st ← IO.processCommands inputCtx parserState (Command.mkState env messages opts)
  let mut nerr := 0
  for m in st.commandState.messages.toList do
    if m.severity == .error then
      nerr := nerr + 1
      IO.println s!"ERR {m.pos.line} {((← m.data.toString).splitOn "\n").head!}"
  let env := st.commandState.env
  -- theorems of this module that depend on the placeholder axiom
  let names := env.constants.map₂.foldl (fun acc n ci => match ci with | .thmInfo _ => n :: acc | _ => acc) []
  for n in names do
    if n.isInternal then continue
    let (axs, _) := ((collectAxioms n : StateM Environment (Array Name)).run env)
    if axs.contains ``sorryAx then IO.println s!"BROKEN {n}"
  writeModule env out
  IO.println s!"DONE {nerr}"
  return 0
