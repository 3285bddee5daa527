import Lean
import Verif
open Lean
run_cmd
  let env ← getEnv
  let mods := env.header.moduleNames
  let proj := fun n => match env.getModuleIdxFor? n with
    | some i => (`Verif).isPrefixOf mods[i.toNat]!
    | none => false
  let mut out := #[]
  for (n, ci) in env.constants.map₁.toList do
    if proj n then
      match ci with
      | .thmInfo _ =>
        match n with
        | .str _ s =>
          if s.length > 3 && s.front == 'C' && (s.toList.getD 1 'x').isDigit && (s.toList.getD 2 'x').isDigit then
            out := out.push n
        | _ => pure ()
      | _ => pure ()
  for n in out do
    let ax ← Lean.collectAxioms (m := Lean.Elab.Command.CommandElabM) n
    IO.println s!"{n} {ax.qsort Name.lt}"
