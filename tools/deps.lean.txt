/- Prints, for every theorem Cnn_… of the project, the project declarations its proof and
   statement depend on (transitively).  Run with: cd lean && lake env lean ../tools/deps.lean.txt -/
import Lean
import Verif
open Lean
partial def go (env : Environment) (proj : Name → Bool) (todo : List Name) (seen : NameSet) : NameSet :=
  match todo with
  | [] => seen
  | n :: rest =>
    if seen.contains n then go env proj rest seen else
    if !proj n then go env proj rest seen else
    match env.find? n with
    | none => go env proj rest (seen.insert n)
    | some ci =>
      let us := ci.getUsedConstantsAsSet.toList
      go env proj (us ++ rest) (seen.insert n)
run_cmd
  let env ← getEnv
  let mods := env.header.moduleNames
  let proj := fun n => match env.getModuleIdxFor? n with
    | some i => (`Verif).isPrefixOf mods[i.toNat]!
    | none => false
  let mut out := #[]
  for (n, ci) in env.constants.map₁.toList do
    if proj n then
      match ci with
      | .thmInfo _ =>
        match n with
        | .str _ s =>
          if s.length > 3 && s.front == 'C' && (s.toList.getD 1 'x').isDigit && (s.toList.getD 2 'x').isDigit then
            out := out.push (n, (go env proj [n] {}).toList)
        | _ => pure ()
      | _ => pure ()
  for (n, l) in out do
    IO.println s!"{n} {" ".intercalate (l.map toString)}"
