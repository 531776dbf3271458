#!/bin/bash
# The axioms every property theorem depends on, from the compiled project.
cd /verif/lean && cat > /tmp/ax/Ax.lean <<'L'
import Verif
open Lean Elab Command
run_cmd do
  let env ← getEnv
  let mut names : Array Name := #[]
  for (n, _) in env.constants.map₁.toList do
    match n with
    | .str (.str (.str .anonymous "Props") _) s => if s.startsWith "C" && (s.drop 1).front.isDigit && !s.contains "._" && !(s.splitOn "_").any (fun x => x == "match") then names := names.push n
    | _ => pure ()
  let mut text := ""
  for n in names.qsort Name.lt do
    if let some (.thmInfo _) := env.find? n then
      let ax ← liftCoreM (collectAxioms n)
      let short := match n with | .str _ s => s | _ => ""
      text := text ++ short ++ " : " ++ ", ".intercalate (ax.qsort Name.lt |>.toList.map toString) ++ "\n"
  IO.FS.writeFile "/verif/tools/axioms.txt" text
L
lake env lean /tmp/ax/Ax.lean
