import Lean.Elab.Command
import Lean.Util.CollectAxioms
/-
A command that checks which axioms theorems depend on.
-/

namespace Drip

open Lean Elab Command in
/-- `only_uses [a, b] t u …` fails unless the theorems `t`, `u`, … depend on no axioms other than `a`, `b`. -/
elab "only_uses" "[" as:ident,* "]" ts:ident* : command => do
  let want := (as.getElems.map (·.getId)).toList
  for t in ts do
    let name ← liftCoreM (realizeGlobalConstNoOverloadWithInfo t)
    unless ((← getEnv).find? name matches some (.thmInfo _)) do throwErrorAt t "{name} is not a theorem"
    let have_ := (← collectAxioms name).toList
    unless have_.all want.contains do throwErrorAt t "{name} depends on {have_}"

end Drip
