import Verif
open Lean
/-- Prints, for every property theorem, the constants of the development its proof uses (transitively). -/
partial def visit (env : Environment) (n : Name) (seen : NameSet) : NameSet := Id.run do
  if seen.contains n then return seen
  let mut seen := seen.insert n
  match env.find? n with
  | none => return seen
  | some c =>
    let mut used := c.type.getUsedConstants
    if let some v := c.value? (allowOpaque := true) then used := used ++ v.getUsedConstants
    for u in used do
      if (`Verif).isPrefixOf u then seen := visit env u seen
    return seen
run_cmd do
  let env ← getEnv
  for (n, c) in env.constants.map₁.toList do
    let s := n.toString
    if s.startsWith "Verif.C" && (c matches .thmInfo _) && !n.isInternal then
      let d := (visit env n {}).toList.map toString
      IO.println s!"{n} {String.intercalate " " d}"
