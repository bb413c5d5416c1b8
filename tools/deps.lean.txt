import Verif
open Lean
def closure (env : Environment) (root : Name) : NameSet := Id.run do
  let mut seen : NameSet := {}
  let mut todo := #[root]
  while !todo.isEmpty do
    let n := todo.back!
    todo := todo.pop
    if seen.contains n then continue
    seen := seen.insert n
    match env.find? n with
    | none => continue
    | some ci =>
      for c in ci.getUsedConstantsAsSet do
        if (`Gopoet).isPrefixOf c || c.isInternal then
          if !seen.contains c then todo := todo.push c
  return seen
#eval show CoreM Unit from do
  let env ← getEnv
  let mut out : Array String := #[]
  for (n, ci) in env.constants.map₁.toList do
    if ci matches .thmInfo _ then
      let s := n.toString
      if s.startsWith "Gopoet.C" && (s.toList.drop 8).head?.any Char.isDigit && !n.isInternal then
        let cl := (closure env n).toList.map (·.toString)
        out := out.push (s ++ ": " ++ " ".intercalate cl)
  IO.FS.writeFile "/tmp/mut/deps.txt" ("\n".intercalate out.toList)
