import Verif
open Lean
run_cmd do
  let env ← getEnv
  let mut tab : Array (String × List String) := #[]
  for (n, ci) in env.constants.map₁.toList do
    if n.getRoot != `Verif then continue
    match ci with
    | .thmInfo _ =>
      let s := n.getString!
      if s.length > 4 && s.front == 'C' && (s.toList.getD 1 'x').isDigit && (s.toList.getD 2 'x').isDigit then
        let ax ← Lean.Elab.Command.liftCoreM (collectAxioms n)
        tab := tab.push (n.toString, (ax.toList.map toString).mergeSort)
    | _ => pure ()
  for (n, a) in tab do IO.println s!"{n}\t{", ".intercalate a}"
