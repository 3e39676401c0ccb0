import Lean.Elab.Tactic.Basic
import Lean.Meta.AppBuilder
/-!
# Texts as lists of characters

`String.toList` of a long literal is slow to compute in the kernel; `c!"…"` is the list itself.
-/
namespace Verif

/-- `c!"abc"` is the list of the characters. -/
macro:max "c!" s:str : term => do
  let cs := s.getString.toList.map fun c => Lean.Syntax.mkCharLit c
  `([$(cs.toArray),*])

open Lean Elab Tactic Meta in
/-- close `a = b` by `rfl`, leaving all of the computation to the kernel -/
elab "krfl" : tactic => do
  let g ← getMainGoal
  let t ← instantiateMVars (← g.getType)
  let some (_, a, _) := t.eq? | throwError "not an equation"
  g.assign (← mkEqRefl a)

end Verif
