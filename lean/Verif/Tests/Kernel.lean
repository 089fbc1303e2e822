import Lean.Elab.Tactic.Basic
/-
A tactic for equations between closed terms: the proof is `Eq.refl`, and only the kernel evaluates both sides.
-/
namespace Butte

open Lean Elab Tactic in
/-- Close a goal `a = b` by `Eq.refl b`. Nothing is checked here; the kernel does that when the declaration is added. -/
elab "kernel_rfl" : tactic => do
  let g ← getMainGoal
  let t ← instantiateMVars (← g.getType)
  match t.consumeMData.eq? with
  | some (α, _, b) =>
    let u ← Meta.getLevel α
    g.assign (mkApp2 (.const ``Eq.refl [u]) α b)
  | none => throwError "not an equation"

end Butte
