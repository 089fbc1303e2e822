import Verif.Parse.DepthBound
import Verif.Parse.Ascii
import Verif.Tests.Kernel
/-
The constant of the bound on the stack, and the results of the parser with a stack.
-/
namespace Butte.Parse.Stack

open Ast

variable [Env]

/-- The frames that do not depend on the text. -/
theorem schemaDecl_constant : Low.C 12 schemaDecl = 76 := by kernel_rfl

theorem typeGo_run : ∀ n, (typeGo n).run = Parse.typeGo n
  | 0 => rfl
  | n + 1 => by
    have : (typeGo (n + 1)).run = Parse.alt (Parse.builtinAlt builtins)
      (Parse.alt (Parse.value .string (Parse.tag c!"string"))
        (Parse.alt (Parse.map (Parse.delimited (Parse.char '[') (typeGo n).run (Parse.char ']')) .array)
          (Parse.map Parse.qualifiedIdent .ident))) := rfl
    rw [this, typeGo_run n]
    rfl

theorem valueGo_run : ∀ n, (valueGo n).run = Parse.valueGo n
  | 0 => rfl
  | n + 1 => by
    have : (valueGo (n + 1)).run = Parse.alt (Parse.map Parse.single .single)
      (Parse.alt (Parse.map (Parse.objectOf (valueGo n).run) (fun x => .object x.2 x.1))
        (Parse.map (Parse.valueListOf (valueGo n).run) .list)) := rfl
    rw [this, valueGo_run n]
    rfl

theorem type_run : type_.run = Parse.type_ := funext fun i => congrFun (typeGo_run (i.length + 1)) i
theorem value_run : value_.run = Parse.value_ := funext fun i => congrFun (valueGo_run (i.length + 1)) i

end Butte.Parse.Stack
