import Verif.Tests.Examples
/-
The unit tests of ir/types.rs and codegen.rs, run on the model.
-/
namespace Butte

section Relative
open Ir

/-- The identifier that is tested. -/
def fooBarBaz : QIdent := [c!"foo", c!"bar", c!"Baz"]

-- ir/types.rs 597-605
example : fooBarBaz.relative fooBarBaz.namespace = [c!"Baz"] := by decide
-- ir/types.rs 607-615
example : fooBarBaz.relative none = fooBarBaz := by decide
-- ir/types.rs 617-625
example : fooBarBaz.relative (some [c!"foo"]) = [c!"bar", c!"Baz"] := by decide
-- ir/types.rs 627-635
example : fooBarBaz.relative (some [c!"foo", c!"bar", c!"bim"]) = [c!"super", c!"Baz"] := by decide
-- ir/types.rs 637-645
example : QIdent.relative [c!"foo", c!"bar", c!"bam", c!"Baz"] (some [c!"foo", c!"bar", c!"bim"]) =
    [c!"super", c!"bam", c!"Baz"] := by decide

end Relative

section Literals
open Gen

/-- The bits of the default that is emitted for a type, if the literal has that type. -/
def defaultBits (b : Ast.Builtin) (s : Ast.Scalar) : Option Nat :=
  match kindOf (.builtin b) (some (.scalar s)) with
  | some (.scalar _ (some v)) => some v.val
  | _ => none

-- codegen.rs 319-330: smallest and greatest values of the integer types
example : ∀ x ∈ [(Ast.Builtin.byte, 8), (.short, 16), (.int, 32), (.long, 64), (.int8, 8), (.int16, 16), (.int32, 32),
      (.int64, 64)],
    defaultBits x.1 (.integer (-(2 ^ (x.2 - 1)))) = some (2 ^ (x.2 - 1)) ∧
    defaultBits x.1 (.integer (2 ^ (x.2 - 1) - 1)) = some (2 ^ (x.2 - 1) - 1) := by decide +kernel

example : ∀ x ∈ [(Ast.Builtin.ubyte, 8), (.ushort, 16), (.uint, 32), (.ulong, 64), (.uint8, 8), (.uint16, 16),
      (.uint32, 32), (.uint64, 64)],
    defaultBits x.1 (.integer 0) = some 0 ∧
    defaultBits x.1 (.integer (2 ^ x.2 - 1)) = some (2 ^ x.2 - 1) := by decide +kernel

-- codegen.rs 332-335: `MIN` and `MAX` of `f32`, which become `f64` first, and of `f64`
example : ∀ b ∈ [Ast.Builtin.float, .float32],
    defaultBits b (.float 0xC7EFFFFFE0000000) = some 0xFF7FFFFF ∧
    defaultBits b (.float 0x47EFFFFFE0000000) = some 0x7F7FFFFF := by decide +kernel

example : ∀ b ∈ [Ast.Builtin.double, .float64],
    defaultBits b (.float 0xFFEFFFFFFFFFFFFF) = some 0xFFEFFFFFFFFFFFFF ∧
    defaultBits b (.float 0x7FEFFFFFFFFFFFFF) = some 0x7FEFFFFFFFFFFFFF := by decide +kernel

-- codegen.rs 338-352
example : defaultBits .bool (.boolean true) = some 1 ∧ defaultBits .bool (.boolean false) = some 0 := by decide +kernel

end Literals

section Required
open Gen Parse

attribute [local instance] asciiEnv

set_option maxRecDepth 100000

-- codegen.rs 1170-1188: two of the three fields are checked
example : (compiled c!"table Hello {\n  world: string (required);\n  earth: int = 616 (required);\n  universe: string;\n}"
    [c!"Hello"]).map (·.map (·.required)) = some [true, true, false] := by kernel_rfl

end Required

end Butte
