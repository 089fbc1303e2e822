import Verif.Gen.Compile
/-
The generated program as a whole: the modules, the names that the items introduce in them, and the paths by which they
refer to each other (butte-build/src/codegen.rs).
-/
namespace Butte.Gen
open Ir (QIdent)

/-- Rust keeps the names of types and modules apart from those of functions. -/
inductive Space where
  | type | value
deriving DecidableEq, Repr

/-- A name introduced by the generated code, and the module it is introduced in. -/
structure Item where
  module : List Str
  space : Space
  name : Str
deriving DecidableEq, Repr

/-- `format_ident!` panics on an empty word and on a leading digit. -/
def formatIdent (s : Str) : Option Str :=
  match s with
  | [] => none
  | c :: _ => if c.isDigit then none else some s

mutual
/-- codegen.rs 1114-1153 `node_to_tokens`, inside module `path`: the names introduced (tables 370, 393, 510; enums 893,
937; unions 1041; modules 1134). Nothing is generated for an rpc without an `RpcGenerator`. `none` when
the generator panics: on structs (1151), and on modules without a usable name. -/
def emits (path : List Str) : Ir.Node → Option (List Item)
  | .table t =>
    let n := QIdent.simple t.ident
    some [⟨path, .type, n⟩, ⟨path, .type, n ++ c!"Args"⟩, ⟨path, .type, n ++ c!"Builder"⟩]
  | .struct _ => none
  | .enum e =>
    let n := QIdent.simple e.ident
    some [⟨path, .type, n⟩, ⟨path, .value, c!"enum_name_" ++ Heck.snake n⟩]
  | .union u => some [⟨path, .type, QIdent.simple u.ident⟩]
  | .rpc _ => some []
  | .namespace i ns => do
    let m ← formatIdent (Heck.snake (QIdent.simple i))
    let items ← emitsAll (path ++ [m]) ns
    return ⟨path, .type, m⟩ :: items
/-- codegen.rs 1106-1112 `build_tokens`, and 1136-1138 for the contents of a module. -/
def emitsAll (path : List Str) : List Ir.Node → Option (List Item)
  | [] => some []
  | n :: ns => do
    let a ← emits path n
    let b ← emitsAll path ns
    return a ++ b
end

/-- codegen.rs 76-172 `to_type_token`: the user types named in the code for a type. -/
def tyPaths : Ir.Ty → List QIdent
  | .builtin _ | .string => []
  | .array t => tyPaths t
  | .table q | .struct q _ | .enum q _ _ | .union q _ _ => [q]

/-- The user types named in the code of an item, each written relative to the item's namespace (`relative`): types of
fields (394-435, 513-560, 585-595); for union fields also the union, its enum and the types of its members (625-690); in a
union the enum and the types of the members (1038-1072). -/
def paths : Ir.Node → List QIdent
  | .table t => t.fields.flatMap fun f =>
    tyPaths f.ty ++ match f.ty with
      | .union q e vs => q :: e :: vs.flatMap fun v => tyPaths v.ty
      | _ => []
  | .union u => u.enumIdent :: u.variants.flatMap fun v => tyPaths v.ty
  | _ => []

/-- Rust's lookup of a relative path among the items of a program, from inside module `cur`: `super` goes to the
parent, any other segment but the last must name something in the module at hand, and is entered; the last one names
the item. -/
def lookup (items : List Item) : List Str → List Str → Option Item
  | _, [] => none
  | cur, [s] => if s ≠ c!"super" ∧ (⟨cur, .type, s⟩ : Item) ∈ items then some ⟨cur, .type, s⟩ else none
  | cur, s :: t :: p =>
    if s = c!"super" then (if cur = [] then none else lookup items cur.dropLast (t :: p))
    else if (⟨cur, .type, s⟩ : Item) ∈ items then lookup items (cur ++ [s]) (t :: p) else none

end Butte.Gen
