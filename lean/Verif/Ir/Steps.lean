import Verif.Ir.Transform
import Verif.Parse.Steps
/-
The semantic analysis once more, now counting its steps: the functions of `Ir/Transform` with a count next to the result. A step is a
call, a lookup in the table of types, an insertion, or a node of a type that is copied (`find_custom_type` clones the definition it
finds, transform.rs 519-531; `new_struct`, `new_enum` and `new_union` clone what they define). Making and comparing names and copying a
comment count as one step; grouping the finished items by namespace (578-643) is not counted. `C100_result` says that the results are
those of `Ir/Transform`.
-/
namespace Butte.Ir.Timed

open Parse.Timed (Ct tick)

/-! ### How large a resolved type is -/

mutual
/-- Number of nodes of a type: itself, its members and, as the members are there by value, the nodes of their types
(ir/types.rs 136-161, 258-277). -/
def size : Ty → Nat
  | .builtin _ => 1
  | .string => 1
  | .array t => size t + 1
  | .table _ => 1
  | .struct _ fs => sizeFields fs + 1
  | .enum _ vs _ => vs.length + 1
  | .union _ _ vs => sizeVariants vs + 1
/-- The same for a field (ir/types.rs 115-134). -/
def sizeField : FieldOf Ty → Nat
  | ⟨_, t, _, _, _⟩ => size t + 1
/-- The same for fields. -/
def sizeFields : List (FieldOf Ty) → Nat
  | [] => 0
  | f :: fs => sizeField f + sizeFields fs
/-- The same for a variant of a union (ir/types.rs 422-431). -/
def sizeVariant : UVariantOf Ty → Nat
  | ⟨_, t, _⟩ => size t + 1
/-- The same for variants. -/
def sizeVariants : List (UVariantOf Ty) → Nat
  | [] => 0
  | v :: vs => sizeVariant v + sizeVariants vs
end

/-- Number of nodes of an item (ir/types.rs 91-113, 279-287, 334-353); the items of a namespace are counted on their own. -/
def nodeSize : Node → Nat
  | .namespace _ _ => 1
  | .table t => sizeFields t.fields + 1
  | .struct s => sizeFields s.fields + 1
  | .enum e => e.variants.length + 1
  | .union u => sizeVariants u.variants + 1
  | .rpc r => r.methods.length + 1

/-! ### The analysis -/

/-- The `?` operator. -/
def andThen {α β : Type} (x : Ct (BRes α)) (f : α → Ct (BRes β)) : Ct (BRes β) := do
  match ← x with
  | .ok a => f a
  | .err e => return .err e
  | .panic => return .panic

/-- transform.rs 519-531 `find_custom_type`. -/
def find (c : Ctx) (q : QIdent) : Ct (Option Ty) := do
  tick 1
  match c.types q with
  | some .tableDeclared =>
    tick 1
    return some (CustomType.table.ref q)
  | some (.defined ty) =>
    tick (size (ty.ref q))
    return some (ty.ref q)
  | none => return none

/-- transform.rs 480-517 `try_type`. -/
def tryType (c : Ctx) : Ast.Ty → Ct (Option Ty)
  | .builtin b => do
    tick 1
    return some (.builtin b)
  | .string => do
    tick 1
    return some .string
  | .array t => do
    tick 1
    return (← tryType c t).map .array
  | .ident q => find c (qualifyRef c.ns q)

/-- transform.rs 113-134: the field for the type of a union. -/
def companion (c : Ctx) (f : Ast.Field) (ty : Ty) : Ct (BRes (List Field)) := do
  match ty.companion with
  | some e => match ← find c e with
    | some ety => return .ok [⟨mkIdent (Heck.snake f.id ++ c!"_type"), ety, none, fieldRequired f, f.doc⟩]
    | none => return .panic
  | none => return .ok []

/-- transform.rs 105-150, the field loop of `new_table`. -/
def tableFields (c : Ctx) : List Ast.Field → Ct (BRes (Option (List Field)))
  | [] => return .ok (some [])
  | f :: fs => do
    tick 1
    match ← tryType c f.ty with
    | none => return .ok none
    | some ty => andThen (companion c f ty) fun pre => andThen (tableFields c fs) fun rest =>
        return .ok (rest.map fun r =>
          pre ++ ⟨mkIdent f.id, ty, f.default.or (Ast.implicitDefault f.ty), fieldRequired f, f.doc⟩ :: r)

/-- transform.rs 89-171 `new_table`. -/
def newTable (c : Ctx) (t : Ast.Product) (pos : Nat) : Ct (BRes (Bool × Ctx)) := do
  tick 1
  let ident := qualify c.ns (mkIdent t.id)
  if c.isDefined ident then return .err (.alreadyDefined ident)
  else
    tick 1
    let c := c.setType ident .tableDeclared
    match ← tableFields c t.fields with
    | .ok (some fields) =>
      tick 1
      return .ok (true, (c.setType ident (.defined .table)).addNodes pos [.table ⟨ident, fields, false, t.doc⟩])
    | .ok none => return .ok (false, c)
    | .err e => return .err e
    | .panic => return .panic

/-- transform.rs 186-211, the field loop of `new_struct`. -/
def structFields (c : Ctx) (ident : QIdent) : List Ast.Field → Ct (BRes (Option (List Field)))
  | [] => return .ok (some [])
  | f :: fs => do
    tick 1
    match ← tryType c f.ty with
    | none => return .ok none
    | some ty =>
      if ty.isScalar then andThen (structFields c ident fs) fun rest =>
        return .ok (rest.map fun r => ⟨mkIdent f.id, ty, f.default, false, f.doc⟩ :: r)
      else return .err (.illegalMember ident)

/-- transform.rs 173-232 `new_struct`. -/
def newStruct (c : Ctx) (s : Ast.Product) (pos : Nat) : Ct (BRes (Bool × Ctx)) := do
  tick 1
  let ident := qualify c.ns (mkIdent s.id)
  if c.isDefined ident then return .err (.alreadyDefined ident)
  else
    match ← structFields c ident s.fields with
    | .ok (some fields) =>
      tick (sizeFields fields + 1)
      return .ok (true, (c.setType ident (.defined (.struct fields))).addNodes pos [.struct ⟨ident, fields, s.doc⟩])
    | .ok none => return .ok (false, c)
    | .err e => return .err e
    | .panic => return .panic

/-- transform.rs 234-273 `new_enum`. -/
def newEnum (c : Ctx) (e : Ast.Enum) (pos : Nat) : Ct (BRes (Bool × Ctx)) := do
  tick 1
  let ident := qualify c.ns (mkIdent e.id)
  if c.isDefined ident then return .err (.alreadyDefined ident)
  else
    match EnumBase.ofAst e.baseType with
    | none => return .err (.badBase ident)
    | some base =>
      tick (2 * e.variants.length + 1)
      let vs := enumVariants e.variants
      return .ok (true, (c.setType ident (.defined (.enum vs base))).addNodes pos [.enum ⟨ident, vs, base, e.doc⟩])

/-- transform.rs 285-299, the variant loop of `new_union`. -/
def unionVariants (c : Ctx) : List Ast.EnumVariant → Ct (Option (List UnionVariant))
  | [] => return some []
  | v :: vs => do
    tick 1
    match ← tryType c (.ident [v.id]) with
    | none => return none
    | some ty => return (← unionVariants c vs).map fun r => ⟨mkIdent v.id, ty, v.doc⟩ :: r

/-- transform.rs 327-368 `generate_enum_for_union`. -/
def generateEnum (c : Ctx) (u : Ast.Union) : Ct (BRes (Enum × Ctx)) := do
  tick 1
  let ident := unionEnumIdent c.ns u
  if c.isDefined ident then return .err (.alreadyDefined ident)
  else
    tick (2 * (u.variants.length + 1) + 1)
    let vs := unionEnumVariants u.variants
    return .ok (⟨ident, vs, .ubyte, u.doc⟩, c.setType ident (.defined (.enum vs .ubyte)))

/-- transform.rs 275-325 `new_union`. -/
def newUnion (c : Ctx) (u : Ast.Union) (pos : Nat) : Ct (BRes (Bool × Ctx)) := do
  tick 1
  let ident := qualify c.ns (mkIdent u.id)
  if c.isDefined ident then return .err (.alreadyDefined ident)
  else
    match ← unionVariants c u.variants with
    | none => return .ok (false, c)
    | some vs => andThen (generateEnum c u) fun (e, c) => do
      tick (sizeVariants vs + 1)
      return .ok (true, (c.setType ident (.defined (.union e.ident vs))).addNodes pos
        [.enum e, .union ⟨ident, e.ident, vs, u.doc⟩])

/-- transform.rs 376-387 `new_root_ident`. -/
def newRootIdent (c : Ctx) (q : QIdent) : Ct (BRes (Bool × Ctx)) := do
  tick 1
  return c.newRootIdent q

/-- transform.rs 394-432, the method loop of `new_rpc`. -/
def rpcMethods (c : Ctx) : List Ast.RpcMethod → Ct (BRes (Option (List RpcMethod) × Ctx))
  | [] => return .ok (some [], c)
  | m :: ms => do
    tick 1
    let req := qualifyRef c.ns m.requestType
    let resp := qualifyRef c.ns m.responseType
    andThen (newRootIdent c req) fun (ok, c) =>
      if ok = false then return .ok (none, c) else
      andThen (newRootIdent c resp) fun (ok, c) =>
        if ok = false then return .ok (none, c) else
        andThen (return streamingOf m.metadata) fun s =>
          andThen (rpcMethods c ms) fun (rest, c) =>
            return .ok (rest.map fun r => ⟨mkIdent m.id, mkIdent (Heck.snake m.id), req, resp, s, m.doc⟩ :: r, c)

/-- transform.rs 389-441 `new_rpc`. -/
def newRpc (c : Ctx) (r : Ast.Rpc) (pos : Nat) : Ct (BRes (Bool × Ctx)) := do
  tick 1
  let ident := qualify c.ns (mkIdent r.id)
  andThen (rpcMethods c r.methods) fun (ms, c) =>
    match ms with
    | none => return .ok (false, c)
    | some ms => return .ok (true, c.addNodes pos [.rpc ⟨ident, ms, r.doc⟩])

/-- transform.rs 65-87, 370-374 `new_element`, `new_namespace`, `new_root`. -/
def newElement (c : Ctx) (pos : Nat) : Ast.Element → Ct (BRes (Bool × Ctx))
  | .namespace n _ => return .ok (true, { c with ns := some n })
  | .table t => newTable c t pos
  | .struct s => newStruct c s pos
  | .enum e => newEnum c e pos
  | .union u => newUnion c u pos
  | .rpc r => newRpc c r pos
  | .root t _ => newRootIdent c (qualify c.ns (mkIdent t))
  | .fileExtension .. | .fileIdentifier .. | .attribute _ | .object .. => return .panic

/-- transform.rs 549-556: one pass over the pending elements. -/
def pass (c : Ctx) : List Indexed → Ct (BRes (List Indexed × Ctx))
  | [] => return .ok ([], c)
  | (p, el) :: rest => do
    tick 1
    andThen (newElement c p el) fun (ok, c) => andThen (pass c rest) fun (uns, c) =>
      return .ok (if ok then uns else (p, el) :: uns, c)

/-- transform.rs 547-573: the retry loop, cut off after `fuel` passes. -/
def retry : Nat → Ctx → List Indexed → Ct (Option (BRes Ctx))
  | 0, _, _ => return none
  | fuel + 1, c, input => do
    tick 1
    match ← pass c input with
    | .ok (uns, c') =>
      if uns.isEmpty then return some (.ok c')
      else if c'.nodes.length = c.nodes.length then return some (.err (.unresolved (uns.map (·.2))))
      else retry fuel c' uns
    | .err e => return some (.err e)
    | .panic => return some .panic

/-- transform.rs 533-644 `Builder::build`. -/
def build (s : Ast.Schema) : Ct (Option (BRes (List Node))) := do
  return (← retry (s.elements.length + 1) .init (indexed s.elements)).map fun
    | .ok c => .ok (arrange c.items)
    | .err e => .err e
    | .panic => .panic

end Butte.Ir.Timed
