import Verif.Ir.Transform
/-
The semantic analysis once more, now with the number of frames that its calls put on the stack: the functions of `Ir/Transform` with that
number next to the result. There is a frame for every call of a function of transform.rs and for every call of a derived `clone` that is
made for a value inside another one (ir/types.rs 91-161, 258-287, 334-353, 422-431), none for the rounds of a loop; what a call of the
standard library or a copy of a name, a comment or a default value puts on the stack is bounded and not counted. Values are moved where
the code moves them. `C113_result` says that the results are those of `Ir/Transform`.
-/
namespace Butte.Ir.Nested

/-- A result and how many frames were on the stack at most. -/
structure Dp (α : Type) where
  deep : Nat
  val : α

instance : Monad Dp where
  pure a := ⟨0, a⟩
  bind x f := ⟨max x.deep (f x.val).deep, (f x.val).val⟩

/-- A call. -/
def call {α : Type} (x : Dp α) : Dp α := ⟨x.deep + 1, x.val⟩

/-- Something that needs so many frames. -/
def uses (n : Nat) : Dp Unit := ⟨n, ()⟩

/-! ### Copies -/

mutual
/-- `Type::clone` (ir/types.rs 136, derived), with `Box::clone` for a vector and `CustomTypeRef::clone`, `CustomType::clone` (258, 264) for
the others. -/
def cloneTy : Ty → Nat
  | .builtin _ => 1
  | .string => 1
  | .array t => cloneTy t + 2
  | .table _ => 3
  | .struct _ fs => cloneFields fs + 3
  | .enum _ _ _ => 5
  | .union _ _ vs => cloneVariants vs + 3
/-- `Field::clone` (ir/types.rs 115). -/
def cloneField : FieldOf Ty → Nat
  | ⟨_, t, _, _, _⟩ => cloneTy t + 1
/-- `Vec::clone` of fields. -/
def cloneFields : List (FieldOf Ty) → Nat
  | [] => 1
  | f :: fs => max (cloneField f + 1) (cloneFields fs)
/-- `UnionVariant::clone` (ir/types.rs 422). -/
def cloneVariant : UVariantOf Ty → Nat
  | ⟨_, t, _⟩ => cloneTy t + 1
/-- `Vec::clone` of the variants of a union. -/
def cloneVariants : List (UVariantOf Ty) → Nat
  | [] => 1
  | v :: vs => max (cloneVariant v + 1) (cloneVariants vs)
end

/-- `CustomType::clone` (ir/types.rs 264); the variants of an enum are a vector of `EnumVariant`s (407). -/
def cloneCustom : CustomType → Nat
  | .table => 1
  | .struct fs => cloneFields fs + 1
  | .enum _ _ => 3
  | .union _ vs => cloneVariants vs + 1

/-! ### Namespaces -/

mutual
/-- transform.rs 49-62: `into_node`, or the closure for a namespace inside another one, and `into_namespace`. -/
def intoBuf : NsBuf → Nat
  | .mk _ _ subs _ => intoBufs subs + 2
/-- The same for the entries of a map. -/
def intoBufs : List NsBuf → Nat
  | [] => 0
  | b :: bs => max (intoBuf b) (intoBufs bs)
end

/-- transform.rs 594-637: the namespaces of `arrange` before they are made into nodes. -/
def bufs (items : List Node) : List NsBuf :=
  (nsIdents items).foldl (fun l q => place [] q (items.filter fun n => n.ns == some q) l) []

/-! ### The analysis -/

/-- The `?` operator. -/
def andThen {α β : Type} (x : Dp (BRes α)) (f : α → Dp (BRes β)) : Dp (BRes β) := do
  match ← x with
  | .ok a => f a
  | .err e => return .err e
  | .panic => return .panic

/-- transform.rs 519-531 `find_custom_type`. -/
def find (c : Ctx) (q : QIdent) : Dp (Option Ty) := call do
  match c.types q with
  | some .tableDeclared => return some (CustomType.table.ref q)
  | some (.defined ty) =>
    uses (cloneCustom ty)
    return some (ty.ref q)
  | none => return none

/-- transform.rs 480-517 `try_type`. -/
def tryType (c : Ctx) : Ast.Ty → Dp (Option Ty)
  | .builtin b => call do
    return some (.builtin b)
  | .string => call do
    return some .string
  | .array t => call do
    return (← tryType c t).map .array
  | .ident q => call (find c (qualifyRef c.ns q))

/-- transform.rs 113-134: the field for the type of a union. -/
def companion (c : Ctx) (f : Ast.Field) (ty : Ty) : Dp (BRes (List Field)) := do
  match ty.companion with
  | some e => match ← find c e with
    | some ety => return .ok [⟨mkIdent (Heck.snake f.id ++ c!"_type"), ety, none, fieldRequired f, f.doc⟩]
    | none => return .panic
  | none => return .ok []

/-- transform.rs 105-150, the field loop of `new_table`. -/
def tableFields (c : Ctx) : List Ast.Field → Dp (BRes (Option (List Field)))
  | [] => return .ok (some [])
  | f :: fs => do
    match ← tryType c f.ty with
    | none => return .ok none
    | some ty => andThen (companion c f ty) fun pre => andThen (tableFields c fs) fun rest =>
        return .ok (rest.map fun r =>
          pre ++ ⟨mkIdent f.id, ty, f.default.or (Ast.implicitDefault f.ty), fieldRequired f, f.doc⟩ :: r)

/-- transform.rs 89-171 `new_table`. -/
def newTable (c : Ctx) (t : Ast.Product) (pos : Nat) : Dp (BRes (Bool × Ctx)) := call do
  let ident := qualify c.ns (mkIdent t.id)
  if c.isDefined ident then return .err (.alreadyDefined ident)
  else
    let c := c.setType ident .tableDeclared
    match ← tableFields c t.fields with
    | .ok (some fields) =>
      return .ok (true, (c.setType ident (.defined .table)).addNodes pos [.table ⟨ident, fields, false, t.doc⟩])
    | .ok none => return .ok (false, c)
    | .err e => return .err e
    | .panic => return .panic

/-- transform.rs 186-211, the field loop of `new_struct`. -/
def structFields (c : Ctx) (ident : QIdent) : List Ast.Field → Dp (BRes (Option (List Field)))
  | [] => return .ok (some [])
  | f :: fs => do
    match ← tryType c f.ty with
    | none => return .ok none
    | some ty =>
      if ty.isScalar then andThen (structFields c ident fs) fun rest =>
        return .ok (rest.map fun r => ⟨mkIdent f.id, ty, f.default, false, f.doc⟩ :: r)
      else return .err (.illegalMember ident)

/-- transform.rs 173-232 `new_struct`. -/
def newStruct (c : Ctx) (s : Ast.Product) (pos : Nat) : Dp (BRes (Bool × Ctx)) := call do
  let ident := qualify c.ns (mkIdent s.id)
  if c.isDefined ident then return .err (.alreadyDefined ident)
  else
    match ← structFields c ident s.fields with
    | .ok (some fields) =>
      uses (cloneFields fields)
      return .ok (true, (c.setType ident (.defined (.struct fields))).addNodes pos [.struct ⟨ident, fields, s.doc⟩])
    | .ok none => return .ok (false, c)
    | .err e => return .err e
    | .panic => return .panic

/-- transform.rs 234-273 `new_enum`. -/
def newEnum (c : Ctx) (e : Ast.Enum) (pos : Nat) : Dp (BRes (Bool × Ctx)) := call do
  let ident := qualify c.ns (mkIdent e.id)
  if c.isDefined ident then return .err (.alreadyDefined ident)
  else
    match EnumBase.ofAst e.baseType with
    | none => return .err (.badBase ident)
    | some base =>
      uses 2
      let vs := enumVariants e.variants
      return .ok (true, (c.setType ident (.defined (.enum vs base))).addNodes pos [.enum ⟨ident, vs, base, e.doc⟩])

/-- transform.rs 285-299, the variant loop of `new_union`. -/
def unionVariants (c : Ctx) : List Ast.EnumVariant → Dp (Option (List UnionVariant))
  | [] => return some []
  | v :: vs => do
    match ← tryType c (.ident [v.id]) with
    | none => return none
    | some ty => return (← unionVariants c vs).map fun r => ⟨mkIdent v.id, ty, v.doc⟩ :: r

/-- transform.rs 327-368 `generate_enum_for_union`. -/
def generateEnum (c : Ctx) (u : Ast.Union) : Dp (BRes (Enum × Ctx)) := call do
  let ident := unionEnumIdent c.ns u
  if c.isDefined ident then return .err (.alreadyDefined ident)
  else
    uses 2
    let vs := unionEnumVariants u.variants
    return .ok (⟨ident, vs, .ubyte, u.doc⟩, c.setType ident (.defined (.enum vs .ubyte)))

/-- transform.rs 275-325 `new_union`. -/
def newUnion (c : Ctx) (u : Ast.Union) (pos : Nat) : Dp (BRes (Bool × Ctx)) := call do
  let ident := qualify c.ns (mkIdent u.id)
  if c.isDefined ident then return .err (.alreadyDefined ident)
  else
    match ← unionVariants c u.variants with
    | none => return .ok (false, c)
    | some vs => andThen (generateEnum c u) fun (e, c) => do
      uses (cloneVariants vs)
      return .ok (true, (c.setType ident (.defined (.union e.ident vs))).addNodes pos
        [.enum e, .union ⟨ident, e.ident, vs, u.doc⟩])

/-- transform.rs 376-387 `new_root_ident`. -/
def newRootIdent (c : Ctx) (q : QIdent) : Dp (BRes (Bool × Ctx)) := call do
  return c.newRootIdent q

/-- transform.rs 394-432, the method loop of `new_rpc`. -/
def rpcMethods (c : Ctx) : List Ast.RpcMethod → Dp (BRes (Option (List RpcMethod) × Ctx))
  | [] => return .ok (some [], c)
  | m :: ms => do
    let req := qualifyRef c.ns m.requestType
    let resp := qualifyRef c.ns m.responseType
    andThen (newRootIdent c req) fun (ok, c) =>
      if ok = false then return .ok (none, c) else
      andThen (newRootIdent c resp) fun (ok, c) =>
        if ok = false then return .ok (none, c) else
        andThen (return streamingOf m.metadata) fun s =>
          andThen (rpcMethods c ms) fun (rest, c) =>
            return .ok (rest.map fun r => ⟨mkIdent m.id, mkIdent (Heck.snake m.id), req, resp, s, m.doc⟩ :: r, c)

/-- transform.rs 389-441 `new_rpc`. -/
def newRpc (c : Ctx) (r : Ast.Rpc) (pos : Nat) : Dp (BRes (Bool × Ctx)) := call do
  let ident := qualify c.ns (mkIdent r.id)
  andThen (rpcMethods c r.methods) fun (ms, c) =>
    match ms with
    | none => return .ok (false, c)
    | some ms => return .ok (true, c.addNodes pos [.rpc ⟨ident, ms, r.doc⟩])

/-- transform.rs 65-87, 370-374 `new_element`, `new_namespace`, `new_root`. -/
def newElement (c : Ctx) (pos : Nat) : Ast.Element → Dp (BRes (Bool × Ctx))
  | .namespace n _ => call (call do return .ok (true, { c with ns := some n }))
  | .table t => call (newTable c t pos)
  | .struct s => call (newStruct c s pos)
  | .enum e => call (newEnum c e pos)
  | .union u => call (newUnion c u pos)
  | .rpc r => call (newRpc c r pos)
  | .root t _ => call (call (newRootIdent c (qualify c.ns (mkIdent t))))
  | .fileExtension .. | .fileIdentifier .. | .attribute _ | .object .. => call do return .panic

/-- transform.rs 549-556: one pass over the pending elements. -/
def pass (c : Ctx) : List Indexed → Dp (BRes (List Indexed × Ctx))
  | [] => return .ok ([], c)
  | (p, el) :: rest => do
    andThen (newElement c p el) fun (ok, c) => andThen (pass c rest) fun (uns, c) =>
      return .ok (if ok then uns else (p, el) :: uns, c)

/-- transform.rs 547-573: the retry loop, cut off after `fuel` passes. -/
def retry : Nat → Ctx → List Indexed → Dp (Option (BRes Ctx))
  | 0, _, _ => return none
  | fuel + 1, c, input => do
    match ← pass c input with
    | .ok (uns, c') =>
      if uns.isEmpty then return some (.ok c')
      else if c'.nodes.length = c.nodes.length then return some (.err (.unresolved (uns.map (·.2))))
      else retry fuel c' uns
    | .err e => return some (.err e)
    | .panic => return some .panic

/-- transform.rs 533-644 `Builder::build`: the loop, then `into_node` of every namespace. -/
def build (s : Ast.Schema) : Dp (Option (BRes (List Node))) := call do
  match ← retry (s.elements.length + 1) .init (indexed s.elements) with
  | none => return none
  | some (.ok c) =>
    uses (intoBufs (bufs c.items))
    return some (.ok (arrange c.items))
  | some (.err e) => return some (.err e)
  | some .panic => return some .panic

end Butte.Ir.Nested
