import Verif.Ir.Types
import Verif.Ir.Heck
/-
The semantic analysis: butte-build/src/ir/transform.rs. `HashMap`s and `HashSet`s that are only looked up are
functions or lists; `BTreeMap`s are lists kept in key order.
-/
namespace Butte.Ir

/-- The `anyhow!` errors of transform.rs. -/
inductive BuildErr where
  | alreadyDefined (q : QIdent)
  | illegalMember (q : QIdent)
  | badBase (q : QIdent)
  | notTable (q : QIdent)
  | unknownStreaming (s : Ast.Single)
  | missingStreaming
  | unresolved (els : List Ast.Element)

/-- Result of a step of the analysis. `panic` is `unimplemented!()` or a failed `expect`. -/
inductive BRes (α : Type) where
  | ok (a : α)
  | err (e : BuildErr)
  | panic

namespace BRes

/-- The `?` operator. -/
def bind {α β : Type} : BRes α → (α → BRes β) → BRes β
  | ok a, f => f a
  | err e, _ => err e
  | panic, _ => panic

instance : Monad BRes where
  pure := ok
  bind := bind

@[simp] theorem pure_eq {α : Type} (a : α) : (pure a : BRes α) = ok a := rfl
@[simp] theorem ok_bind {α β : Type} (a : α) (f : α → BRes β) : (ok a >>= f) = f a := rfl
@[simp] theorem err_bind {α β : Type} (e : BuildErr) (f : α → BRes β) : ((err e : BRes α) >>= f) = err e := rfl
@[simp] theorem panic_bind {α β : Type} (f : α → BRes β) : ((panic : BRes α) >>= f) = panic := rfl

theorem bind_eq_ok {α β : Type} {x : BRes α} {f : α → BRes β} {b : β} :
    x >>= f = ok b ↔ ∃ a, x = ok a ∧ f a = ok b := by
  cases x <;> simp

end BRes

/-- transform.rs 22-26 `CustomTypeStatus`. -/
inductive Status where
  | tableDeclared
  | defined (ty : CustomType)

/-- transform.rs 10-16 `Builder`. `nodes` is the `BTreeMap<usize, Vec<Node>>` in key order. -/
structure Ctx where
  ns : Option Ast.QIdent
  types : QIdent → Option Status
  nodes : List (Nat × List Node)
  roots : List QIdent

/-- `Builder::default()` (transform.rs 10). -/
def Ctx.init : Ctx := ⟨none, fun _ => none, [], []⟩

/-- ir/types.rs 465-491 `Ident::from`. -/
def mkIdent (s : Str) : Ident := fixIdentifier s

/-- ir/types.rs 570-584 `QualifiedIdent::from(ast::QualifiedIdent)`: part by part. -/
def mkQIdent (q : Ast.QIdent) : QIdent := q.map mkIdent

/-- transform.rs 447-454 `make_fully_qualified_ident`, on a namespace. -/
def qualify (ns : Option Ast.QIdent) (i : Ident) : QIdent := mkQIdent (ns.getD []) ++ [i]

/-- transform.rs 456-466 `make_fully_qualified_ident_relative`, on a namespace. -/
def qualifyRel (ns : Option Ast.QIdent) (q : QIdent) : QIdent := mkQIdent (ns.getD []) ++ q

/-- transform.rs 468-478 `make_fully_qualified_from_ast_qualified_ident`, on a namespace. -/
def qualifyRef (ns : Option Ast.QIdent) : Ast.QIdent → QIdent
  | [i] => qualify ns (mkIdent i)
  | q => mkQIdent q

/-- transform.rs 519-531 `find_custom_type`. -/
def Ctx.find (c : Ctx) (q : QIdent) : Option Ty :=
  match c.types q with
  | some .tableDeclared => some (CustomType.table.ref q)
  | some (.defined ty) => some (ty.ref q)
  | none => none

/-- transform.rs 480-517 `try_type`. -/
def Ctx.tryType (c : Ctx) : Ast.Ty → Option Ty
  | .builtin b => some (.builtin b)
  | .string => some .string
  | .array t => (c.tryType t).map .array
  | .ident q => c.find (qualifyRef c.ns q)

/-- `types.insert(q, s)`. -/
def Ctx.setType (c : Ctx) (q : QIdent) (s : Status) : Ctx :=
  { c with types := fun q' => if q' = q then some s else c.types q' }

/-- `BTreeMap::insert` on `nodes`. -/
def insertNodes (p : Nat) (ns : List Node) : List (Nat × List Node) → List (Nat × List Node)
  | [] => [(p, ns)]
  | x :: xs => if p < x.1 then (p, ns) :: x :: xs else if p = x.1 then (p, ns) :: xs else x :: insertNodes p ns xs

/-- `nodes.insert(pos, v)`. -/
def Ctx.addNodes (c : Ctx) (p : Nat) (ns : List Node) : Ctx := { c with nodes := insertNodes p ns c.nodes }

/-- `if let Some(CustomTypeStatus::Defined(..)) = self.types.get(ident)`. -/
def Ctx.isDefined (c : Ctx) (q : QIdent) : Bool :=
  match c.types q with
  | some (.defined _) => true
  | _ => false

/-- transform.rs 109-112: `required` is present and has no value. -/
def fieldRequired (f : Ast.Field) : Bool :=
  match f.metadata with
  | some m => match Ast.Metadata.get m c!"required" with
    | some none => true
    | _ => false
  | none => false

/-- transform.rs 105-150, the field loop of `new_table`; `none` is the early `return Ok(false)`. -/
def Ctx.tableFields (c : Ctx) : List Ast.Field → BRes (Option (List Field))
  | [] => .ok (some [])
  | f :: fs =>
    match c.tryType f.ty with
    | none => .ok none
    | some ty => do
      let pre ← (match ty.companion with
        | some e => match c.find e with
          | some ety => .ok [⟨mkIdent (Heck.snake f.id ++ c!"_type"), ety, none, fieldRequired f, f.doc⟩]
          | none => .panic
        | none => .ok [] : BRes (List Field))
      let rest ← c.tableFields fs
      return rest.map fun r =>
        pre ++ ⟨mkIdent f.id, ty, f.default.or (Ast.implicitDefault f.ty), fieldRequired f, f.doc⟩ :: r

/-- transform.rs 89-171 `new_table`. -/
def Ctx.newTable (c : Ctx) (t : Ast.Product) (pos : Nat) : BRes (Bool × Ctx) :=
  let ident := qualify c.ns (mkIdent t.id)
  if c.isDefined ident then .err (.alreadyDefined ident)
  else
    let c := c.setType ident .tableDeclared
    match c.tableFields t.fields with
    | .ok (some fields) =>
      .ok (true, (c.setType ident (.defined .table)).addNodes pos [.table ⟨ident, fields, false, t.doc⟩])
    | .ok none => .ok (false, c)
    | .err e => .err e
    | .panic => .panic

/-- transform.rs 186-211, the field loop of `new_struct`. -/
def Ctx.structFields (c : Ctx) (ident : QIdent) : List Ast.Field → BRes (Option (List Field))
  | [] => .ok (some [])
  | f :: fs =>
    match c.tryType f.ty with
    | none => .ok none
    | some ty =>
      if ty.isScalar then do
        let rest ← c.structFields ident fs
        return rest.map fun r => ⟨mkIdent f.id, ty, f.default, false, f.doc⟩ :: r
      else .err (.illegalMember ident)

/-- transform.rs 173-232 `new_struct`. -/
def Ctx.newStruct (c : Ctx) (s : Ast.Product) (pos : Nat) : BRes (Bool × Ctx) :=
  let ident := qualify c.ns (mkIdent s.id)
  if c.isDefined ident then .err (.alreadyDefined ident)
  else
    match c.structFields ident s.fields with
    | .ok (some fields) =>
      .ok (true, (c.setType ident (.defined (.struct fields))).addNodes pos [.struct ⟨ident, fields, s.doc⟩])
    | .ok none => .ok (false, c)
    | .err e => .err e
    | .panic => .panic

/-- transform.rs 243-251: the variants of an enum. -/
def enumVariants (vs : List Ast.EnumVariant) : List EnumVariant := vs.map fun v => ⟨mkIdent v.id, v.value, v.doc⟩

/-- transform.rs 234-273 `new_enum`. -/
def Ctx.newEnum (c : Ctx) (e : Ast.Enum) (pos : Nat) : BRes (Bool × Ctx) :=
  let ident := qualify c.ns (mkIdent e.id)
  if c.isDefined ident then .err (.alreadyDefined ident)
  else
    match EnumBase.ofAst e.baseType with
    | none => .err (.badBase ident)
    | some base =>
      let vs := enumVariants e.variants
      .ok (true, (c.setType ident (.defined (.enum vs base))).addNodes pos [.enum ⟨ident, vs, base, e.doc⟩])

/-- transform.rs 285-299, the variant loop of `new_union`. -/
def Ctx.unionVariants (c : Ctx) : List Ast.EnumVariant → Option (List UnionVariant)
  | [] => some []
  | v :: vs =>
    match c.tryType (.ident [v.id]) with
    | none => none
    | some ty => (c.unionVariants vs).map fun r => ⟨mkIdent v.id, ty, v.doc⟩ :: r

/-- transform.rs 328-332: the name of the enum generated for a union. -/
def unionEnumIdent (ns : Option Ast.QIdent) (u : Ast.Union) : QIdent :=
  qualifyRel ns [mkIdent c!"butte_gen", mkIdent (u.id ++ c!"Type")]

/-- transform.rs 340-350: the variants of the enum generated for a union. -/
def unionEnumVariants (vs : List Ast.EnumVariant) : List EnumVariant :=
  ⟨mkIdent c!"None", some 0, []⟩ :: vs.map fun v => ⟨mkIdent v.id, none, v.doc⟩

/-- transform.rs 327-368 `generate_enum_for_union`. -/
def Ctx.generateEnum (c : Ctx) (u : Ast.Union) : BRes (Enum × Ctx) :=
  let ident := unionEnumIdent c.ns u
  if c.isDefined ident then .err (.alreadyDefined ident)
  else
    let vs := unionEnumVariants u.variants
    .ok (⟨ident, vs, .ubyte, u.doc⟩, c.setType ident (.defined (.enum vs .ubyte)))

/-- transform.rs 275-325 `new_union`. -/
def Ctx.newUnion (c : Ctx) (u : Ast.Union) (pos : Nat) : BRes (Bool × Ctx) :=
  let ident := qualify c.ns (mkIdent u.id)
  if c.isDefined ident then .err (.alreadyDefined ident)
  else
    match c.unionVariants u.variants with
    | none => .ok (false, c)
    | some vs => do
      let (e, c) ← c.generateEnum u
      return (true, (c.setType ident (.defined (.union e.ident vs))).addNodes pos
        [.enum e, .union ⟨ident, e.ident, vs, u.doc⟩])

/-- transform.rs 376-387 `new_root_ident`. -/
def Ctx.newRootIdent (c : Ctx) (q : QIdent) : BRes (Bool × Ctx) :=
  match c.types q with
  | some (.defined .table) => .ok (true, { c with roots := q :: c.roots })
  | some (.defined _) => .err (.notTable q)
  | _ => .ok (false, c)

/-- transform.rs 407-423: the `streaming` attribute of an rpc method. -/
def streamingOf (m : Option Ast.Metadata) : BRes Streaming :=
  match m with
  | none => .ok .none
  | some m => match Ast.Metadata.get m c!"streaming" with
    | none => .ok .none
    | some none => .err .missingStreaming
    | some (some (.string s)) =>
      if s = c!"client" then .ok .client
      else if s = c!"server" then .ok .server
      else if s = c!"bidi" then .ok .bidi
      else .err (.unknownStreaming (.string s))
    | some (some (.scalar s)) => .err (.unknownStreaming (.scalar s))

/-- transform.rs 394-432, the method loop of `new_rpc`; root types are marked as it goes. -/
def Ctx.rpcMethods (c : Ctx) : List Ast.RpcMethod → BRes (Option (List RpcMethod) × Ctx)
  | [] => .ok (some [], c)
  | m :: ms => do
    let req := qualifyRef c.ns m.requestType
    let resp := qualifyRef c.ns m.responseType
    let (ok, c) ← c.newRootIdent req
    if ok = false then return (none, c)
    let (ok, c) ← c.newRootIdent resp
    if ok = false then return (none, c)
    let s ← streamingOf m.metadata
    let (rest, c) ← c.rpcMethods ms
    return (rest.map fun r => ⟨mkIdent m.id, mkIdent (Heck.snake m.id), req, resp, s, m.doc⟩ :: r, c)

/-- transform.rs 389-441 `new_rpc`. -/
def Ctx.newRpc (c : Ctx) (r : Ast.Rpc) (pos : Nat) : BRes (Bool × Ctx) := do
  let ident := qualify c.ns (mkIdent r.id)
  let (ms, c) ← c.rpcMethods r.methods
  match ms with
  | none => return (false, c)
  | some ms => return (true, c.addNodes pos [.rpc ⟨ident, ms, r.doc⟩])

/-- transform.rs 65-87, 370-374 `new_element`, `new_namespace`, `new_root`. -/
def Ctx.newElement (c : Ctx) (pos : Nat) : Ast.Element → BRes (Bool × Ctx)
  | .namespace n _ => .ok (true, { c with ns := some n })
  | .table t => c.newTable t pos
  | .struct s => c.newStruct s pos
  | .enum e => c.newEnum e pos
  | .union u => c.newUnion u pos
  | .rpc r => c.newRpc r pos
  | .root t _ => c.newRootIdent (qualify c.ns (mkIdent t))
  | .fileExtension .. | .fileIdentifier .. | .attribute _ | .object .. => .panic

/-- transform.rs 18-19 `IndexedElement`. -/
abbrev Indexed := Nat × Ast.Element

/-- transform.rs 549-556: one pass over the pending elements; gives the unsatisfied ones. -/
def Ctx.pass (c : Ctx) : List Indexed → BRes (List Indexed × Ctx)
  | [] => .ok ([], c)
  | (p, el) :: rest => do
    let (ok, c) ← c.newElement p el
    let (uns, c) ← c.pass rest
    return (if ok then uns else (p, el) :: uns, c)

/-- transform.rs 547-573: the retry loop, cut off after `fuel` passes (`none`). -/
def Ctx.retry : Nat → Ctx → List Indexed → Option (BRes Ctx)
  | 0, _, _ => none
  | fuel + 1, c, input =>
    match c.pass input with
    | .ok (uns, c') =>
      if uns.isEmpty then some (.ok c')
      else if c'.nodes.length = c.nodes.length then some (.err (.unresolved (uns.map (·.2))))
      else Ctx.retry fuel c' uns
    | .err e => some (.err e)
    | .panic => some .panic

/-- transform.rs 538-543: elements with their positions. -/
def indexed (els : List Ast.Element) : List Indexed := els.zipIdx.map fun p => (p.2, p.1)

/-- transform.rs 578-592: flatten the nodes in declaration order and mark the root tables. -/
def Ctx.items (c : Ctx) : List Node :=
  (c.nodes.flatMap (·.2)).map fun
    | .table t => if t.ident ∈ c.roots then .table { t with rootType := true } else .table t
    | n => n

/-- Comparison of characters by code point. -/
def cmpChar (a b : Char) : Ordering := compare a.toNat b.toNat

/-- `Ord for Ident` (ir/types.rs 437, derived): lexicographic by code points, which is the order of UTF-8 bytes. -/
abbrev cmpIdent : Ident → Ident → Ordering := List.compareLex cmpChar

/-- `Ord for QualifiedIdent` (ir/types.rs 499, derived). -/
abbrev cmpQIdent : QIdent → QIdent → Ordering := List.compareLex cmpIdent

/-- `BTreeSet::insert`. -/
def setInsert (q : QIdent) : List QIdent → List QIdent
  | [] => [q]
  | x :: xs => match cmpQIdent q x with
    | .lt => q :: x :: xs
    | .eq => x :: xs
    | .gt => x :: setInsert q xs

/-- transform.rs 600: the namespaces in use, sorted, each once. -/
def nsIdents (items : List Node) : List QIdent := (items.filterMap Node.ns).foldl (fun s q => setInsert q s) []

/-- transform.rs 28-34 `NamespaceBuf`; a `BTreeMap<Ident, NamespaceBuf>` is the list of its entries in key order,
each entry carrying its key. -/
inductive NsBuf where
  | mk (key : Ident) (ident : QIdent) (namespaces : List NsBuf) (nodes : List Node)

/-- The key under which an entry is stored. -/
def NsBuf.key : NsBuf → Ident
  | mk k _ _ _ => k

/-- `BTreeMap::entry(k)`: update the entry, or make one from `none`. -/
def upsert (k : Ident) (f : Option NsBuf → NsBuf) : List NsBuf → List NsBuf
  | [] => [f none]
  | x :: xs => match cmpIdent k x.key with
    | .lt => f none :: x :: xs
    | .eq => f (some x) :: xs
    | .gt => x :: upsert k f xs

/-- transform.rs 619-637: put a namespace with its children into the tree. `anc` are the parts already walked. -/
def place (anc : List Ident) : List Ident → List Node → List NsBuf → List NsBuf
  | [], _, l => l
  | [k], kids, l => upsert k (fun
      | some (.mk k' i subs _) => .mk k' i subs kids
      | none => .mk k (anc ++ [k]) [] kids) l
  | k :: r, kids, l => upsert k (fun
      | some (.mk k' i subs ns) => .mk k' i (place (anc ++ [k]) r kids subs) ns
      | none => .mk k (anc ++ [k]) (place (anc ++ [k]) r kids []) []) l

mutual
/-- transform.rs 49-62 `into_namespace`, `into_node`: sub-namespaces first, then the items. -/
def NsBuf.toNode : NsBuf → Node
  | .mk _ i subs nodes => .namespace i (NsBuf.toNodes subs ++ nodes)
/-- The same for all entries of a map. -/
def NsBuf.toNodes : List NsBuf → List Node
  | [] => []
  | b :: bs => b.toNode :: NsBuf.toNodes bs
end

/-- transform.rs 594-643: group the items by namespace, stack the namespaces, put the rest at the end. -/
def arrange (items : List Node) : List Node :=
  let bufs := (nsIdents items).foldl (fun l q => place [] q (items.filter fun n => n.ns == some q) l) []
  NsBuf.toNodes bufs ++ items.filter fun n => n.ns == none

/-- transform.rs 533-644 `Builder::build`. The retry loop gets one pass more than there are elements;
`C45` shows that this is always enough. `none` would mean that the loop is still running. -/
def build (s : Ast.Schema) : Option (BRes (List Node)) :=
  (Ctx.retry (s.elements.length + 1) .init (indexed s.elements)).map fun
    | .ok c => .ok (arrange c.items)
    | .err e => .err e
    | .panic => .panic

end Butte.Ir
