import Verif.Ir.Ast
import Verif.Ir.Keywords
/-
The intermediate representation: butte-build/src/ir/types.rs.
-/
namespace Butte.Ir

/-- ir/types.rs 437-441 `Ident`: the text after keyword substitution. -/
abbrev Ident := Str

/-- ir/types.rs 499-502 `QualifiedIdent`. -/
abbrev QIdent := List Ident

/-- ir/types.rs 289-306 `EnumBaseType`. -/
inductive EnumBase where
  | byte | ubyte | short | ushort | int | uint | long | ulong
  | int8 | uint8 | int16 | uint16 | int32 | uint32 | int64 | uint64
deriving DecidableEq, Repr

/-- ir/types.rs 308-332 `TryFrom<&ast::Type> for EnumBaseType`. -/
def EnumBase.ofAst : Ast.Ty → Option EnumBase
  | .builtin .byte => some .byte
  | .builtin .ubyte => some .ubyte
  | .builtin .short => some .short
  | .builtin .ushort => some .ushort
  | .builtin .int => some .int
  | .builtin .uint => some .uint
  | .builtin .long => some .long
  | .builtin .ulong => some .ulong
  | .builtin .int8 => some .int8
  | .builtin .uint8 => some .uint8
  | .builtin .int16 => some .int16
  | .builtin .uint16 => some .uint16
  | .builtin .int32 => some .int32
  | .builtin .uint32 => some .uint32
  | .builtin .int64 => some .int64
  | .builtin .uint64 => some .uint64
  | _ => none

/-- ir/types.rs 407-419 `EnumVariant`. -/
structure EnumVariant where
  ident : Ident
  value : Option Int
  doc : Ast.Comment
deriving DecidableEq, Repr

/-- ir/types.rs 115-134 `Field` with its `FieldMetadata`, over the type of types. -/
structure FieldOf (T : Type) where
  ident : Ident
  ty : T
  default : Option Ast.DefaultValue
  required : Bool
  doc : Ast.Comment

/-- ir/types.rs 422-431 `UnionVariant`, over the type of types. -/
structure UVariantOf (T : Type) where
  ident : Ident
  ty : T
  doc : Ast.Comment

/-- ir/types.rs 136-161 `Type`, with 258-277 `CustomTypeRef` and `CustomType` written out in the last four
constructors. -/
inductive Ty where
  | builtin (b : Ast.Builtin)
  | string
  | array (t : Ty)
  | table (ident : QIdent)
  | struct (ident : QIdent) (fields : List (FieldOf Ty))
  | enum (ident : QIdent) (variants : List EnumVariant) (base : EnumBase)
  | union (ident : QIdent) (enumIdent : QIdent) (variants : List (UVariantOf Ty))

abbrev Field := FieldOf Ty
abbrev UnionVariant := UVariantOf Ty

/-- ir/types.rs 264-277 `CustomType`. -/
inductive CustomType where
  | table
  | struct (fields : List Field)
  | enum (variants : List EnumVariant) (base : EnumBase)
  | union (enumIdent : QIdent) (variants : List UnionVariant)

/-- A `Type::Custom(CustomTypeRef { ident, ty })`. -/
def CustomType.ref (ident : QIdent) : CustomType → Ty
  | .table => .table ident
  | .struct fs => .struct ident fs
  | .enum vs b => .enum ident vs b
  | .union e vs => .union ident e vs

/-- ir/types.rs 164-180 `Type::is_scalar`. -/
def Ty.isScalar : Ty → Bool
  | .string | .array _ | .table _ | .union .. => false
  | .builtin _ | .struct .. | .enum .. => true

/-- ir/types.rs 182-190 `Type::is_union`. -/
def Ty.isUnion : Ty → Bool
  | .union .. => true
  | _ => false

/-- ir/types.rs 192-200 `Type::is_enum`. -/
def Ty.isEnum : Ty → Bool
  | .enum .. => true
  | _ => false

/-- ir/types.rs 215-223 `Type::make_union_enum_type_companion`. -/
def Ty.companion : Ty → Option QIdent
  | .union _ e _ => some e
  | _ => none

/-- ir/types.rs 91-102 `Table`. -/
structure Table where
  ident : QIdent
  fields : List Field
  rootType : Bool
  doc : Ast.Comment

/-- ir/types.rs 104-113 `Struct`. -/
structure Struct where
  ident : QIdent
  fields : List Field
  doc : Ast.Comment

/-- ir/types.rs 279-287 `Enum`. -/
structure Enum where
  ident : QIdent
  variants : List EnumVariant
  base : EnumBase
  doc : Ast.Comment

/-- ir/types.rs 334-343 `Union`. -/
structure Union where
  ident : QIdent
  enumIdent : QIdent
  variants : List UnionVariant
  doc : Ast.Comment

/-- ir/types.rs 385-391 `RpcStreaming`. -/
inductive Streaming where
  | none | client | server | bidi
deriving DecidableEq, Repr

/-- ir/types.rs 356-378 `RpcMethod`. -/
structure RpcMethod where
  ident : Ident
  snakeIdent : Ident
  requestType : QIdent
  responseType : QIdent
  streaming : Streaming
  doc : Ast.Comment
deriving DecidableEq, Repr

/-- ir/types.rs 346-353 `Rpc`. -/
structure Rpc where
  ident : QIdent
  methods : List RpcMethod
  doc : Ast.Comment
deriving DecidableEq, Repr

/-- ir/types.rs 15-23 `Node`, 75-83 `Namespace`. -/
inductive Node where
  | namespace (ident : QIdent) (nodes : List Node)
  | table (t : Table)
  | struct (s : Struct)
  | enum (e : Enum)
  | union (u : Union)
  | rpc (r : Rpc)

/-- ir/types.rs 26-35 `Node::ident`. -/
def Node.ident : Node → QIdent
  | .namespace i _ => i
  | .table t => t.ident
  | .struct s => s.ident
  | .enum e => e.ident
  | .union u => u.ident
  | .rpc r => r.ident

/-- ir/types.rs 513-521 `QualifiedIdent::namespace`. -/
def QIdent.namespace (q : QIdent) : Option QIdent :=
  if q.length > 1 then some (q.take (q.length - 1)) else none

/-- ir/types.rs 37-39 `Node::namespace`. -/
def Node.ns (n : Node) : Option QIdent := QIdent.namespace n.ident

/-- ir/types.rs 526-531: length of the common prefix. -/
def commonPrefix : QIdent → QIdent → Nat
  | a :: as, b :: bs => if a = b then commonPrefix as bs + 1 else 0
  | _, _ => 0

/-- ir/types.rs 523-540 `QualifiedIdent::relative`. -/
def QIdent.relative (q : QIdent) : Option QIdent → QIdent
  | some ns =>
    let k := commonPrefix q ns
    List.replicate (ns.length - k) c!"super" ++ q.drop k
  | none => q

/-- ir/types.rs 542-544 `QualifiedIdent::simple`; an empty identifier would panic (the parser never makes one). -/
def QIdent.simple (q : QIdent) : Ident := q.getLastD []

end Butte.Ir
