import Verif.Rt.Basic
import Verif.Ir.Str
/-
The syntax tree of a schema: butte-build/src/ast/types.rs.
-/
namespace Butte.Ast

/-- ast/types.rs 458-461 `Ident`: the text as written. -/
abbrev Ident := Str

/-- ast/types.rs 464-467 `QualifiedIdent`. -/
abbrev QIdent := List Ident

/-- ast/types.rs 470-474 `Comment`: documentation lines. -/
abbrev Comment := List Str

/-- ast/types.rs 229-254 `Type`, the variants without data. -/
inductive Builtin where
  | bool | byte | ubyte | short | ushort | int | uint | float | long | ulong | double
  | int8 | uint8 | int16 | uint16 | int32 | uint32 | int64 | uint64 | float32 | float64
deriving DecidableEq, Repr

/-- ast/types.rs 229-254 `Type`. -/
inductive Ty where
  | builtin (b : Builtin)
  | string
  | array (t : Ty)
  | ident (q : QIdent)
deriving DecidableEq, Repr

/-- ast/types.rs 313-317 `Scalar`. `IntegerConstant` is `i128` (275), `FloatingConstant` is `f64` (278), given by
its bit pattern. -/
inductive Scalar where
  | integer (i : Int)
  | float (bits : Fin (2 ^ 64))
  | boolean (b : Bool)
deriving DecidableEq, Repr

/-- ast/types.rs 408-411 `Single`. -/
inductive Single where
  | scalar (s : Scalar)
  | string (s : Str)
deriving DecidableEq, Repr

/-- ast/types.rs 351-354 `DefaultValue`. -/
inductive DefaultValue where
  | scalar (s : Scalar)
  | ident (i : Ident)
deriving DecidableEq, Repr

/-- ast/types.rs 299-302 `Metadata`. The `HashMap` is kept as the list of pairs it is collected from. -/
abbrev Metadata := List (Ident × Option Single)

/-- `HashMap::get` on the collected map (a later pair overwrites an earlier one). -/
def Metadata.get (m : Metadata) (k : Ident) : Option (Option Single) :=
  (m.reverse.find? (fun p => p.1 == k)).map (·.2)

/-- ast/types.rs 183-195 `Field`. -/
structure Field where
  id : Ident
  ty : Ty
  default : Option DefaultValue
  metadata : Option Metadata
  doc : Comment
deriving DecidableEq, Repr

/-- ast/types.rs 285-295 `EnumVariant`. -/
structure EnumVariant where
  id : Ident
  value : Option Int
  doc : Comment
deriving DecidableEq, Repr

/-- ast/types.rs 143-152 `Table` and 130-139 `Struct` (same shape). -/
structure Product where
  id : Ident
  fields : List Field
  metadata : Option Metadata
  doc : Comment
deriving DecidableEq, Repr

/-- ast/types.rs 156-166 `Enum`. -/
structure Enum where
  id : Ident
  variants : List EnumVariant
  baseType : Ty
  metadata : Option Metadata
  doc : Comment
deriving DecidableEq, Repr

/-- ast/types.rs 170-179 `Union`. -/
structure Union where
  id : Ident
  variants : List EnumVariant
  metadata : Option Metadata
  doc : Comment
deriving DecidableEq, Repr

/-- ast/types.rs 209-225 `RpcMethod`. -/
structure RpcMethod where
  id : Ident
  requestType : QIdent
  responseType : QIdent
  metadata : Option Metadata
  doc : Comment
deriving DecidableEq, Repr

/-- ast/types.rs 199-205 `Rpc`. -/
structure Rpc where
  id : Ident
  methods : List RpcMethod
  doc : Comment
deriving DecidableEq, Repr

/-- ast/types.rs 333-339, 445-449 `Value` and `Object`; the `HashMap` as the list of its pairs. -/
inductive Value where
  | single (s : Single)
  | object (values : List (Ident × Value)) (doc : Comment)
  | list (vs : List Value)

/-- ast/types.rs 33-45 `Element` (with 88-93 `Root`, 97-102 `FileExtension`, 106-111 `FileIdentifier`, 115-120
`Namespace`, 124-126 `Attribute`). -/
inductive Element where
  | namespace (ident : QIdent) (doc : Comment)
  | table (t : Product)
  | struct (s : Product)
  | enum (e : Enum)
  | union (u : Union)
  | root (typename : Ident) (doc : Comment)
  | fileExtension (ext : Str) (doc : Comment)
  | fileIdentifier (id : Bytes) (doc : Comment)
  | attribute (attr : Ident)
  | rpc (r : Rpc)
  | object (values : List (Ident × Value)) (doc : Comment)

/-- ast/types.rs 20-29 `Include`. -/
structure Include where
  path : Str
  stem : Str
  doc : Comment
deriving DecidableEq, Repr

/-- ast/types.rs 8-16 `Schema`. -/
structure Schema where
  includes : List Include
  elements : List Element

/-- ast/types.rs 392-404 `TryFrom<&Type> for DefaultValue`: the implicit default of a builtin scalar. -/
def implicitDefault : Ty → Option DefaultValue
  | .array _ | .ident _ | .string => none
  | .builtin .bool => some (.scalar (.boolean false))
  | .builtin .double | .builtin .float | .builtin .float32 | .builtin .float64 => some (.scalar (.float 0))
  | .builtin _ => some (.scalar (.integer 0))

end Butte.Ast
