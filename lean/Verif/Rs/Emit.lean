import Verif.Rs.Syntax
import Verif.Gen.Program
/-
The code generator, butte-build/src/codegen.rs, function by function: from the intermediate representation to the Rust
program. `none`: the generator panics. Documentation is left out.
-/
namespace Butte.Rs
open Ir (QIdent)
open Gen (formatIdent)

/-- The names of the primitive types. -/
def primName : STy → Str
  | .bool => c!"bool"
  | .i8 => c!"i8"
  | .u8 => c!"u8"
  | .i16 => c!"i16"
  | .u16 => c!"u16"
  | .i32 => c!"i32"
  | .u32 => c!"u32"
  | .i64 => c!"i64"
  | .u64 => c!"u64"
  | .f32 => c!"f32"
  | .f64 => c!"f64"

/-- codegen.rs 104-124: the primitive arms of `to_type_token`. -/
def builtinName (b : Ast.Builtin) : Str := primName (Gen.builtinSTy b)

/-- codegen.rs 836-858 `ToTokens for ir::EnumBaseType`. -/
def baseName (b : Ir.EnumBase) : Str := primName (Gen.enumBaseSTy b)

/-- codegen.rs 872-881 `ToTokens for ir::QualifiedIdent`: `syn` must read the path, or the generator panics. An empty path
is refused, and so is a path with a reserved word; `try` and `_` are the ones that `substituteKeyword` lets through. -/
def pathTokens (q : QIdent) : Option (List Str) := if q = [] ∨ c!"try" ∈ q ∨ c!"_" ∈ q then none else some q

/-- `quote!(#wrap_tokens::<#ty>)`, unless there are no tokens to wrap with, or no wrapping is wanted. -/
def wrapped (wrap : Option (List Str)) (outer : Bool) (t : Ty) : Ty :=
  match wrap with
  | some w => if outer then .app w t else t
  | none => t

/-- `butte::ForwardsUOffset` -/
def fwdPath : List Str := [c!"butte", c!"ForwardsUOffset"]
/-- `butte::Vector` -/
def vectorPath : List Str := [c!"butte", c!"Vector"]
/-- `butte::WIPOffset` -/
def wipPath : List Str := [c!"butte", c!"WIPOffset"]
/-- `&[u8]` -/
def bytesTy : Ty := .ref (.slice (.path [c!"u8"]))
/-- `&str` -/
def strTy : Ty := .ref (.path [c!"str"])
/-- `Self` -/
def selfTy : Ty := .path [c!"Self"]
/-- `&self` -/
def selfParam : Str × Ty := (c!"self", .ref selfTy)
/-- `butte::Error` -/
def errorTy : Ty := .path [c!"butte", c!"Error"]
/-- `Result<T, butte::Error>` -/
def resultTy (t : Ty) : Ty := .app2 [c!"Result"] t errorTy
/-- `Option<T>` -/
def optionTy (t : Ty) : Ty := .app [c!"Option"] t
/-- `butte::VOffsetT` -/
def voffsetTy : Ty := .path [c!"butte", c!"VOffsetT"]
/-- `butte::FlatBufferBuilder` -/
def fbbTy : Ty := .path [c!"butte", c!"FlatBufferBuilder"]

/-- codegen.rs 76-172 `to_type_token`. -/
def typeToken (ns : Option QIdent) : Ir.Ty → Option (List Str) → Bool → Option Ty
  | .builtin b, _, _ => some (.path [builtinName b])
  | .string, wrap, outer => some (wrapped wrap outer strTy)
  | .array t, wrap, outer => do
    let component ← typeToken ns t (some fwdPath) true
    return wrapped wrap outer (.app vectorPath component)
  | .table q, wrap, outer => do
    let p ← pathTokens (QIdent.relative q ns)
    return wrapped wrap outer (.app p bytesTy)
  | .union q _ _, wrap, outer => do
    let p ← pathTokens (QIdent.relative q ns)
    return wrapped wrap outer (.path p)
  | .struct q _, _, _ | .enum q _ _, _, _ => do
    let p ← pathTokens (QIdent.relative q ns)
    return .path p

/-- The text of a type, as far as it can be the suffix of a literal: `syn` refuses a suffix that is no single word. -/
def suffix : Ty → Option Str
  | .path [s] => some s
  | _ => none

/-- codegen.rs 182-202 `fmt_lit`, and the booleans (214): a number that is infinite or NaN panics, also when it
only becomes infinite as an `f32`. -/
def fmtLit (s : Ast.Scalar) (ty : Ty) : Option Lit :=
  match s with
  | .integer i => do
    let t ← suffix ty
    return .int i t
  | .float x => do
    let t ← suffix ty
    if f64Finite x && (t != c!"f32" || decide (f64ToF32 x % 2 ^ 31 < 255 * 2 ^ 23)) then some (.float x t) else none
  | .boolean b => some (.bool b)

/-- codegen.rs 205-222 `to_default_value`. -/
def defaultValue (ty : Ty) : Ast.DefaultValue → Option Expr
  | .scalar s => do
    let l ← fmtLit s ty
    return .lit l
  | .ident i => do
    let v ← formatIdent i
    return .assoc ty v

/-- codegen.rs 225-251 `to_default_value_doc`: only whether it panics (a union has `<>` behind its name, which is no
suffix). -/
def defaultDoc (ty : Ir.Ty) : Option Ast.DefaultValue → Option Unit
  | some (.scalar (.boolean _)) => some ()
  | some (.scalar s) => if ty.isUnion then none else do
    let t ← typeToken none ty none false
    let _ ← fmtLit s t
    return ()
  | _ => some ()

/-- codegen.rs 355-357 `offset_id`. -/
def offsetId (f : Ir.Field) : Str := c!"VT_" ++ Heck.shouty f.ident

/-- `format_ident!("add_{}", raw_field_name)` (381, 519). -/
def addName (f : Ir.Field) : Str := c!"add_" ++ f.ident

/-- `#struct_id::#offset` -/
def slotExpr (n : Str) (f : Ir.Field) : Expr := .assoc (.path [n]) (offsetId f)

/-- codegen.rs 373-391 `builder_add_calls`. -/
def addCall (f : Ir.Field) : Stmt :=
  let arg : Expr := .field (.var c!"args") f.ident
  if f.required || f.ty.isScalar then .expr (.method (.var c!"builder") (addName f) [arg])
  else .ifSome c!"x" arg (.method (.var c!"builder") (addName f) [.var c!"x"])

/-- codegen.rs 402-413, 529-540: the type of an argument, not yet optional. -/
def argTy (ns : Option QIdent) (ty : Ir.Ty) : Option Ty :=
  if ty.isUnion then some (.app wipPath (.path [c!"butte", c!"UnionWIPOffset"]))
  else typeToken ns ty (some wipPath) true

/-- codegen.rs 394-435 `args_fields`. -/
def argField (ns : Option QIdent) (f : Ir.Field) : Option (Str × Ty) := do
  let t ← argTy ns f.ty
  let _ ← defaultDoc f.ty f.default
  return (f.ident, if f.required || f.ty.isScalar then t else optionTy t)

/-- codegen.rs 452-454 `args_can_derive_default`. -/
def canDefault (fs : List Ir.Field) : Bool := fs.all fun f => !f.required || f.ty.isScalar

/-- codegen.rs 465-494: the default of one argument, of type `t`. -/
def argDefaultExpr (f : Ir.Field) (t : Ty) : Option Expr :=
  if !f.ty.isScalar then some .none
  else
    match f.default with
    | some (.ident i) => if f.ty.isEnum then (formatIdent i).map fun v => .assoc t v else none
    | some (.scalar s) => if f.ty.isEnum then none else (fmtLit s t).map .lit
    | none => some (.call t c!"default" [])

/-- codegen.rs 457-496 `args_fields_defaults`. -/
def argDefault (ns : Option QIdent) (f : Ir.Field) : Option (Str × Expr) := do
  let t ← typeToken ns f.ty none false
  let e ← argDefaultExpr f t
  return (f.ident, e)

/-- codegen.rs 542-551: the body of an `add_` method. -/
def addBody (n : Str) (f : Ir.Field) (t : Ty) : Option Expr :=
  let fbb : Expr := .field (.var c!"self") c!"fbb"
  let always : Expr := .methodAt fbb c!"push_slot_always" t [slotExpr n f, .var f.ident]
  if f.ty.isScalar then
    match f.default with
    | some d => (defaultValue t d).map fun v => .methodAt fbb c!"push_slot" t [slotExpr n f, .var f.ident, v]
    | none => some always
  else some always

/-- codegen.rs 512-560 `builder_field_methods`. -/
def addMethod (n : Str) (ns : Option QIdent) (f : Ir.Field) : Option Fn := do
  let t ← argTy ns f.ty
  let body ← addBody n f t
  return ⟨addName f, [selfParam, (f.ident, t)], .path [], [.expr body], .unit⟩

/-- codegen.rs 562-568 `field_offset_constants`: computed by the generator, built in mode `gm`. -/
def slotConst (gm : Mode) (i : Nat) (f : Ir.Field) : Option (Str × Fin 65536) := do
  let s ← Gen.slotOf gm i
  return (offsetId f, s)

/-- `butte::Error::RequiredFieldMissing(#snake_name_str)` -/
def missing (snake : Str) : Expr := .ctor errorTy c!"RequiredFieldMissing" (.lit (.str snake))

/-- `self.table.get::<#ty>(#struct_id::#offset_name, #default)` -/
def getExpr (n : Str) (f : Ir.Field) (w : Ty) (d : Expr) : Expr :=
  .methodAt (.field (.var c!"self") c!"table") c!"get" w [slotExpr n f, d]

/-- codegen.rs 627-645: one arm of the accessor of a required union. -/
def requiredArm (n : Str) (ns : Option QIdent) (f : Ir.Field) (snake : Str) (u e : List Str) (v : Ir.UnionVariant) :
    Option (Pat × Expr) := do
  let w ← typeToken ns v.ty (some fwdPath) true
  let i ← formatIdent v.ident
  return (.variant (.path e) i,
    .ctor (.path u) i (.try (.method (.try (getExpr n f w .none)) c!"ok_or" [missing snake])))

/-- codegen.rs 656-674: one arm of the accessor of an optional union. -/
def optionalArm (n : Str) (ns : Option QIdent) (f : Ir.Field) (u e : List Str) (v : Ir.UnionVariant) :
    Option (Pat × Expr) := do
  let w ← typeToken ns v.ty (some fwdPath) true
  let i ← formatIdent v.ident
  return (.some (.variant (.path e) i), .mapCtor (.try (getExpr n f w .none)) (.path u) i)

/-- codegen.rs 596-601: the default that an accessor passes on. -/
def getDefault (w : Ty) : Option Ast.DefaultValue → Option Expr
  | some d => (defaultValue w d).map .some
  | none => some .none

/-- codegen.rs 608-685: the body of the accessor of a union. -/
def unionBody (n : Str) (ns : Option QIdent) (f : Ir.Field) (snake : Str) (q en : QIdent) (vs : List Ir.UnionVariant) :
    Option Expr := do
  let u ← pathTokens (QIdent.relative q ns)
  let e ← pathTokens (QIdent.relative en ns)
  let tag ← formatIdent (Heck.snake f.ident ++ c!"_type")
  let arms ← vs.mapM fun v => if f.required then requiredArm n ns f snake u e v else optionalArm n ns f u e v
  let last : Pat × Expr := if f.required then (.variant (.path e) c!"None", .ret (.err (missing snake)))
    else (.or .none (.some (.variant (.path e) c!"None")), .none)
  return .ok (.match (.try (.method (.var c!"self") tag [])) (arms ++ [last]))

/-- codegen.rs 686-707: the body of any other accessor. -/
def plainBody (n : Str) (f : Ir.Field) (snake : Str) (w : Ty) (dflt : Expr) : Expr :=
  if f.required then .method (.try (getExpr n f w dflt)) c!"ok_or" [missing snake] else getExpr n f w dflt

/-- codegen.rs 608-707: the body of an accessor. -/
def accessorBody (n : Str) (ns : Option QIdent) (f : Ir.Field) (snake : Str) (w : Ty) (dflt : Expr) : Option Expr :=
  match f.ty with
  | .union q en vs => unionBody n ns f snake q en vs
  | _ => some (plainBody n f snake w dflt)

/-- codegen.rs 570-708 `field_accessors`. -/
def accessor (n : Str) (ns : Option QIdent) (f : Ir.Field) : Option Fn := do
  let snake ← formatIdent (Heck.snake f.ident)
  let ret ← typeToken ns f.ty (some fwdPath) false
  let w ← typeToken ns f.ty (some fwdPath) true
  let dflt ← getDefault w f.default
  let body ← accessorBody n ns f snake w dflt
  return ⟨snake, [selfParam], resultTy (if f.required then ret else optionTy ret), [], body⟩

/-- codegen.rs 710-719 `required_fields`. -/
def requiredChecks (n : Str) (fs : List Ir.Field) : List Stmt :=
  (fs.filter (·.required)).map fun f =>
    .expr (.method (.field (.var c!"self") c!"fbb") c!"required"
      [.var c!"o", slotExpr n f, .lit (.str (Heck.snake f.ident))])

/-- `butte::Table<B>` -/
def tableB : Ty := .app [c!"butte", c!"Table"] (.path [c!"B"])

/-- codegen.rs 722-726. -/
def tableStruct (n : Str) : Item := .struct n [c!"B"] [(c!"table", tableB)]

/-- codegen.rs 729-731. -/
def fromTableFn : Fn := ⟨c!"from", [(c!"table", tableB)], selfTy, [], .struct selfTy [(c!"table", .var c!"table")]⟩

/-- codegen.rs 728-738: the conversions from and to `butte::Table`. -/
def tableFrom (n : Str) : Item :=
  .impl [c!"B"] (some (.app [c!"From"] tableB)) (.app [n] (.path [c!"B"])) [] [fromTableFn]
@[inherit_doc tableFrom]
def tableInto (n : Str) : Item :=
  .impl [c!"B"] (some (.app [c!"From"] (.app [n] (.path [c!"B"])))) tableB []
    [⟨c!"from", [(c!"s", .app [n] (.path [c!"B"]))], selfTy, [], .field (.var c!"s") c!"table"⟩]

/-- codegen.rs 744-751 `create`. -/
def createFn (n : Str) (fs : List Ir.Field) : Fn :=
  ⟨c!"create", [(c!"fbb", .ref fbbTy), (c!"args", .ref (.path [n ++ c!"Args"]))], .app wipPath (.app [n] bytesTy),
    .let c!"builder" (.call (.path [n ++ c!"Builder"]) c!"new" [.var c!"fbb"]) :: fs.map addCall,
    .method (.var c!"builder") c!"finish" []⟩

/-- codegen.rs 740-752: the slot constants and `create`. -/
def tableCreate (n : Str) (consts : List (Str × Fin 65536)) (fs : List Ir.Field) : Item :=
  .impl [] none (.app [n] bytesTy) consts [createFn n fs]

/-- `let table = butte::Table::new(buf, loc); Ok(Self { table })` -/
def newTableBody : List Stmt × Expr :=
  ([.let c!"table" (.call (.path [c!"butte", c!"Table"]) c!"new" [.var c!"buf", .var c!"loc"])],
    .ok (.struct selfTy [(c!"table", .var c!"table")]))

/-- codegen.rs 762-765 `get_root`. -/
def getRootFn : Fn :=
  ⟨c!"get_root", [(c!"buf", .path [c!"B"])], resultTy selfTy,
    [.let c!"table" (.try (.call (.path [c!"butte", c!"Table"]) c!"get_root" [.var c!"buf"]))],
    .ok (.struct selfTy [(c!"table", .var c!"table")])⟩

/-- codegen.rs 755-766: the accessors and `get_root`. -/
def tableAccess (n : Str) (accs : List Fn) : Item :=
  .impl [c!"B"] none (.app [n] (.path [c!"B"])) [] (accs ++ [getRootFn])

/-- codegen.rs 772-775 `follow`. -/
def followFn : Fn :=
  ⟨c!"follow", [(c!"buf", bytesTy), (c!"loc", .path [c!"usize"])], resultTy (.path [c!"Self", c!"Inner"]),
    newTableBody.1, newTableBody.2⟩

/-- codegen.rs 768-776 `Follow`. -/
def tableFollow (n : Str) : Item := .impl [] (some (.path [c!"butte", c!"Follow"])) (.app [n] bytesTy) [] [followFn]

/-- codegen.rs 786-789 `follow_buf`. -/
def followBufFn : Fn :=
  ⟨c!"follow_buf", [(c!"buf", .path [c!"Self", c!"Buf"]), (c!"loc", .path [c!"usize"])],
    resultTy (.path [c!"Self", c!"Inner"]), newTableBody.1, newTableBody.2⟩

/-- codegen.rs 778-790 `FollowBuf`. -/
def tableFollowBuf (n : Str) : Item :=
  .impl [c!"B"] (some (.path [c!"butte", c!"FollowBuf"])) (.app [n] (.path [c!"B"])) [] [followBufFn]

/-- codegen.rs 499-503 `default`. -/
def defaultFn (ds : List (Str × Expr)) : Fn := ⟨c!"default", [], selfTy, [], .struct selfTy ds⟩

/-- codegen.rs 497-505: `Default` of the arguments. -/
def argsDefault (n : Str) (ds : List (Str × Expr)) : Item :=
  .impl [] (some (.path [c!"Default"])) (.path [n ++ c!"Args"]) [] [defaultFn ds]

/-- codegen.rs 456-508 `args_default_impl`. -/
def defaultItems (n : Str) (ns : Option QIdent) (fs : List Ir.Field) : Option (List Item) :=
  if canDefault fs then (fs.mapM (argDefault ns)).map fun ds => [argsDefault n ds] else some []

/-- codegen.rs 800-803. -/
def builderStruct (n : Str) : Item :=
  .struct (n ++ c!"Builder") [] [(c!"fbb", .ref fbbTy),
    (c!"start", .app wipPath (.path [c!"butte", c!"TableUnfinishedWIPOffset"]))]

/-- codegen.rs 809-814 `new`. -/
def newFn (n : Str) : Fn :=
  ⟨c!"new", [(c!"fbb", .ref fbbTy)], selfTy, [.let c!"start" (.method (.var c!"fbb") c!"start_table" [])],
    .struct (.path [n ++ c!"Builder"]) [(c!"fbb", .var c!"fbb"), (c!"start", .var c!"start")]⟩

/-- codegen.rs 817-821 `finish`. -/
def finishFn (n : Str) (fs : List Ir.Field) : Fn :=
  ⟨c!"finish", [(c!"self", selfTy)], .app wipPath (.app [n] bytesTy),
    .let c!"o" (.method (.field (.var c!"self") c!"fbb") c!"end_table" [.field (.var c!"self") c!"start"]) ::
      requiredChecks n fs,
    .call (.path wipPath) c!"new" [.method (.var c!"o") c!"value" []]⟩

/-- codegen.rs 805-822: the methods of the table's builder. -/
def builderImpl (n : Str) (adds : List Fn) (fs : List Ir.Field) : Item :=
  .impl [] none (.path [n ++ c!"Builder"]) [] (adds ++ [newFn n, finishFn n fs])

/-- codegen.rs 359-826 `ToTokens for ir::Table`. -/
def emitTable (gm : Mode) (t : Ir.Table) : Option (List Item) := do
  let ns := QIdent.namespace t.ident
  let n ← formatIdent (QIdent.simple t.ident)
  let _ ← t.fields.mapM fun f => formatIdent f.ident
  let args ← t.fields.mapM (argField ns)
  let dflt ← defaultItems n ns t.fields
  let adds ← t.fields.mapM (addMethod n ns)
  let consts ← (List.zipIdx t.fields).mapM fun x => slotConst gm x.2 x.1
  let accs ← t.fields.mapM (accessor n ns)
  return [tableStruct n, tableFrom n, tableInto n, tableCreate n consts t.fields, tableAccess n accs, tableFollow n,
      tableFollowBuf n, .struct (n ++ c!"Args") [] args] ++ dflt ++
    [builderStruct n, builderImpl n adds t.fields]

/-- codegen.rs 914-934 `variants_and_scalars`. -/
def variantLit (base : Str) (x : Ir.EnumVariant × Nat) : Option (Str × Lit) := do
  let i ← formatIdent x.1.ident
  return (i, .int (x.1.value.getD x.2) base)

/-- codegen.rs 903-910, 977-979: `Default` of an enum, the first variant (no body at all when there is none). -/
def enumDefaultFn (n : Str) (vs : List (Str × Lit)) : Fn :=
  ⟨c!"default", [], selfTy, [], match vs with
    | v :: _ => .assoc (.path [n]) v.1
    | [] => .unit⟩
@[inherit_doc enumDefaultFn]
def enumDefault (n : Str) (vs : List (Str × Lit)) : Item :=
  .impl [] (some (.path [c!"Default"])) (.path [n]) [] [enumDefaultFn n vs]

/-- codegen.rs 982-989 `Follow` of an enum. -/
def enumFollowFn (base : Str) : Fn :=
  ⟨c!"follow", [(c!"buf", bytesTy), (c!"loc", .path [c!"usize"])], resultTy (.path [c!"Self", c!"Inner"]),
    [.let c!"scalar" (.try (.fn [c!"butte", c!"read_scalar_at"] (.path [base]) [.var c!"buf", .var c!"loc"]))],
    .call selfTy c!"try_from" [.var c!"scalar"]⟩
@[inherit_doc enumFollowFn]
def enumFollow (n base : Str) : Item :=
  .impl [] (some (.path [c!"butte", c!"Follow"])) (.path [n]) [] [enumFollowFn base]

/-- codegen.rs 939-946, 991-999 `TryFrom` of an enum. -/
def enumTryFromFn (n base : Str) (vs : List (Str × Lit)) : Fn :=
  ⟨c!"try_from", [(c!"value", .path [base])], .app2 [c!"Result"] selfTy (.path [c!"Self", c!"Error"]), [],
    .match (.var c!"value") (vs.map (fun v => (Pat.lit v.2, .ok (.assoc (.path [n]) v.1))) ++
      [(.wild, .err (.assoc errorTy c!"UnknownEnumVariant"))])⟩
@[inherit_doc enumTryFromFn]
def enumTryFrom (n base : Str) (vs : List (Str × Lit)) : Item :=
  .impl [] (some (.app [c!"std", c!"convert", c!"TryFrom"] (.path [base]))) (.path [n]) [] [enumTryFromFn n base vs]

/-- codegen.rs 948-955, 1001-1007: `From` of an enum for its base type. -/
def enumIntoFn (n base : Str) (vs : List (Str × Lit)) : Fn :=
  ⟨c!"from", [(c!"value", .path [n])], .path [base], [],
    .match (.var c!"value") (vs.map fun v => (Pat.variant (.path [n]) v.1, .lit v.2))⟩
@[inherit_doc enumIntoFn]
def enumInto (n base : Str) (vs : List (Str × Lit)) : Item :=
  .impl [] (some (.app [c!"From"] (.path [n]))) (.path [base]) [] [enumIntoFn n base vs]

/-- codegen.rs 1009-1017 `Push` of an enum. -/
def enumPushFn (base : Str) : Fn :=
  ⟨c!"push", [selfParam, (c!"dst", bytesTy), (c!"_rest", bytesTy)], .path [],
    [.let c!"scalar" (.call (.path [base]) c!"from" [.deref (.var c!"self")]),
      .expr (.fn [c!"butte", c!"emplace_scalar"] (.path [base]) [.var c!"dst", .var c!"scalar"])], .unit⟩
@[inherit_doc enumPushFn]
def enumPush (n base : Str) : Item :=
  .impl [] (some (.path [c!"butte", c!"Push"])) (.path [n]) [] [enumPushFn base]

/-- codegen.rs 896-901, 936-937, 1019-1023: the function that names the variants. -/
def enumNameFn (n : Str) (vs : List (Str × Lit)) : Fn :=
  ⟨c!"enum_name_" ++ Heck.snake n, [(c!"e", .path [n])], strTy, [],
    .match (.var c!"e") (vs.map fun v => (Pat.variant (.path [n]) v.1, .lit (.str v.1)))⟩

/-- codegen.rs 883-1027 `ToTokens for ir::Enum`. -/
def emitEnum (e : Ir.Enum) : Option (List Item) := do
  let n ← formatIdent (QIdent.simple e.ident)
  let base := baseName e.base
  let vs ← (List.zipIdx e.variants).mapM (variantLit base)
  return [.enum n base vs, enumDefault n vs, enumFollow n base, enumTryFrom n base vs, enumInto n base vs,
    enumPush n base, .fn (enumNameFn n vs)]

/-- codegen.rs 1045-1058: the body of a union. -/
def unionVariant (ns : Option QIdent) (v : Ir.UnionVariant) : Option (Str × Ty) := do
  let t ← typeToken ns v.ty none false
  let i ← formatIdent v.ident
  return (i, t)

/-- codegen.rs 1062-1071, 1082-1086 `get_type`. -/
def getTypeFn (n : Str) (e : List Str) (vs : List (Str × Ty)) : Fn :=
  ⟨c!"get_type", [selfParam], .path e, [],
    .match (.var c!"self") (vs.map fun v => (Pat.tuple (.path [n]) v.1, .assoc (.path e) v.1))⟩

/-- codegen.rs 1029-1092 `ToTokens for ir::Union`. -/
def emitUnion (u : Ir.Union) : Option (List Item) := do
  let ns := QIdent.namespace u.ident
  let n ← formatIdent (QIdent.simple u.ident)
  let e ← pathTokens (QIdent.relative u.enumIdent ns)
  let vs ← u.variants.mapM (unionVariant ns)
  return [.union n vs, .impl [] none (.path [n]) [] [getTypeFn n e vs]]

mutual
/-- codegen.rs 1114-1153 `node_to_tokens`, inside module `path` (no `RpcGenerator`; structs panic, 1151). -/
def emitNode (gm : Mode) (path : List Str) : Ir.Node → Option Program
  | .table t => do
    let items ← emitTable gm t
    return items.map (path, ·)
  | .struct _ => none
  | .enum e => do
    let items ← emitEnum e
    return items.map (path, ·)
  | .union u => do
    let items ← emitUnion u
    return items.map (path, ·)
  | .rpc _ => some []
  | .namespace i ns => do
    let m ← formatIdent (Heck.snake (QIdent.simple i))
    let items ← emitNodes gm (path ++ [m]) ns
    return (path, .mod m) :: items
/-- codegen.rs 1106-1112 `build_tokens`, and 1136-1138 for the contents of a module. -/
def emitNodes (gm : Mode) (path : List Str) : List Ir.Node → Option Program
  | [] => some []
  | n :: ns => do
    let a ← emitNode gm path n
    let b ← emitNodes gm path ns
    return a ++ b
end

/-- codegen.rs 1100-1104 `build_token_stream`. -/
def emit (gm : Mode) (nodes : List Ir.Node) : Option Program := emitNodes gm [] nodes

end Butte.Rs
