import Verif.Src.Quote
/-
The trees that the generated tokens stand for, with everything that is written: lifetimes, attributes, visibility, bounds,
associated types. Each definition is named after its counterparts in `Src/Quote.lean` (its tokens) and `Rs/Emit.lean` (what
of it matters when the code runs); `Src/FullPrint.lean` and `Src/FullErase.lean` show that they agree.
-/
namespace Butte.Src.Full
open Ir (QIdent)
open Gen (formatIdent)
open Rs (pathTokens Lit fwdPath vectorPath wipPath)

/-- `s`, as a type -/
def word (s : Str) : Ty := .path [s] false []
/-- `x`, as an expression -/
def v (x : Str) : Expr := .path [x] []

/-- codegen.rs 83-101: the lifetime of references. -/
def refLife (l : Str) : Option Str := if l = c!"_" then none else some l

/-- `&'a [u8]` -/
def bytes (l : Option Str) : Ty := .ref l false (.slice (word c!"u8"))
/-- `Self` -/
def selfTy : Ty := word c!"Self"
/-- `butte::Error` -/
def errorTy : Ty := .path [c!"butte", c!"Error"] false []
/-- `Result<T, butte::Error>` -/
def resultTy (t : Ty) : Ty := .path [c!"Result"] false [.ty t, .ty errorTy]
/-- `Option<T>` -/
def optionTy (t : Ty) : Ty := .path [c!"Option"] false [.ty t]
/-- `N<B>` -/
def ofB (n : Str) : Ty := .path [n] false [.ty (word c!"B")]
/-- `N<&'a [u8]>` -/
def ofBytes (n : Str) (l : Option Str) : Ty := .path [n] false [.ty (bytes l)]
/-- `butte::Table<B>` -/
def tableB : Ty := .path [c!"butte", c!"Table"] false [.ty (word c!"B")]
/-- `butte::WIPOffset<T>` -/
def wip (t : Ty) : Ty := .path wipPath false [.ty t]
/-- `&'l mut butte::FlatBufferBuilder<'m>` -/
def fbbTy (l m : Str) : Ty := .ref (some l) true (.path [c!"butte", c!"FlatBufferBuilder"] false [.life m])

/-- `quote!(#wrap_tokens::<#ty>)`, unless there are no tokens to wrap with, or no wrapping is wanted. -/
def wrapped (wrap : Option (List Str)) (outer : Bool) (t : Ty) : Ty :=
  match wrap with
  | some w => if outer then .path w true [.ty t] else t
  | none => t

/-- codegen.rs 76-172 `to_type_token`. -/
def typeToken (ns : Option QIdent) : Ir.Ty → Str → Option (List Str) → Bool → Option Ty
  | .builtin b, _, _, _ => some (word (Rs.builtinName b))
  | .string, l, wrap, outer => some (wrapped wrap outer (.ref (refLife l) false (word c!"str")))
  | .array t, l, wrap, outer => do
    let component ← typeToken ns t l (some fwdPath) true
    return wrapped wrap outer (.path vectorPath false [.life l, .ty component])
  | .table q, l, wrap, outer => do
    let p ← pathTokens (QIdent.relative q ns)
    return wrapped wrap outer (.path p false [.ty (bytes (refLife l))])
  | .union q _ _, l, wrap, outer => do
    let p ← pathTokens (QIdent.relative q ns)
    return wrapped wrap outer (.path p false [.life l])
  | .struct q _, _, _, _ | .enum q _ _, _, _, _ => do
    let p ← pathTokens (QIdent.relative q ns)
    return .path p false []

/-- codegen.rs 182-202 `fmt_lit`, and the booleans (214). -/
def fmtLit (s : Ast.Scalar) (t : Ty) : Option Lit := Quote.fmtLit s t.print

/-- codegen.rs 205-222 `to_default_value`. -/
def defaultValue (t : Ty) : Ast.DefaultValue → Option Expr
  | .scalar s => do
    let l ← fmtLit s t
    return .lit l
  | .ident i => do
    let n ← formatIdent i
    return .qpath t none n

/-- `#[doc = "text"]` -/
def docAttr (l : Str) : Attr := ⟨c!"doc", .eq l⟩
/-- `#[inline]` -/
def inlineAttr : Attr := ⟨c!"inline", .none⟩
/-- `#[derive(..)]` -/
def deriveAttr (ns : List Str) : Attr := ⟨c!"derive", .list (ns.map fun n => [n])⟩
/-- codegen.rs 860-870. -/
def comment (lines : Ast.Comment) : List Attr := lines.map docAttr
/-- codegen.rs 420-424, 524-528, 602-606. -/
def allowAttr (ty : Ir.Ty) : List Attr :=
  if Quote.isComplex ty then [⟨c!"allow", .list [[c!"clippy", c!"type_complexity"]]⟩] else []

/-- codegen.rs 225-251 `to_default_value_doc`. -/
def defaultDoc [FloatText] (ty : Ir.Ty) : Option Ast.DefaultValue → Option (List Attr)
  | none => some []
  | some d => do
    let t ← Quote.defaultText ty d
    return [docAttr (c!" The default value for this field is __" ++ t ++ c!"__")]

/-- `#struct_id::#offset` -/
def slotExpr (n : Str) (f : Ir.Field) : Expr := .path [n, Quote.offsetId f] []

/-- codegen.rs 373-391 `builder_add_calls`. -/
def addCall (f : Ir.Field) : Stmt :=
  let arg : Expr := .field (v c!"args") f.ident
  if f.required || f.ty.isScalar then .expr (.method (v c!"builder") (Rs.addName f) [] [arg])
  else .ifLet (.tuple [c!"Some"] (.path [c!"x"])) arg (.method (v c!"builder") (Rs.addName f) [] [v c!"x"])

/-- codegen.rs 402-413, 529-540: the type of an argument, not yet optional. -/
def argTy (ns : Option QIdent) (ty : Ir.Ty) (l : Str) : Option Ty :=
  if ty.isUnion then some (wip (.path [c!"butte", c!"UnionWIPOffset"] false []))
  else typeToken ns ty l (some wipPath) true

/-- codegen.rs 394-435 `args_fields`. -/
def argField [FloatText] (ns : Option QIdent) (f : Ir.Field) : Option Field := do
  let t ← argTy ns f.ty c!"a"
  let doc ← defaultDoc f.ty f.default
  return ⟨doc ++ allowAttr f.ty, true, f.ident, if f.required || f.ty.isScalar then t else optionTy t⟩

/-- codegen.rs 437-439: whether the arguments have a lifetime. -/
def hasLife (fs : List Ir.Field) : Bool := fs.any fun f => !(f.ty.isScalar || f.ty.isUnion)

/-- `#args#args_lifetime` -/
def argsTy (n : Str) (fs : List Ir.Field) (l : Str) : Ty := .path [n ++ c!"Args"] false (if hasLife fs then [.life l] else [])
@[inherit_doc argsTy]
def argsGenerics (fs : List Ir.Field) : List GParam := if hasLife fs then [.life c!"a" none] else []

/-- codegen.rs 465-494: the default of one argument, of type `t`. -/
def argDefaultExpr (f : Ir.Field) (t : Ty) : Option Expr :=
  if !f.ty.isScalar then some (v c!"None")
  else
    match f.default with
    | some (.ident i) => if f.ty.isEnum then (formatIdent i).map fun n => .qpath t none n else none
    | some (.scalar s) => if f.ty.isEnum then none else (fmtLit s t).map .lit
    | none => some (.call (.qpath t none c!"default") [])

/-- codegen.rs 457-496 `args_fields_defaults` (464: only a scalar has its type written here). -/
def argDefault (ns : Option QIdent) (f : Ir.Field) : Option (Str × Option Expr) := do
  let t ← typeToken ns f.ty c!"_" none false
  let e ← argDefaultExpr f t
  return (f.ident, some e)

/-- codegen.rs 542-551: the body of an `add_` method. -/
def addBody (n : Str) (f : Ir.Field) (t : Ty) : Option Expr :=
  let fbb : Expr := .field (v c!"self") c!"fbb"
  let always : Expr := .method fbb c!"push_slot_always" [.ty t] [slotExpr n f, v f.ident]
  if f.ty.isScalar then
    match f.default with
    | some d => (defaultValue t d).map fun e => .method fbb c!"push_slot" [.ty t] [slotExpr n f, v f.ident, e]
    | none => some always
  else some always

/-- codegen.rs 512-560 `builder_field_methods`. -/
def addMethod (n : Str) (ns : Option QIdent) (f : Ir.Field) : Option Fn := do
  let t ← argTy ns f.ty c!"b"
  let body ← addBody n f t
  return ⟨inlineAttr :: allowAttr f.ty, false, Rs.addName f, [], [.refSelf true, .named f.ident t], none, [.expr body], none⟩

/-- codegen.rs 562-568 `field_offset_constants`. -/
def slotConst (gm : Mode) (i : Nat) (f : Ir.Field) : Option ImplItem := do
  let s ← Gen.slotOf gm i
  return .const true (Quote.offsetId f) (.path [c!"butte", c!"VOffsetT"] false []) (.int s.val c!"u16")

/-- `butte::Error::RequiredFieldMissing(#snake_name_str)` -/
def missing (snake : Str) : Expr := .call (.path [c!"butte", c!"Error", c!"RequiredFieldMissing"] []) [.lit (.str snake)]

/-- `self.table.get::<#ty>(#struct_id::#offset_name, #default)` -/
def getExpr (n : Str) (f : Ir.Field) (w : Ty) (d : Expr) : Expr :=
  .method (.field (v c!"self") c!"table") c!"get" [.ty w] [slotExpr n f, d]

/-- codegen.rs 627-645: one arm of the accessor of a required union. -/
def requiredArm (n : Str) (ns : Option QIdent) (f : Ir.Field) (snake : Str) (u e : List Str) (x : Ir.UnionVariant) :
    Option (Pat × Expr) := do
  let w ← typeToken ns x.ty c!"_" (some fwdPath) true
  let i ← formatIdent x.ident
  return (.path (e ++ [i]), .call (.path (u ++ [i]) [])
    [.try (.method (.try (getExpr n f w (v c!"None"))) c!"ok_or" [] [missing snake])])

/-- codegen.rs 656-674: one arm of the accessor of an optional union. -/
def optionalArm (n : Str) (ns : Option QIdent) (f : Ir.Field) (u e : List Str) (x : Ir.UnionVariant) : Option (Pat × Expr) := do
  let w ← typeToken ns x.ty c!"_" (some fwdPath) true
  let i ← formatIdent x.ident
  return (.tuple [c!"Some"] (.path (e ++ [i])), .method (.try (getExpr n f w (v c!"None"))) c!"map" [] [.path (u ++ [i]) []])

/-- codegen.rs 596-601: the default that an accessor passes on. -/
def getDefault (w : Ty) : Option Ast.DefaultValue → Option Expr
  | some d => (defaultValue w d).map fun e => .call (v c!"Some") [e]
  | none => some (v c!"None")

/-- codegen.rs 651, 681: the arm for an absent union. -/
def lastArm (required : Bool) (e : List Str) (snake : Str) : Pat × Expr :=
  if required then (.path (e ++ [c!"None"]), .ret (.call (v c!"Err") [missing snake]))
  else (.or (.path [c!"None"]) (.tuple [c!"Some"] (.path (e ++ [c!"None"]))), v c!"None")

/-- codegen.rs 608-685: the body of the accessor of a union. -/
def unionBody (n : Str) (ns : Option QIdent) (f : Ir.Field) (snake : Str) (q en : QIdent) (vs : List Ir.UnionVariant) :
    Option Expr := do
  let u ← pathTokens (QIdent.relative q ns)
  let e ← pathTokens (QIdent.relative en ns)
  let tag ← formatIdent (Heck.snake f.ident ++ c!"_type")
  let arms ← vs.mapM fun x => if f.required then requiredArm n ns f snake u e x else optionalArm n ns f u e x
  return .call (v c!"Ok") [.match (.try (.method (v c!"self") tag [] [])) (arms ++ [lastArm f.required e snake])]

/-- codegen.rs 686-707: the body of any other accessor. -/
def plainBody (n : Str) (f : Ir.Field) (snake : Str) (w : Ty) (d : Expr) : Expr :=
  if f.required then .method (.try (getExpr n f w d)) c!"ok_or" [] [missing snake] else getExpr n f w d

/-- The signature that all accessors have. -/
def accessorFn (attrs : List Attr) (f : Ir.Field) (snake : Str) (ret : Ty) (body : Expr) : Fn :=
  ⟨attrs, true, snake, [], [.refSelf false], some (resultTy (if f.required then ret else optionTy ret)), [], some body⟩

/-- codegen.rs 570-708 `field_accessors`: the accessor of a union is not documented (647, 677). -/
def accessor (n : Str) (ns : Option QIdent) (f : Ir.Field) : Option Fn := do
  let snake ← formatIdent (Heck.snake f.ident)
  let ret ← typeToken ns f.ty c!"_" (some fwdPath) false
  let w ← typeToken ns f.ty c!"_" (some fwdPath) true
  let d ← getDefault w f.default
  match f.ty with
  | .union q en vs => do
    let body ← unionBody n ns f snake q en vs
    return accessorFn [inlineAttr] f snake ret body
  | _ => some (accessorFn (comment f.doc ++ inlineAttr :: allowAttr f.ty) f snake ret (plainBody n f snake w d))

/-- codegen.rs 710-719 `required_fields`. -/
def requiredCheck (n : Str) (f : Ir.Field) : Stmt :=
  .expr (.method (.field (v c!"self") c!"fbb") c!"required" [] [v c!"o", slotExpr n f, .lit (.str (Heck.snake f.ident))])

/-- codegen.rs 722-726. -/
def tableStruct (n : Str) (doc : Ast.Comment) : Item :=
  .struct (deriveAttr [c!"Copy", c!"Clone", c!"Debug", c!"PartialEq"] :: comment doc) true n [.ty c!"B"]
    [⟨[], false, c!"table", tableB⟩] true

/-- `Self { table }` -/
def selfTable : Expr := .struct [c!"Self"] [(c!"table", none)]
/-- `Ok(e)` -/
def ok (e : Expr) : Expr := .call (v c!"Ok") [e]

/-- codegen.rs 728-732. -/
def tableFrom (n : Str) : Item :=
  .impl [.ty c!"B"] (some (.path [c!"From"] false [.ty tableB])) (ofB n) []
    [.fn ⟨[], false, c!"from", [], [.named c!"table" tableB], some selfTy, [], some selfTable⟩]

/-- codegen.rs 734-738. -/
def tableInto (n : Str) : Item :=
  .impl [.ty c!"B"] (some (.path [c!"From"] false [.ty (ofB n)])) tableB []
    [.fn ⟨[], false, c!"from", [], [.named c!"s" (ofB n)], some selfTy, [], some (.field (v c!"s") c!"table")⟩]

/-- codegen.rs 744-751 `create`. -/
def createFn (n : Str) (fs : List Ir.Field) : Fn :=
  ⟨[], true, c!"create", [.life c!"bldr" (some c!"args"), .life c!"args" (some c!"mut_bldr"), .life c!"mut_bldr" none],
    [.named c!"fbb" (fbbTy c!"mut_bldr" c!"bldr"), .named c!"args" (.ref (some c!"args") false (argsTy n fs c!"args"))],
    some (wip (ofBytes n (some c!"bldr"))),
    .let true c!"builder" (.call (.path [n ++ c!"Builder", c!"new"] []) [v c!"fbb"]) :: fs.map addCall,
    some (.method (v c!"builder") c!"finish" [] [])⟩

/-- codegen.rs 740-752. -/
def tableCreate (n : Str) (consts : List ImplItem) (fs : List Ir.Field) : Item :=
  .impl [.life c!"a" none] none (ofBytes n (some c!"a")) [] (consts ++ [.fn (createFn n fs)])

/-- `where B: std::convert::AsRef<[u8]>` -/
def asRef : List (Str × Ty) :=
  [(c!"B", .path [c!"std", c!"convert", c!"AsRef"] false [.ty (.slice (word c!"u8"))])]

/-- codegen.rs 762-765 `get_root`. -/
def getRootFn : Fn :=
  ⟨[], true, c!"get_root", [], [.named c!"buf" (word c!"B")], some (resultTy selfTy),
    [.let false c!"table" (.try (.call (.path [c!"butte", c!"Table", c!"get_root"] []) [v c!"buf"]))], some (ok selfTable)⟩

/-- codegen.rs 755-766. -/
def tableAccess (n : Str) (accs : List Fn) : Item :=
  .impl [.ty c!"B"] none (ofB n) asRef (accs.map .fn ++ [.fn getRootFn])

/-- `let table = butte::Table::new(buf, loc);` -/
def newTable : Stmt := .let false c!"table" (.call (.path [c!"butte", c!"Table", c!"new"] []) [v c!"buf", v c!"loc"])

/-- `butte::Follow<'a>` -/
def followTy : Ty := .path [c!"butte", c!"Follow"] false [.life c!"a"]
/-- `Result<Self::Inner, butte::Error>` -/
def innerResult : Ty := resultTy (.path [c!"Self", c!"Inner"] false [])

/-- codegen.rs 768-776 `Follow`. -/
def tableFollow (n : Str) : Item :=
  .impl [.life c!"a" none] (some followTy) (ofBytes n (some c!"a")) []
    [.type c!"Inner" selfTy,
      .fn ⟨[inlineAttr], false, c!"follow", [], [.named c!"buf" (bytes (some c!"a")), .named c!"loc" (word c!"usize")],
        some innerResult, [newTable], some (ok selfTable)⟩]

/-- codegen.rs 778-790 `FollowBuf`. -/
def tableFollowBuf (n : Str) : Item :=
  .impl [.ty c!"B"] (some (.path [c!"butte", c!"FollowBuf"] false [])) (ofB n) asRef
    [.type c!"Buf" (word c!"B"), .type c!"Inner" selfTy,
      .fn ⟨[inlineAttr], false, c!"follow_buf", [],
        [.named c!"buf" (.path [c!"Self", c!"Buf"] false []), .named c!"loc" (word c!"usize")],
        some innerResult, [newTable], some (ok selfTable)⟩]

/-- codegen.rs 792-795. -/
def argsStruct (n : Str) (fs : List Ir.Field) (args : List Field) : Item :=
  .struct [] true (n ++ c!"Args") (argsGenerics fs) args false

/-- codegen.rs 497-505. -/
def argsDefault (n : Str) (fs : List Ir.Field) (ds : List (Str × Option Expr)) : Item :=
  .impl (argsGenerics fs) (some (word c!"Default")) (argsTy n fs c!"a") []
    [.fn ⟨[], false, c!"default", [], [], some selfTy, [], some (.struct [c!"Self"] ds)⟩]

/-- codegen.rs 456-508 `args_default_impl`. -/
def defaultItems (n : Str) (ns : Option QIdent) (fs : List Ir.Field) : Option (List Item) :=
  if Rs.canDefault fs then (fs.mapM (argDefault ns)).map fun ds => [argsDefault n fs ds] else some []

/-- codegen.rs 799-803. -/
def builderStruct (n : Str) : Item :=
  .struct [] true (n ++ c!"Builder") [.life c!"a" none, .life c!"b" none]
    [⟨[], false, c!"fbb", fbbTy c!"b" c!"a"⟩,
      ⟨[], false, c!"start", wip (.path [c!"butte", c!"TableUnfinishedWIPOffset"] false [])⟩] true

/-- codegen.rs 808-814 `new`. -/
def newFn (n : Str) : Fn :=
  ⟨[inlineAttr], true, c!"new", [], [.named c!"fbb" (fbbTy c!"b" c!"a")], some selfTy,
    [.let false c!"start" (.method (v c!"fbb") c!"start_table" [] [])],
    some (.struct [n ++ c!"Builder"] [(c!"fbb", none), (c!"start", none)])⟩

/-- codegen.rs 816-821 `finish`. -/
def finishFn (n : Str) (fs : List Ir.Field) : Fn :=
  ⟨[inlineAttr], true, c!"finish", [], [.self], some (wip (ofBytes n (some c!"a"))),
    .let false c!"o" (.method (.field (v c!"self") c!"fbb") c!"end_table" [] [.field (v c!"self") c!"start"]) ::
      (fs.filter (·.required)).map (requiredCheck n),
    some (.call (.path (wipPath ++ [c!"new"]) []) [.method (v c!"o") c!"value" [] []])⟩

/-- codegen.rs 805-822. -/
def builderImpl (n : Str) (adds : List Fn) (fs : List Ir.Field) : Item :=
  .impl [.life c!"a" (some c!"b"), .life c!"b" none] none (.path [n ++ c!"Builder"] false [.life c!"a", .life c!"b"]) []
    (adds.map .fn ++ [.fn (newFn n), .fn (finishFn n fs)])

/-- codegen.rs 359-826 `ToTokens for ir::Table`. -/
def table [FloatText] (gm : Mode) (t : Ir.Table) : Option (List Item) := do
  let ns := QIdent.namespace t.ident
  let n ← formatIdent (QIdent.simple t.ident)
  let _ ← t.fields.mapM fun f => formatIdent f.ident
  let args ← t.fields.mapM (argField ns)
  let dflt ← defaultItems n ns t.fields
  let adds ← t.fields.mapM (addMethod n ns)
  let consts ← (List.zipIdx t.fields).mapM fun x => slotConst gm x.2 x.1
  let accs ← t.fields.mapM (accessor n ns)
  return [tableStruct n t.doc, tableFrom n, tableInto n, tableCreate n consts t.fields, tableAccess n accs, tableFollow n,
      tableFollowBuf n, argsStruct n t.fields args] ++ dflt ++ [builderStruct n, builderImpl n adds t.fields]

/-- codegen.rs 914-934 `variants_and_scalars`: name, value and documentation. -/
def variantLit (base : Str) (x : Ir.EnumVariant × Nat) : Option (Str × Lit × Ast.Comment) := do
  let i ← formatIdent x.1.ident
  return (i, .int (x.1.value.getD x.2) base, x.1.doc)

/-- codegen.rs 967-974. -/
def enumItem (n base : Str) (doc : Ast.Comment) (vs : List (Str × Lit × Ast.Comment)) : Item :=
  .enum ([⟨c!"repr", .list [[base]]⟩, ⟨c!"allow", .list [[c!"non_camel_case_types"]]⟩,
      deriveAttr [c!"Clone", c!"Copy", c!"PartialEq", c!"Eq", c!"PartialOrd", c!"Ord", c!"Hash", c!"Debug"]] ++ comment doc)
    true n [] (vs.map fun x => ⟨comment x.2.2, x.1, .value x.2.1⟩)

/-- codegen.rs 903-910: the first variant. -/
def enumDefaultValue (n : Str) : List (Str × Lit × Ast.Comment) → Option Expr
  | [] => none
  | x :: _ => some (.path [n, x.1] [])

/-- codegen.rs 976-980. -/
def enumDefault (n : Str) (vs : List (Str × Lit × Ast.Comment)) : Item :=
  .impl [] (some (word c!"Default")) (word n) []
    [.fn ⟨[], false, c!"default", [], [], some selfTy, [], enumDefaultValue n vs⟩]

/-- `std::convert::TryFrom<base>` -/
def tryFromTy (base : Str) : Ty := .path [c!"std", c!"convert", c!"TryFrom"] false [.ty (word base)]

/-- codegen.rs 982-989. -/
def enumFollow (n base : Str) : Item :=
  .impl [.life c!"a" none] (some followTy) (word n) []
    [.type c!"Inner" selfTy,
      .fn ⟨[], false, c!"follow", [], [.named c!"buf" (bytes (some c!"a")), .named c!"loc" (word c!"usize")], some innerResult,
        [.let false c!"scalar" (.try (.call (.path [c!"butte", c!"read_scalar_at"] [.ty (word base)]) [v c!"buf", v c!"loc"]))],
        some (.call (.qpath selfTy (some (tryFromTy base)) c!"try_from") [v c!"scalar"])⟩]

/-- codegen.rs 991-999. -/
def enumTryFrom (n base : Str) (vs : List (Str × Lit × Ast.Comment)) : Item :=
  .impl [] (some (tryFromTy base)) (word n) []
    [.type c!"Error" errorTy,
      .fn ⟨[], false, c!"try_from", [], [.named c!"value" (word base)],
        some (.path [c!"Result"] false [.ty selfTy, .ty (.path [c!"Self", c!"Error"] false [])]), [],
        some (.match (v c!"value") (vs.map (fun x => (Pat.lit x.2.1, ok (.qpath (word n) none x.1))) ++
          [(.wild, .call (v c!"Err") [.path [c!"butte", c!"Error", c!"UnknownEnumVariant"] []])]))⟩]

/-- codegen.rs 1001-1007. -/
def enumInto (n base : Str) (vs : List (Str × Lit × Ast.Comment)) : Item :=
  .impl [] (some (.path [c!"From"] false [.ty (word n)])) (word base) []
    [.fn ⟨[], false, c!"from", [], [.named c!"value" (word n)], some (word base), [],
      some (.match (v c!"value") (vs.map fun x => (Pat.qpath (word n) x.1, .lit x.2.1)))⟩]

/-- codegen.rs 1009-1017. -/
def enumPush (n base : Str) : Item :=
  .impl [] (some (.path [c!"butte", c!"Push"] false [])) (word n) []
    [.type c!"Output" selfTy,
      .fn ⟨[inlineAttr], false, c!"push", [],
        [.refSelf false, .named c!"dst" (.ref none true (.slice (word c!"u8"))), .named c!"_rest" (bytes none)], none,
        [.let false c!"scalar" (.call (.qpath (word base) none c!"from") [.deref (v c!"self")]),
          .expr (.call (.path [c!"butte", c!"emplace_scalar"] [.ty (word base)]) [v c!"dst", v c!"scalar"])], none⟩]

/-- codegen.rs 1019-1023. -/
def enumName (n : Str) (vs : List (Str × Lit × Ast.Comment)) : Item :=
  .fn ⟨[], true, c!"enum_name_" ++ Heck.snake n, [], [.named c!"e" (word n)], some (.ref (some c!"static") false (word c!"str")), [],
    some (.match (v c!"e") (vs.map fun x => (Pat.path [n, x.1], .lit (.str x.1))))⟩

/-- codegen.rs 883-1027 `ToTokens for ir::Enum`. -/
def «enum» (e : Ir.Enum) : Option (List Item) := do
  let n ← formatIdent (QIdent.simple e.ident)
  let base := Rs.baseName e.base
  let vs ← (List.zipIdx e.variants).mapM (variantLit base)
  return [enumItem n base e.doc vs, enumDefault n vs, enumFollow n base, enumTryFrom n base vs, enumInto n base vs,
    enumPush n base, enumName n vs]

/-- codegen.rs 1045-1058 `names_to_union_variant`. -/
def unionVariant (ns : Option QIdent) (x : Ir.UnionVariant) : Option Variant := do
  let i ← formatIdent x.ident
  let t ← typeToken ns x.ty c!"a" none false
  return ⟨comment x.doc, i, .tuple t⟩

/-- codegen.rs 1074-1078. -/
def unionItem (n : Str) (doc : Ast.Comment) (vs : List Variant) : Item :=
  .enum (deriveAttr [c!"Copy", c!"Clone", c!"Debug", c!"PartialEq"] :: comment doc) true n [.life c!"a" none] vs

/-- codegen.rs 1081-1087. -/
def unionImpl (n : Str) (e : List Str) (vs : List Ir.UnionVariant) : Item :=
  .impl [] none (.path [n] false [.life c!"_"]) []
    [.fn ⟨[], true, c!"get_type", [], [.refSelf false], some (.path e false []), [],
      some (.match (v c!"self") (vs.map fun x => (Pat.rest [n, x.ident], .path (e ++ [x.ident]) [])))⟩]

/-- codegen.rs 1029-1092 `ToTokens for ir::Union`. -/
def union (u : Ir.Union) : Option (List Item) := do
  let ns := QIdent.namespace u.ident
  let n ← formatIdent (QIdent.simple u.ident)
  let e ← pathTokens (QIdent.relative u.enumIdent ns)
  let vs ← u.variants.mapM (unionVariant ns)
  return [unionItem n u.doc vs, unionImpl n e u.variants]

mutual
/-- codegen.rs 1114-1153 `node_to_tokens`. -/
def node [FloatText] (gm : Mode) : Ir.Node → Option (List Item)
  | .table t => table gm t
  | .struct _ => none
  | .enum e => «enum» e
  | .union u => union u
  | .rpc _ => some []
  | .namespace i ns => do
    let m ← formatIdent (Heck.snake (QIdent.simple i))
    let items ← nodes gm ns
    return [.mod true m items]
/-- codegen.rs 1106-1112 `build_tokens`, and 1136-1138 for the contents of a module. -/
def nodes [FloatText] (gm : Mode) : List Ir.Node → Option (List Item)
  | [] => some []
  | n :: ns => do
    let a ← node gm n
    let b ← nodes gm ns
    return a ++ b
end

end Butte.Src.Full
