import Verif.Src.Print
import Verif.Rs.Emit
/-
The code generator, butte-build/src/codegen.rs, token by token: every `quote!` of it, with the text copied. `none`: the
generator panics. Names follow the source.
-/
-- the linter does not see the names inside `quote!`
set_option linter.unusedVariables false

namespace Butte.Src
open Ir (QIdent)
open Gen (formatIdent)
open Rs (pathTokens Lit)

/-- How numbers are written in documentation (the text of a float literal; printing floats is not modelled). -/
class FloatText where
  text : Fin (2 ^ 64) → Str → Str

namespace Quote

/-- codegen.rs 104-124: the primitive arms of `to_type_token`. -/
def builtin : Ast.Builtin → Toks
  | .bool => quote! "bool"
  | .byte => quote! "i8"
  | .ubyte => quote! "u8"
  | .short => quote! "i16"
  | .ushort => quote! "u16"
  | .int => quote! "i32"
  | .uint => quote! "u32"
  | .float => quote! "f32"
  | .long => quote! "i64"
  | .ulong => quote! "u64"
  | .double => quote! "f64"
  | .int8 => quote! "i8"
  | .uint8 => quote! "u8"
  | .int16 => quote! "i16"
  | .uint16 => quote! "u16"
  | .int32 => quote! "i32"
  | .uint32 => quote! "u32"
  | .int64 => quote! "i64"
  | .uint64 => quote! "u64"
  | .float32 => quote! "f32"
  | .float64 => quote! "f64"

/-- codegen.rs 83-101: the lifetime of references. -/
def refLifetime : Toks → Toks
  | [.life l] => if l = c!"_" then [] else [.life l]
  | _ => []

/-- codegen.rs 872-881 `ToTokens for ir::QualifiedIdent`. -/
def path (q : QIdent) : Option Toks := (pathTokens q).map printPath

/-- codegen.rs 76-172 `to_type_token`. -/
def typeToken (ns : Option QIdent) : Ir.Ty → Toks → Toks → Bool → Option Toks
  | .builtin b, _, _, _ => some (builtin b)
  | .string, lifetime, wrap_tokens, wrap_outer =>
    let ref_lifetime := refLifetime lifetime
    some (if wrap_tokens.isEmpty || !wrap_outer then quote! "&#ref_lifetime str"
      else quote! "#wrap_tokens::<&#ref_lifetime str>")
  | .array ty, lifetime, wrap_tokens, wrap_outer => do
    let component_token ← typeToken ns ty lifetime (quote! "butte::ForwardsUOffset") true
    let ty := quote! "butte::Vector<#lifetime, #component_token>"
    return if wrap_tokens.isEmpty || !wrap_outer then ty else quote! "#wrap_tokens::<#ty>"
  | .table q, lifetime, wrap_tokens, wrap_outer => do
    let ref_lifetime := refLifetime lifetime
    let ident ← path (QIdent.relative q ns)
    let ty := quote! "#ident<&#ref_lifetime [u8]>"
    return if wrap_tokens.isEmpty || !wrap_outer then ty else quote! "#wrap_tokens::<#ty>"
  | .union q _ _, lifetime, wrap_tokens, wrap_outer => do
    let ident ← path (QIdent.relative q ns)
    let ty := quote! "#ident<#lifetime>"
    return if wrap_tokens.isEmpty || !wrap_outer then ty else quote! "#wrap_tokens::<#ty>"
  | .struct q _, _, _, _ | .enum q _ _, _, _, _ => do
    let ident ← path (QIdent.relative q ns)
    return quote! "#ident"

/-- The text of tokens as the suffix of a literal: `syn` refuses what is no single word. -/
def suffix : Toks → Option Str
  | [.ident s] => some s
  | _ => none

/-- codegen.rs 182-202 `fmt_lit`, and the booleans (214). -/
def fmtLit (s : Ast.Scalar) (ty : Toks) : Option Lit :=
  match s with
  | .integer i => do
    let t ← suffix ty
    return .int i t
  | .float x => do
    let t ← suffix ty
    if f64Finite x && (t != c!"f32" || decide (f64ToF32 x % 2 ^ 31 < 255 * 2 ^ 23)) then some (.float x t) else none
  | .boolean b => some (.bool b)

/-- codegen.rs 205-222 `to_default_value`. -/
def defaultValue (arg_ty : Toks) : Ast.DefaultValue → Option Toks
  | .scalar s => do
    let l ← fmtLit s arg_ty
    return printLit l
  | .ident i => do
    let variant ← formatIdent i
    return quote! "<#arg_ty>::#variant"

/-- The text of a literal. -/
def litText [FloatText] : Lit → Str
  | .int i s => (toString i).toList ++ s
  | .float b s => FloatText.text b s
  | .bool b => (toString b).toList
  | .str s => s

/-- ir/types.rs 586-591 `Display for QualifiedIdent`. -/
def qidentText : QIdent → Str
  | [] => []
  | [s] => s
  | s :: t :: q => s ++ c!"." ++ qidentText (t :: q)

/-- ir/types.rs 226-255 `Display for Type`. -/
def typeText : Ir.Ty → Str
  | .builtin b => Rs.builtinName b
  | .string => c!"&str"
  | .array t => c!"[" ++ typeText t ++ c!"]"
  | .table q | .struct q _ | .enum q _ _ | .union q _ _ => qidentText q

/-- codegen.rs 233-246: a default as it is documented. -/
def defaultText [FloatText] (ty : Ir.Ty) : Ast.DefaultValue → Option Str
  | .scalar (.boolean b) => some (litText (.bool b))
  | .scalar s => do
    let t ← typeToken none ty (quote! "") (quote! "") false
    let l ← fmtLit s t
    return litText l
  | .ident i => some (typeText ty ++ c!"::" ++ i)

/-- codegen.rs 225-251 `to_default_value_doc`. -/
def defaultValueDoc [FloatText] (ty : Ir.Ty) : Option Ast.DefaultValue → Option Toks
  | none => some (quote! "")
  | some d => do
    let doc_value ← defaultText ty d
    let doc_string : Toks := [.str (c!" The default value for this field is __" ++ doc_value ++ c!"__")]
    return quote! "#[doc = #doc_string]"

/-- codegen.rs 860-870 `ToTokens for ast::Comment`. -/
def comment (lines : Ast.Comment) : Toks :=
  lines.reverse.foldl (fun docs l => let line : Toks := [.str l]; quote! "#[doc = #line] #docs") (quote! "")

/-- codegen.rs 355-357 `offset_id`. -/
def offsetId (field : Ir.Field) : Str := c!"VT_" ++ Heck.shouty field.ident

/-- ir/types.rs 207-209 `is_complex`, 202-205 `is_array`. -/
def isComplex : Ir.Ty → Bool
  | .array _ => true
  | _ => false

/-- codegen.rs 420-424, 524-528, 602-606. -/
def allowTypeComplexity (ty : Ir.Ty) : Toks :=
  if isComplex ty then quote! "#[allow(clippy::type_complexity)]" else quote! ""

/-- codegen.rs 373-391 `builder_add_calls`. -/
def builderAddCall (f : Ir.Field) : Toks :=
  let field_id := f.ident
  let add_field_method := c!"add_" ++ f.ident
  if f.required || f.ty.isScalar then quote! "builder.#add_field_method(args.#field_id);"
  else quote! "
    if let Some(x) = args.#field_id { builder.#add_field_method(x); }
  "

/-- codegen.rs 402-413, 529-540: the type of an argument, not yet optional. -/
def argTy (ns : Option QIdent) (ty : Ir.Ty) (lifetime : Toks) : Option Toks :=
  if ty.isUnion then some (quote! "butte::WIPOffset<butte::UnionWIPOffset>")
  else typeToken ns ty lifetime (quote! "butte::WIPOffset") true

/-- codegen.rs 394-435 `args_fields`. -/
def argsField [FloatText] (ns : Option QIdent) (f : Ir.Field) : Option Toks := do
  let field_id := f.ident
  let arg_ty ← argTy ns f.ty (quote! "'a")
  let arg_ty := if f.required || f.ty.isScalar then arg_ty else quote! "Option<#arg_ty>"
  let allow_type_complexity := allowTypeComplexity f.ty
  let default_doc ← defaultValueDoc f.ty f.default
  return quote! "
    #default_doc
    #allow_type_complexity
    pub #field_id: #arg_ty
  "

/-- codegen.rs 436-447 `args_lifetime`. -/
def argsLifetime (fields : List Ir.Field) (lifetime_name : Toks) : Toks :=
  if fields.any fun f => !(f.ty.isScalar || f.ty.isUnion) then quote! "<#lifetime_name>" else quote! ""

/-- codegen.rs 457-496 `args_fields_defaults`. -/
def argsFieldDefault (ns : Option QIdent) (f : Ir.Field) : Option Toks := do
  let field_id := f.ident
  let arg_ty ← typeToken ns f.ty (quote! "") (quote! "") false
  if !f.ty.isScalar then
    some (quote! "#field_id: None")
  else
    match f.default with
    | some d =>
      if f.ty.isEnum then
        match d with
        | .ident i => do
          let default_name ← formatIdent i
          some (quote! "#field_id: <#arg_ty>::#default_name")
        | _ => none
      else
        match d with
        | .scalar s => do
          let l ← fmtLit s arg_ty
          let default_val := printLit l
          some (quote! "#field_id: #default_val")
        | _ => none
    | none => some (quote! "#field_id: <#arg_ty>::default()")

/-- codegen.rs 449-508 `args_default_impl`. -/
def argsDefaultImpl (ns : Option QIdent) (args : Str) (args_lifetime_a : Toks) (fields : List Ir.Field) : Option Toks :=
  if fields.all fun f => !f.required || f.ty.isScalar then do
    let args_fields_defaults ← fields.mapM (argsFieldDefault ns)
    return quote! "
      impl#args_lifetime_a Default for #args#args_lifetime_a {
          fn default() -> Self {
              Self {
                  #(#args_fields_defaults),*
              }
          }
      }
    "
  else some (quote! "")

/-- codegen.rs 542-551: the body of an `add_` method. -/
def addBody (struct_id : Str) (f : Ir.Field) (arg_ty : Toks) : Option Toks :=
  let field_id := f.ident
  let offset := offsetId f
  let field_offset := quote! "#struct_id::#offset"
  if f.ty.isScalar then
    match f.default with
    | some d => do
      let default_value ← defaultValue arg_ty d
      return quote! "self.fbb.push_slot::<#arg_ty>(#field_offset, #field_id, #default_value)"
    | none => some (quote! "self.fbb.push_slot_always::<#arg_ty>(#field_offset, #field_id)")
  else some (quote! "self.fbb.push_slot_always::<#arg_ty>(#field_offset, #field_id)")

/-- codegen.rs 512-560 `builder_field_methods`. -/
def builderFieldMethod (struct_id : Str) (ns : Option QIdent) (f : Ir.Field) : Option Toks := do
  let field_id := f.ident
  let add_method_name := c!"add_" ++ f.ident
  let allow_type_complexity := allowTypeComplexity f.ty
  let arg_ty ← argTy ns f.ty (quote! "'b")
  let body ← addBody struct_id f arg_ty
  return quote! "
    #[inline]
    #allow_type_complexity
    fn #add_method_name(&mut self, #field_id: #arg_ty) {
        #body;
    }
  "

/-- codegen.rs 562-568 `field_offset_constants`. -/
def fieldOffsetConstant (gm : Mode) (index : Nat) (f : Ir.Field) : Option Toks := do
  let offset_name := offsetId f
  let s ← Gen.slotOf gm index
  let offset_value : Toks := [.int s.val c!"u16"]
  return quote! "
    pub const #offset_name: butte::VOffsetT = #offset_value;
  "

/-- codegen.rs 627-645: one arm of the accessor of a required union. -/
def requiredArm (struct_id : Str) (ns : Option QIdent) (f : Ir.Field) (snake_name_str union_ident enum_ident : Toks)
    (v : Ir.UnionVariant) : Option Toks := do
  let offset_name := offsetId f
  let variant_ty_wrapped ← typeToken ns v.ty (quote! "'_") (quote! "butte::ForwardsUOffset") true
  let variant_ident ← formatIdent v.ident
  return quote! "
    #enum_ident::#variant_ident => #union_ident::#variant_ident(self.table
        .get::<#variant_ty_wrapped>(#struct_id::#offset_name, None)?
        .ok_or(butte::Error::RequiredFieldMissing(#snake_name_str))?)
  "

/-- codegen.rs 656-674: one arm of the accessor of an optional union. -/
def optionalArm (struct_id : Str) (ns : Option QIdent) (f : Ir.Field) (union_ident enum_ident : Toks) (v : Ir.UnionVariant) :
    Option Toks := do
  let offset_name := offsetId f
  let variant_ty_wrapped ← typeToken ns v.ty (quote! "'_") (quote! "butte::ForwardsUOffset") true
  let variant_ident ← formatIdent v.ident
  return quote! "
    Some(#enum_ident::#variant_ident) => self.table
        .get::<#variant_ty_wrapped>(#struct_id::#offset_name, None)?
        .map(#union_ident::#variant_ident)
  "

/-- codegen.rs 596-601: the default that an accessor passes on. -/
def getDefault (ty_wrapped : Toks) : Option Ast.DefaultValue → Option Toks
  | some d => do
    let default_value ← defaultValue ty_wrapped d
    return quote! "Some(#default_value)"
  | none => some (quote! "None")

/-- codegen.rs 608-685: the accessor of a union. -/
def unionAccessor (struct_id : Str) (ns : Option QIdent) (f : Ir.Field) (snake_name : Str) (ty_ret : Toks) (q en : QIdent)
    (variants : List Ir.UnionVariant) : Option Toks := do
  let snake_name_str : Toks := [.str snake_name]
  let union_ident ← path (QIdent.relative q ns)
  let enum_ident ← path (QIdent.relative en ns)
  let type_snake_name ← formatIdent (Heck.snake f.ident ++ c!"_type")
  if f.required then
    let names_to_enum_variant ← variants.mapM (requiredArm struct_id ns f snake_name_str union_ident enum_ident)
    some (quote! "
      #[inline]
      pub fn #snake_name(&self) -> Result<#ty_ret, butte::Error> {
          Ok(match self.#type_snake_name()? {
            #(#names_to_enum_variant,)*
            #enum_ident::None => return Err(butte::Error::RequiredFieldMissing(#snake_name_str))
          })
      }
    ")
  else
    let names_to_enum_variant ← variants.mapM (optionalArm struct_id ns f union_ident enum_ident)
    some (quote! "
      #[inline]
      pub fn #snake_name(&self) -> Result<Option<#ty_ret>, butte::Error> {
          Ok(match self.#type_snake_name()? {
            #(#names_to_enum_variant,)*
            None | Some(#enum_ident::None) => None
          })
      }
    ")

/-- codegen.rs 686-707: any other accessor. -/
def plainAccessor (struct_id : Str) (f : Ir.Field) (snake_name : Str) (ty_ret ty_wrapped default_value : Toks) : Toks :=
  let snake_name_str : Toks := [.str snake_name]
  let offset_name := offsetId f
  let doc := comment f.doc
  let allow_type_complexity := allowTypeComplexity f.ty
  if f.required then quote! "
    #doc
    #[inline]
    #allow_type_complexity
    pub fn #snake_name(&self) -> Result<#ty_ret, butte::Error> {
        self.table
            .get::<#ty_wrapped>(#struct_id::#offset_name, #default_value)?
            .ok_or(butte::Error::RequiredFieldMissing(#snake_name_str))
    }
  "
  else quote! "
    #doc
    #[inline]
    #allow_type_complexity
    pub fn #snake_name(&self) -> Result<Option<#ty_ret>, butte::Error> {
        self.table
            .get::<#ty_wrapped>(#struct_id::#offset_name, #default_value)
    }
  "

/-- codegen.rs 570-708 `field_accessors`. -/
def fieldAccessor (struct_id : Str) (ns : Option QIdent) (f : Ir.Field) : Option Toks := do
  let snake_name ← formatIdent (Heck.snake f.ident)
  let ty_ret ← typeToken ns f.ty (quote! "'_") (quote! "butte::ForwardsUOffset") false
  let ty_wrapped ← typeToken ns f.ty (quote! "'_") (quote! "butte::ForwardsUOffset") true
  let default_value ← getDefault ty_wrapped f.default
  match f.ty with
  | .union q en vs => unionAccessor struct_id ns f snake_name ty_ret q en vs
  | _ => some (plainAccessor struct_id f snake_name ty_ret ty_wrapped default_value)

/-- codegen.rs 710-719 `required_fields`. -/
def requiredField (struct_id : Str) (f : Ir.Field) : Toks :=
  let snake_name : Toks := [.str (Heck.snake f.ident)]
  let offset_name := offsetId f
  quote! "
    self.fbb.required(o, #struct_id::#offset_name, #snake_name);
  "

/-! codegen.rs 721-823: the `quote!` of a table, item by item. -/

/-- codegen.rs 722-726. -/
def tableStruct (struct_id : Str) (doc : Toks) : Toks :=
  quote! "
    #[derive(Copy, Clone, Debug, PartialEq)]
    #doc
    pub struct #struct_id<B> {
        table: butte::Table<B>,
    }
  "

/-- codegen.rs 728-732. -/
def tableFrom (struct_id : Str) : Toks :=
  quote! "
    impl<B> From<butte::Table<B>> for #struct_id<B> {
        fn from(table: butte::Table<B>) -> Self {
            Self { table }
        }
    }
  "

/-- codegen.rs 734-738. -/
def tableInto (struct_id : Str) : Toks :=
  quote! "
    impl<B> From<#struct_id<B>> for butte::Table<B> {
        fn from(s: #struct_id<B>) -> Self {
            s.table
        }
    }
  "

/-- codegen.rs 740-752. -/
def tableCreate (struct_id args builder_type : Str) (args_lifetime_args : Toks)
    (field_offset_constants builder_add_calls : List Toks) : Toks :=
  quote! "
    impl<'a> #struct_id<&'a [u8]> {
        // field offset constants
        #(#field_offset_constants)*

        pub fn create<'bldr: 'args, 'args: 'mut_bldr, 'mut_bldr>(
            fbb: &'mut_bldr mut butte::FlatBufferBuilder<'bldr>,
            args: &'args #args#args_lifetime_args
        ) -> butte::WIPOffset<#struct_id<&'bldr [u8]>> {
            let mut builder = #builder_type::new(fbb);
            #(#builder_add_calls)*
            builder.finish()
        }
    }
  "

/-- codegen.rs 755-766. -/
def tableAccess (struct_id : Str) (field_accessors : List Toks) : Toks :=
  quote! "
    impl<B> #struct_id<B>
    where
        B: std::convert::AsRef<[u8]>
    {
        // fields access
        #(#field_accessors)*

        pub fn get_root(buf: B) -> Result<Self, butte::Error> {
            let table = butte::Table::get_root(buf)?;
            Ok(Self { table })
        }
    }
  "

/-- codegen.rs 768-776. -/
def tableFollow (struct_id : Str) : Toks :=
  quote! "
    impl<'a> butte::Follow<'a> for #struct_id<&'a [u8]> {
        type Inner = Self;

        #[inline]
        fn follow(buf: &'a [u8], loc: usize) -> Result<Self::Inner, butte::Error> {
            let table = butte::Table::new(buf, loc);
            Ok(Self { table })
        }
    }
  "

/-- codegen.rs 778-790. -/
def tableFollowBuf (struct_id : Str) : Toks :=
  quote! "
    impl<B> butte::FollowBuf for #struct_id<B>
    where
        B: std::convert::AsRef<[u8]>
    {
        type Buf = B;
        type Inner = Self;

        #[inline]
        fn follow_buf(buf: Self::Buf, loc: usize) -> Result<Self::Inner, butte::Error> {
            let table = butte::Table::new(buf, loc);
            Ok(Self { table })
        }
    }
  "

/-- codegen.rs 792-795. -/
def argsStruct (args : Str) (args_lifetime_a : Toks) (args_fields : List Toks) : Toks :=
  quote! "
    // Builder Args
    pub struct #args#args_lifetime_a {
        #(#args_fields),*
    }
  "

/-- codegen.rs 799-803. -/
def builderStruct (builder_type : Str) : Toks :=
  quote! "
    //// builder
    pub struct #builder_type<'a, 'b> {
        fbb: &'b mut butte::FlatBufferBuilder<'a>,
        start: butte::WIPOffset<butte::TableUnfinishedWIPOffset>,
    }
  "

/-- codegen.rs 805-822. -/
def builderImpl (struct_id builder_type : Str) (builder_field_methods required_fields : List Toks) : Toks :=
  quote! "
    impl<'a: 'b, 'b> #builder_type<'a, 'b> {
        #(#builder_field_methods)*

        #[inline]
        pub fn new(fbb: &'b mut butte::FlatBufferBuilder<'a>) -> Self {
            let start = fbb.start_table();
            #builder_type {
                fbb, start
            }
        }

        #[inline]
        pub fn finish(self) -> butte::WIPOffset<#struct_id<&'a [u8]>> {
            let o = self.fbb.end_table(self.start);
            #(#required_fields)*
            butte::WIPOffset::new(o.value())
        }
    }
  "

/-- codegen.rs 359-826 `ToTokens for ir::Table`. -/
def table [FloatText] (gm : Mode) (t : Ir.Table) : Option Toks := do
  let table_ns := QIdent.namespace t.ident
  let struct_id ← formatIdent (QIdent.simple t.ident)
  let _ ← t.fields.mapM fun f => formatIdent f.ident
  let doc := comment t.doc
  let builder_add_calls := t.fields.map builderAddCall
  let args := struct_id ++ c!"Args"
  let args_fields ← t.fields.mapM (argsField table_ns)
  let args_lifetime_a := argsLifetime t.fields (quote! "'a")
  let args_lifetime_args := argsLifetime t.fields (quote! "'args")
  let args_default_impl ← argsDefaultImpl table_ns args args_lifetime_a t.fields
  let builder_type := struct_id ++ c!"Builder"
  let builder_field_methods ← t.fields.mapM (builderFieldMethod struct_id table_ns)
  let field_offset_constants ← (List.zipIdx t.fields).mapM fun x => fieldOffsetConstant gm x.2 x.1
  let field_accessors ← t.fields.mapM (fieldAccessor struct_id table_ns)
  let required_fields := (t.fields.filter (·.required)).map (requiredField struct_id)
  return tableStruct struct_id doc ++ tableFrom struct_id ++ tableInto struct_id ++
    tableCreate struct_id args builder_type args_lifetime_args field_offset_constants builder_add_calls ++
    tableAccess struct_id field_accessors ++ tableFollow struct_id ++ tableFollowBuf struct_id ++
    argsStruct args args_lifetime_a args_fields ++ args_default_impl ++ builderStruct builder_type ++
    builderImpl struct_id builder_type builder_field_methods required_fields

/-- codegen.rs 836-858 `ToTokens for ir::EnumBaseType`. -/
def enumBase : Ir.EnumBase → Toks
  | .byte => quote! "i8"
  | .ubyte => quote! "u8"
  | .short => quote! "i16"
  | .ushort => quote! "u16"
  | .int => quote! "i32"
  | .uint => quote! "u32"
  | .long => quote! "i64"
  | .ulong => quote! "u64"
  | .int8 => quote! "i8"
  | .uint8 => quote! "u8"
  | .int16 => quote! "i16"
  | .uint16 => quote! "u16"
  | .int32 => quote! "i32"
  | .uint32 => quote! "u32"
  | .int64 => quote! "i64"
  | .uint64 => quote! "u64"

/-- codegen.rs 914-934 `variants_and_scalars`: name, value and documentation. -/
def variantAndScalar (base_type : Toks) (x : Ir.EnumVariant × Nat) : Option (Str × Toks × Toks) := do
  let key ← formatIdent x.1.ident
  let l ← fmtLit (.integer (x.1.value.getD x.2)) base_type
  return (key, printLit l, comment x.1.doc)

/-- codegen.rs 896-901 `names_to_strings`. -/
def nameToString (enum_id : Str) (key : Str) : Toks :=
  let raw_key : Toks := [.str key]
  quote! "
    #enum_id::#key => #raw_key
  "

/-- codegen.rs 939-946 `from_base_to_enum_variants`. -/
def fromBase (enum_id : Str) (x : Str × Toks × Toks) : Toks :=
  let variant_name := x.1
  let scalar_value := x.2.1
  quote! "
    #scalar_value => Ok(<#enum_id>::#variant_name)
  "

/-- codegen.rs 948-955 `from_enum_variant_to_base`. -/
def toBase (enum_id : Str) (x : Str × Toks × Toks) : Toks :=
  let variant_name := x.1
  let scalar_value := x.2.1
  quote! "
    <#enum_id>::#variant_name => #scalar_value
  "

/-- codegen.rs 957-962 `fields`. -/
def enumField (x : Str × Toks × Toks) : Toks :=
  let variant_name := x.1
  let scalar_value := x.2.1
  let doc := x.2.2
  quote! "
    #doc
    #variant_name = #scalar_value
  "

/-- codegen.rs 903-910 `default_value`: the first variant, if there is one. -/
def enumDefault (enum_id : Str) : List (Str × Toks × Toks) → Toks
  | [] => []
  | x :: _ =>
    let key := x.1
    quote! "
      #enum_id::#key
    "

/-! codegen.rs 966-1024: the `quote!` of an enum, item by item. -/

/-- codegen.rs 967-974. -/
def enumItem (enum_id : Str) (base_type doc : Toks) (fields : List Toks) : Toks :=
  quote! "
    // force a C-style enum
    #[repr(#base_type)]
    #[allow(non_camel_case_types)]
    #[derive(Clone, Copy, PartialEq, Eq, PartialOrd, Ord, Hash, Debug)]
    #doc
    pub enum #enum_id {
        #(#fields),*
    }
  "

/-- codegen.rs 976-980. -/
def enumDefaultImpl (enum_id : Str) (default_value : Toks) : Toks :=
  quote! "
    impl Default for #enum_id {
        fn default() -> Self {
            #default_value
        }
    }
  "

/-- codegen.rs 982-989. -/
def enumFollow (enum_id : Str) (base_type : Toks) : Toks :=
  quote! "
    impl<'a> butte::Follow<'a> for #enum_id {
        type Inner = Self;

        fn follow(buf: &'a [u8], loc: usize) -> Result<Self::Inner, butte::Error> {
            let scalar = butte::read_scalar_at::<#base_type>(buf, loc)?;
            <Self as std::convert::TryFrom<#base_type>>::try_from(scalar)
        }
    }
  "

/-- codegen.rs 991-999. -/
def enumTryFrom (enum_id : Str) (base_type : Toks) (from_base_to_enum_variants : List Toks) : Toks :=
  quote! "
    impl std::convert::TryFrom<#base_type> for #enum_id {
        type Error = butte::Error;
        fn try_from(value: #base_type) -> Result<Self, Self::Error> {
            match value {
                #(#from_base_to_enum_variants,)*
                _ => Err(butte::Error::UnknownEnumVariant)
            }
        }
    }
  "

/-- codegen.rs 1001-1007. -/
def enumInto (enum_id : Str) (base_type : Toks) (from_enum_variant_to_base : List Toks) : Toks :=
  quote! "
    impl From<#enum_id> for #base_type {
        fn from(value: #enum_id) -> #base_type {
            match value {
                #(#from_enum_variant_to_base),*
            }
        }
    }
  "

/-- codegen.rs 1009-1017. -/
def enumPush (enum_id : Str) (base_type : Toks) : Toks :=
  quote! "
    impl butte::Push for #enum_id {
        type Output = Self;

        #[inline]
        fn push(&self, dst: &mut [u8], _rest: &[u8]) {
            let scalar = <#base_type>::from(*self);
            butte::emplace_scalar::<#base_type>(dst, scalar);
        }
    }
  "

/-- codegen.rs 1019-1023. -/
def enumName (enum_id enum_id_fn_name : Str) (names_to_strings : List Toks) : Toks :=
  quote! "
    pub fn #enum_id_fn_name(e: #enum_id) -> &'static str {
        match e {
            #(#names_to_strings),*
        }
    }
  "

/-- codegen.rs 883-1027 `ToTokens for ir::Enum`. -/
def «enum» (e : Ir.Enum) : Option Toks := do
  let enum_id ← formatIdent (QIdent.simple e.ident)
  let base_type := enumBase e.base
  let doc := comment e.doc
  let variants_and_scalars ← (List.zipIdx e.variants).mapM (variantAndScalar base_type)
  let names_to_strings := variants_and_scalars.map fun x => nameToString enum_id x.1
  let default_value := enumDefault enum_id variants_and_scalars
  let enum_id_fn_name := c!"enum_name_" ++ Heck.snake enum_id
  let from_base_to_enum_variants := variants_and_scalars.map (fromBase enum_id)
  let from_enum_variant_to_base := variants_and_scalars.map (toBase enum_id)
  let fields := variants_and_scalars.map enumField
  return enumItem enum_id base_type doc fields ++ enumDefaultImpl enum_id default_value ++ enumFollow enum_id base_type ++
    enumTryFrom enum_id base_type from_base_to_enum_variants ++ enumInto enum_id base_type from_enum_variant_to_base ++
    enumPush enum_id base_type ++ enumName enum_id enum_id_fn_name names_to_strings

/-- codegen.rs 1045-1058 `names_to_union_variant`. -/
def unionVariant (union_ns : Option QIdent) (v : Ir.UnionVariant) : Option Toks := do
  let variant_ident ← formatIdent v.ident
  let doc := comment v.doc
  let variant_ty_token ← typeToken union_ns v.ty (quote! "'a") (quote! "") false
  return quote! "
    #doc
    #variant_ident(#variant_ty_token)
  "

/-- codegen.rs 1062-1071 `names_to_enum_variant`. -/
def unionArm (union_id : Str) (enum_id : Toks) (v : Ir.UnionVariant) : Toks :=
  let variant_ident := v.ident
  quote! "
    #union_id::#variant_ident(..) => #enum_id::#variant_ident
  "

/-- codegen.rs 1074-1078. -/
def unionItem (union_id : Str) (doc : Toks) (names_to_union_variant : List Toks) : Toks :=
  quote! "
    #[derive(Copy, Clone, Debug, PartialEq)]
    #doc
    pub enum #union_id<'a> {
        #(#names_to_union_variant),*
    }
  "

/-- codegen.rs 1081-1087. -/
def unionImpl (union_id : Str) (enum_id : Toks) (names_to_enum_variant : List Toks) : Toks :=
  quote! "
    impl #union_id<'_> {
        pub fn get_type(&self) -> #enum_id {
            match self {
                #(#names_to_enum_variant),*
            }
        }
    }
  "

/-- codegen.rs 1029-1092 `ToTokens for ir::Union`. -/
def union (u : Ir.Union) : Option Toks := do
  let union_ns := QIdent.namespace u.ident
  let union_id ← formatIdent (QIdent.simple u.ident)
  let enum_id ← path (QIdent.relative u.enumIdent union_ns)
  let doc := comment u.doc
  let names_to_union_variant ← u.variants.mapM (unionVariant union_ns)
  let names_to_enum_variant := u.variants.map (unionArm union_id enum_id)
  return unionItem union_id doc names_to_union_variant ++ unionImpl union_id enum_id names_to_enum_variant

mutual
/-- codegen.rs 1114-1153 `node_to_tokens` (no `RpcGenerator`; structs panic, 1151). -/
def node [FloatText] (gm : Mode) : Ir.Node → Option Toks
  | .table t => table gm t
  | .struct _ => none
  | .enum e => «enum» e
  | .union u => union u
  | .rpc _ => some []
  | .namespace i ns => do
    let ident ← formatIdent (Heck.snake (QIdent.simple i))
    let nodes_ts ← nodes gm ns
    return quote! "
      pub mod #ident {
          #nodes_ts
      }
    "
/-- codegen.rs 1106-1112 `build_tokens`, and 1136-1138 for the contents of a module. -/
def nodes [FloatText] (gm : Mode) : List Ir.Node → Option Toks
  | [] => some []
  | n :: ns => do
    let a ← node gm n
    let b ← nodes gm ns
    return a ++ b
end

end Quote

/-- codegen.rs 1100-1104 `build_token_stream`. -/
def tokens [FloatText] (gm : Mode) (out : List Ir.Node) : Option Toks := Quote.nodes gm out

end Butte.Src
