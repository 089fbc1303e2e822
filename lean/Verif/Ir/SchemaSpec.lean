import Verif.Ir.Analysis
/-
What it means for items to be the translation of the declarations of a schema. Used to state the properties of the
semantic analysis; nothing here refers to the state of the analysis.
-/
namespace Butte.Ir
open Ast (Element)

/-- Two lists of the same length, related element by element. -/
inductive All₂ {α β : Type} (R : α → β → Prop) : List α → List β → Prop
  | nil : All₂ R [] []
  | cons {a : α} {b : β} {as : List α} {bs : List β} (h : R a b) (t : All₂ R as bs) : All₂ R (a :: as) (b :: bs)

/-- The full name of something called `i` in namespace `ns`, keywords escaped. -/
def nameIn (ns : Option Ast.QIdent) (i : Ast.Ident) : QIdent :=
  (ns.getD []).map fixIdentifier ++ [fixIdentifier i]

/-- The full name of the enum that goes with a union. -/
def tagEnumIn (ns : Option Ast.QIdent) (i : Ast.Ident) : QIdent :=
  (ns.getD []).map fixIdentifier ++ [c!"butte_gen", fixIdentifier (i ++ c!"Type")]

/-- What a written type name refers to: a name of one part belongs to the namespace, any other name is absolute. -/
def refIn (ns : Option Ast.QIdent) (q : Ast.QIdent) : QIdent :=
  if q.length = 1 then (ns.getD []).map fixIdentifier ++ q.map fixIdentifier else q.map fixIdentifier

/-- The field carries the attribute `required`, without a value. -/
def MarkedRequired (f : Ast.Field) : Prop := ∃ m, f.metadata = some m ∧ Ast.Metadata.get m c!"required" = some none

/-- The method's metadata ask for this kind of streaming. -/
def AsksStreaming (m : Option Ast.Metadata) : Streaming → Prop
  | .none => ∀ md, m = some md → Ast.Metadata.get md c!"streaming" = none
  | .client => ∃ md, m = some md ∧ Ast.Metadata.get md c!"streaming" = some (some (.string c!"client"))
  | .server => ∃ md, m = some md ∧ Ast.Metadata.get md c!"streaming" = some (some (.string c!"server"))
  | .bidi => ∃ md, m = some md ∧ Ast.Metadata.get md c!"streaming" = some (some (.string c!"bidi"))

/-- The type that an item defines. -/
def Node.defines : Node → Option (QIdent × CustomType)
  | .table t => some (t.ident, .table)
  | .struct s => some (s.ident, .struct s.fields)
  | .enum e => some (e.ident, .enum e.variants e.base)
  | .union u => some (u.ident, .union u.enumIdent u.variants)
  | .rpc _ | .namespace .. => none

/-- A vocabulary: which names stand for tables, and which for defined types. -/
structure Names where
  tab : QIdent → Prop
  dfn : QIdent → CustomType → Prop

/-- The vocabulary of a list of items: the types they define. -/
def Names.ofItems (items : List Node) : Names where
  tab q := ∃ n ∈ items, n.defines = some (q, .table)
  dfn q ct := ∃ n ∈ items, n.defines = some (q, ct)

/-- A type written in namespace `ns` means a resolved type: builtins mean themselves, and a name means what it is
defined as, with the namespace put in front of a one-part name. -/
inductive Means (N : Names) (ns : Option Ast.QIdent) : Ast.Ty → Ty → Prop
  | builtin (b : Ast.Builtin) : Means N ns (.builtin b) (.builtin b)
  | string : Means N ns .string .string
  | array {t : Ast.Ty} {ty : Ty} (h : Means N ns t ty) : Means N ns (.array t) (.array ty)
  | table (q : Ast.QIdent) (h : N.tab (refIn ns q)) : Means N ns (.ident q) (.table (refIn ns q))
  | custom (q : Ast.QIdent) (ct : CustomType) (h : N.dfn (refIn ns q) ct) :
      Means N ns (.ident q) (ct.ref (refIn ns q))

/-- The fields of a table: each written field once, in order, and in front of each union field a field for the
union's enum. -/
inductive FieldsMean (N : Names) (ns : Option Ast.QIdent) : List Ast.Field → List Field → Prop
  | nil : FieldsMean N ns [] []
  | plain {f : Ast.Field} {fs : List Ast.Field} {ty : Ty} {r : List Field} {req : Bool}
      (hq : req = true ↔ MarkedRequired f) (hm : Means N ns f.ty ty) (hu : ty.isUnion = false) (hr : FieldsMean N ns fs r) :
      FieldsMean N ns (f :: fs)
        (⟨fixIdentifier f.id, ty, f.default.or (Ast.implicitDefault f.ty), req, f.doc⟩ :: r)
  | union {f : Ast.Field} {fs : List Ast.Field} {q e : QIdent} {vs : List UnionVariant} {evs : List EnumVariant}
      {base : EnumBase} {r : List Field} {req : Bool} (hq : req = true ↔ MarkedRequired f)
      (hm : Means N ns f.ty (.union q e vs)) (he : N.dfn e (.enum evs base))
      (hr : FieldsMean N ns fs r) :
      FieldsMean N ns (f :: fs)
        (⟨fixIdentifier (Heck.snake f.id ++ c!"_type"), .enum e evs base, none, req, f.doc⟩ ::
          ⟨fixIdentifier f.id, .union q e vs, f.default.or (Ast.implicitDefault f.ty), req, f.doc⟩ :: r)

/-- A struct field. -/
def StructFieldMeans (N : Names) (ns : Option Ast.QIdent) (f : Ast.Field) (g : Field) : Prop :=
  ∃ ty, Means N ns f.ty ty ∧ ty.isScalar = true ∧ g = ⟨fixIdentifier f.id, ty, f.default, false, f.doc⟩

/-- A union variant. -/
def VariantMeans (N : Names) (ns : Option Ast.QIdent) (v : Ast.EnumVariant) (w : UnionVariant) : Prop :=
  ∃ ty, Means N ns (.ident [v.id]) ty ∧ w = ⟨fixIdentifier v.id, ty, v.doc⟩

/-- An rpc method: request and response are defined tables. -/
def MethodMeans (N : Names) (ns : Option Ast.QIdent) (m : Ast.RpcMethod) (r : RpcMethod) : Prop :=
  N.dfn (refIn ns m.requestType) .table ∧ N.dfn (refIn ns m.responseType) .table ∧
  ∃ s, AsksStreaming m.metadata s ∧
    r = ⟨fixIdentifier m.id, fixIdentifier (Heck.snake m.id), refIn ns m.requestType, refIn ns m.responseType, s,
      m.doc⟩

/-- The element declares something that shows up in the output. -/
def declares : Element → Bool
  | .table _ | .struct _ | .enum _ | .union _ | .rpc _ => true
  | _ => false

/-- The items are the translation of a declaration read in namespace `ns`. Whether a table is a root is left
open. -/
inductive Emits (N : Names) (ns : Option Ast.QIdent) : Element → List Node → Prop
  | table (t : Ast.Product) (fields : List Field) (root : Bool) (h : FieldsMean N ns t.fields fields) :
      Emits N ns (.table t) [.table ⟨nameIn ns t.id, fields, root, t.doc⟩]
  | struct (s : Ast.Product) (fields : List Field) (h : All₂ (StructFieldMeans N ns) s.fields fields) :
      Emits N ns (.struct s) [.struct ⟨nameIn ns s.id, fields, s.doc⟩]
  | enum (e : Ast.Enum) (base : EnumBase) (h : EnumBase.ofAst e.baseType = some base) :
      Emits N ns (.enum e)
        [.enum ⟨nameIn ns e.id, e.variants.map fun v => ⟨fixIdentifier v.id, v.value, v.doc⟩, base, e.doc⟩]
  | union (u : Ast.Union) (vs : List UnionVariant) (h : All₂ (VariantMeans N ns) u.variants vs) :
      Emits N ns (.union u) [.enum ⟨tagEnumIn ns u.id,
          ⟨c!"None", some 0, []⟩ :: u.variants.map fun v => ⟨fixIdentifier v.id, none, v.doc⟩, .ubyte, u.doc⟩,
        .union ⟨nameIn ns u.id, tagEnumIn ns u.id, vs, u.doc⟩]
  | rpc (r : Ast.Rpc) (ms : List RpcMethod) (h : All₂ (MethodMeans N ns) r.methods ms) :
      Emits N ns (.rpc r) [.rpc ⟨nameIn ns r.id, ms, r.doc⟩]

/-- The schema asks for the table `q` to be a root: by `root_type`, or as request or response of an rpc method. -/
def Requests (ns : Option Ast.QIdent) (q : QIdent) : Element → Prop
  | .root t _ => q = nameIn ns t
  | .rpc r => ∃ m ∈ r.methods, q = refIn ns m.requestType ∨ q = refIn ns m.responseType
  | _ => False

/-- The name under which an element defines a type in namespace `ns`. -/
def typeName (ns : Option Ast.QIdent) : Element → Option QIdent
  | .table t | .struct t => some (nameIn ns t.id)
  | .enum e => some (nameIn ns e.id)
  | .union u => some (nameIn ns u.id)
  | _ => none

/-- Some table declaration may have been looked at under the name `q`. -/
def TableName (E : List Element) (Ok : Nat → Option Ast.QIdent → Prop) (q : QIdent) : Prop :=
  ∃ p t ns, E[p]? = some (.table t) ∧ Ok p ns ∧ q = nameIn ns t.id

/-! ### Larger vocabularies -/

theorem Means.mono {N N' : Names} (ht : ∀ q, N.tab q → N'.tab q) (hd : ∀ q ct, N.dfn q ct → N'.dfn q ct)
    {ns : Option Ast.QIdent} {t : Ast.Ty} {ty : Ty} (h : Means N ns t ty) : Means N' ns t ty := by
  induction h with
  | builtin b => exact .builtin b
  | string => exact .string
  | array _ ih => exact .array ih
  | table q h => exact .table q (ht _ h)
  | custom q ct h => exact .custom q ct (hd _ _ h)

theorem FieldsMean.mono {N N' : Names} (ht : ∀ q, N.tab q → N'.tab q) (hd : ∀ q ct, N.dfn q ct → N'.dfn q ct)
    {ns : Option Ast.QIdent} {fs : List Ast.Field} {gs : List Field} (h : FieldsMean N ns fs gs) :
    FieldsMean N' ns fs gs := by
  induction h with
  | nil => exact .nil
  | plain hq hm hu _ ih => exact .plain hq (hm.mono ht hd) hu ih
  | union hq hm he _ ih => exact .union hq (hm.mono ht hd) (hd _ _ he) ih

theorem forall₂_imp {α β : Type} {R S : α → β → Prop} (h : ∀ a b, R a b → S a b) {l : List α} {l' : List β}
    (hl : All₂ R l l') : All₂ S l l' := by
  induction hl with
  | nil => exact .nil
  | cons a _ ih => exact .cons (h _ _ a) ih

theorem Emits.mono {N N' : Names} (ht : ∀ q, N.tab q → N'.tab q) (hd : ∀ q ct, N.dfn q ct → N'.dfn q ct)
    {ns : Option Ast.QIdent} {el : Element} {l : List Node} (h : Emits N ns el l) : Emits N' ns el l := by
  cases h with
  | table t fields root h => exact .table t fields root (h.mono ht hd)
  | struct s fields h =>
    exact .struct s fields (forall₂_imp (fun f g ⟨ty, h1, h2, h3⟩ => ⟨ty, h1.mono ht hd, h2, h3⟩) h)
  | enum e base h => exact .enum e base h
  | union u vs h => exact .union u vs (forall₂_imp (fun f g ⟨ty, h1, h2⟩ => ⟨ty, h1.mono ht hd, h2⟩) h)
  | rpc r ms h => exact .rpc r ms (forall₂_imp (fun f g ⟨h1, h2, h3⟩ => ⟨hd _ _ h1, hd _ _ h2, h3⟩) h)

end Butte.Ir
