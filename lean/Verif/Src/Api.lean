import Verif.Src.Own
import Verif.Ir.Report
import Verif.Rs.Types
/-
What the generated files offer to other modules: which items and functions are public, and which documentation they carry
(Rust reference, "Visibility and privacy", "Doc comments").
-/
namespace Butte.Src
open Ir (QIdent Node itemsOf nameIn refIn lastNs fixIdentifier)
open Rs (modOf)

mutual
/-- All modules are public. -/
def Item.modsPub : Item → Prop
  | .mod p _ is => p = true ∧ modsPub is
  | _ => True
@[inherit_doc Item.modsPub]
def modsPub : List Item → Prop
  | [] => True
  | i :: is => i.modsPub ∧ modsPub is
end

/-- The lines of documentation: `#[doc = "line"]`. -/
def docs (as : List Attr) : List Str :=
  as.filterMap fun a =>
    match a.arg with
    | .eq l => if a.name = c!"doc" then some l else none
    | _ => none

/-- An item has a function outside of traits that other modules can call. -/
def Offers (F : File) (m : List Str) (n : Str) (f : Fn) : Prop := f.pub = true ∧ ∃ gs s, Inherent F m n gs s f

/-- What is offered for a table `t`. The type, documented; its arguments, with a public field for each field of the table; its
builder; `create`, `get_root`, and an accessor of each field, documented unless it is a union. Of the builder: `new` and `finish`,
and nothing else. -/
def TableApi (F : File) (t : Ir.Table) : Prop :=
  let m := modOf t.ident
  let n := QIdent.simple t.ident
  (∃ as gs fs c, F.item m n = some (.struct as true n gs fs c) ∧ docs as = t.doc) ∧
  (∃ as gs fs c, F.item m (n ++ c!"Args") = some (.struct as true (n ++ c!"Args") gs fs c) ∧
    fs.map (fun f => (f.name, f.pub)) = t.fields.map fun f => (f.ident, true)) ∧
  (∃ as gs fs c, F.item m (n ++ c!"Builder") = some (.struct as true (n ++ c!"Builder") gs fs c)) ∧
  (∃ f, Offers F m n f ∧ f.name = c!"create" ∧ f.params.map Param.pass = [.refMut, .ref]) ∧
  (∃ f, Offers F m n f ∧ f.name = c!"get_root" ∧ f.params.map Param.pass = [.value]) ∧
  (∀ x ∈ t.fields, ∃ f, Offers F m n f ∧ f.name = Heck.snake x.ident ∧ f.params.map Param.pass = [.selfRef] ∧
    docs f.attrs = if x.ty.isUnion then [] else x.doc) ∧
  (∃ f, Offers F m (n ++ c!"Builder") f ∧ f.name = c!"new" ∧ f.params.map Param.pass = [.refMut]) ∧
  (∃ f, Offers F m (n ++ c!"Builder") f ∧ f.name = c!"finish" ∧ f.params.map Param.pass = [.self]) ∧
  ∀ f, Offers F m (n ++ c!"Builder") f → f.name = c!"new" ∨ f.name = c!"finish"

/-- What is offered for an enum `e`: the type and its variants, documented, and the function that gives names. -/
def EnumApi (F : File) (e : Ir.Enum) : Prop :=
  let m := modOf e.ident
  let n := QIdent.simple e.ident
  (∃ as gs vs, F.item m n = some (.enum as true n gs vs) ∧ docs as = e.doc ∧
    vs.map (fun v => (v.name, docs v.attrs)) = e.variants.map fun v => (v.ident, v.doc)) ∧
  ∃ f, (m, Item.fn f) ∈ flatItems [] F.items ∧ f.pub = true ∧ f.name = c!"enum_name_" ++ Heck.snake n ∧
    f.params.map Param.pass = [.value]

/-- What is offered for a union `u`: the type and its variants, documented, and `get_type`. -/
def UnionApi (F : File) (u : Ir.Union) : Prop :=
  let m := modOf u.ident
  let n := QIdent.simple u.ident
  (∃ as gs vs, F.item m n = some (.enum as true n gs vs) ∧ docs as = u.doc ∧
    vs.map (fun v => (v.name, docs v.attrs)) = u.variants.map fun v => (v.ident, v.doc)) ∧
  ∃ f, Offers F m n f ∧ f.name = c!"get_type" ∧ f.params.map Param.pass = [.selfRef]

/-- What a file offers for a schema. -/
def ApiOk (F : File) (out : List Node) : Prop :=
  modsPub F.items ∧ ∀ x ∈ itemsOf out,
    match x.2 with
    | .table t => TableApi F t
    | .enum e => EnumApi F e
    | .union u => UnionApi F u
    | _ => True

/-! ### Documentation of a schema -/

/-- A written type names a union of the schema. -/
def NamesUnion (E : List Ast.Element) (ns : Option Ast.QIdent) (t : Ast.Ty) : Prop :=
  ∃ q p u, t = .ident q ∧ E[p]? = some (.union u) ∧ refIn ns q = nameIn (lastNs (E.take p)) u.id

/-- A table has a method for its field `f` that carries these lines of documentation. -/
def Accessor (F : File) (q : QIdent) (f : Str) (doc : Ast.Comment) : Prop :=
  ∃ a, Offers F (modOf q) (QIdent.simple q) a ∧ a.name = Heck.snake f ∧ a.params.map Param.pass = [.selfRef] ∧ docs a.attrs = doc

/-- The documentation of a declaration that is read in namespace `ns` is the documentation of the item for it, and that of its
fields and variants the one of the methods and variants for them. For a field that is a union it is with the method that gives
the kind of union. -/
def DeclDocs (F : File) (E : List Ast.Element) (ns : Option Ast.QIdent) : Ast.Element → Prop
  | .table d =>
    (∃ as gs fs c, F.item (modOf (nameIn ns d.id)) (fixIdentifier d.id) = some (.struct as true (fixIdentifier d.id) gs fs c) ∧
      docs as = d.doc) ∧
    ∀ f ∈ d.fields, Accessor F (nameIn ns d.id) (fixIdentifier f.id) f.doc ∨
      (NamesUnion E ns f.ty ∧ Accessor F (nameIn ns d.id) (fixIdentifier f.id) [] ∧
        Accessor F (nameIn ns d.id) (fixIdentifier (Heck.snake f.id ++ c!"_type")) f.doc)
  | .enum e =>
    ∃ as gs vs, F.item (modOf (nameIn ns e.id)) (fixIdentifier e.id) = some (.enum as true (fixIdentifier e.id) gs vs) ∧
      docs as = e.doc ∧ vs.map (fun v => (v.name, docs v.attrs)) = e.variants.map fun v => (fixIdentifier v.id, v.doc)
  | .union u =>
    ∃ as gs vs, F.item (modOf (nameIn ns u.id)) (fixIdentifier u.id) = some (.enum as true (fixIdentifier u.id) gs vs) ∧
      docs as = u.doc ∧ vs.map (fun v => (v.name, docs v.attrs)) = u.variants.map fun v => (fixIdentifier v.id, v.doc)
  | _ => True

/-- The documentation of a schema is that of its code. -/
def DocsOk (F : File) (E : List Ast.Element) : Prop := ∀ p el, E[p]? = some el → DeclDocs F E (lastNs (E.take p)) el

end Butte.Src
