import Verif.Gen.Tree
import Mathlib.Data.List.Forall2
/-
Words for the statements about data written with one version of a schema and read with another. Nothing here models
code.
-/
namespace Butte.Gen
open Ir (QIdent)

/-- What the offset of a field leads to: the value and its type. -/
def below : Ir.Ty → Option Val → Option (Ir.Ty × Val)
  | .string, some v => some (.string, v)
  | .array t, some v => some (.array t, v)
  | .table q, some v => some (.table q, v)
  | .union _ _ uvs, some (.union j v) => uvs[j]?.map (fun u => (u.ty, v))
  | _, _ => none

/-- The schema has all tables that a value of this type can hold. -/
inductive Known (S : Tables) : Ir.Ty → Prop
  | builtin (b : Ast.Builtin) : Known S (.builtin b)
  | string : Known S .string
  | enum (id : QIdent) (vs : List Ir.EnumVariant) (b : Ir.EnumBase) : Known S (.enum id vs b)
  | array {t : Ir.Ty} (h : Known S t) : Known S (.array t)
  | table {q : QIdent} {t : Ir.Table} (h : S q = some t) : Known S (.table q)
  | union {id e : QIdent} {uvs : List Ir.UnionVariant} (h : ∀ u ∈ uvs, Known S u.ty) : Known S (.union id e uvs)

/-- The schema can be used for reading: code can be generated for all its tables, and it has all tables that their
fields mention. -/
def Usable (gm : Mode) (S : Tables) : Prop :=
  ∀ q t, S q = some t → (∃ gs, compileTable gm t = some gs) ∧ ∀ f ∈ t.fields, Known S f.ty

/-- Of two versions of a field list one extends the other at the end. Fields that only the reader knows are not
required. -/
def Extends (writer reader : List Ir.Field) : Prop :=
  (∃ ext, reader = writer ++ ext ∧ ∀ f ∈ ext, f.required = false) ∨ ∃ ext, writer = reader ++ ext

/-- Code generated from `reader` can read data written with code generated from `writer`: the tables that both know
differ by fields at the end only, and `reader` is a schema for which code can be generated. -/
structure Compatible (gm : Mode) (writer reader : Tables) : Prop where
  fields : ∀ q t t', writer q = some t → reader q = some t' → Extends t.fields t'.fields
  reads : ∀ q t', reader q = some t' → (∃ gs', compileTable gm t' = some gs') ∧ t'.fields.length ≤ 32765 ∧
    ∀ f ∈ t'.fields, Known reader f.ty

/-- The value of a field that was not written. -/
def Kind.absent : Kind → Option Val
  | .scalar _ d => d.map fun x => .bits x.val
  | .enum _ _ d => d.map fun i => .variant i.val
  | .ref _ | .union _ => none

/-- The same value of a field of this type, as far as the field itself goes. -/
inductive FieldShape : Ir.Ty → Option Val → Option Val → Prop
  | none (ty : Ir.Ty) : FieldShape ty none none
  | bits (ty : Ir.Ty) (n : Nat) : FieldShape ty (some (.bits n)) (some (.bits n))
  | zero (ty : Ir.Ty) {a b : Nat} (h : Zeros a b) : FieldShape ty (some (.bits a)) (some (.bits b))
  | variant (ty : Ir.Ty) (i : Nat) : FieldShape ty (some (.variant i)) (some (.variant i))
  | ref {ty : Ir.Ty} {v w : Val} (hv : below ty (some v) = some (ty, v)) (hw : below ty (some w) = some (ty, w)) :
      FieldShape ty (some v) (some w)
  | union {id e : QIdent} {uvs : List Ir.UnionVariant} {j : Nat} {u : Ir.UnionVariant} (hu : uvs[j]? = some u) (v w : Val) :
      FieldShape (.union id e uvs) (some (.union j v)) (some (.union j w))

/-- `Evolved gm S S' ty v w`: the value `v`, written with schema `S`, is `w` in the eyes of schema `S'`. The two agree
in everything both versions know, up to the sign of floating-point zeros in table fields; tables of `w` have the fields
of `S'`, those that `S` does not know holding their default. -/
inductive Evolved (gm : Mode) (S S' : Tables) : Ir.Ty → Val → Val → Prop
  | bits (ty : Ir.Ty) (n : Nat) : Evolved gm S S' ty (.bits n) (.bits n)
  | variant (ty : Ir.Ty) (i : Nat) : Evolved gm S S' ty (.variant i) (.variant i)
  | str (ty : Ir.Ty) (s : String) : Evolved gm S S' ty (.str s) (.str s)
  | vec {t : Ir.Ty} {xs ys : List Val} (h : xs.length = ys.length)
      (hs : ∀ i (hi : i < xs.length), Evolved gm S S' t xs[i] (ys[i]'(h ▸ hi))) : Evolved gm S S' (.array t) (.vec xs) (.vec ys)
  | table {q : QIdent} {t t' : Ir.Table} {gs' : List GField} {xs ys : List (Option Val)} (hq : S q = some t)
      (hq' : S' q = some t') (hc : compileTable gm t' = some gs') (hx : xs.length = t.fields.length)
      (hy : ys.length = t'.fields.length)
      (hf : ∀ (i : Nat) f x y, t.fields[i]? = some f → xs[i]? = some x → ys[i]? = some y → FieldShape f.ty x y)
      (hs : ∀ (i : Nat) f x y ty ty' v w, t.fields[i]? = some f → xs[i]? = some x → ys[i]? = some y →
        below f.ty x = some (ty, v) → below f.ty y = some (ty', w) → Evolved gm S S' ty v w)
      (ha : ∀ (i : Nat) g y, xs.length ≤ i → gs'[i]? = some g → ys[i]? = some y → y = g.kind.absent) :
      Evolved gm S S' (.table q) (.table xs) (.table ys)

/-- A field, with what is below it. -/
def EvolvedField (gm : Mode) (S S' : Tables) (ty : Ir.Ty) (x y : Option Val) : Prop :=
  FieldShape ty x y ∧ ∀ ty₁ ty₂ v w, below ty x = some (ty₁, v) → below ty y = some (ty₂, w) → Evolved gm S S' ty₁ v w

/-! ### More variants -/

/-- The second type is the first with, perhaps, more variants at the end of an enum or union. -/
inductive Widens : Ir.Ty → Ir.Ty → Prop
  | refl (ty : Ir.Ty) : Widens ty ty
  | enum (id id' : QIdent) (vs ext : List Ir.EnumVariant) (b : Ir.EnumBase) :
      Widens (.enum id vs b) (.enum id' (vs ++ ext) b)
  | union (id e id' e' : QIdent) (uvs ext : List Ir.UnionVariant) :
      Widens (.union id e uvs) (.union id' e' (uvs ++ ext))
  | array {t t' : Ir.Ty} (h : Widens t t') : Widens (.array t) (.array t')

/-- The same field, of a type with perhaps more variants. -/
structure WidensField (f f' : Ir.Field) : Prop where
  ident : f'.ident = f.ident
  required : f'.required = f.required
  default : f'.default = f.default
  ty : Widens f.ty f'.ty

/-- The second schema has the tables of the first, with the same fields, whose enums and unions have perhaps more
variants at the end; code can be generated for them. -/
def MoreVariants (gm : Mode) (S S' : Tables) : Prop :=
  ∀ q t, S q = some t → ∃ t' gs', S' q = some t' ∧ compileTable gm t' = some gs' ∧ List.Forall₂ WidensField t.fields t'.fields

end Butte.Gen
