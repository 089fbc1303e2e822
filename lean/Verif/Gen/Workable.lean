import Verif.Gen.Compile
import Verif.Gen.DisplayOk
import Verif.Ir.SchemaSpec
import Verif.Ir.Analysis
/-
Which tables of a schema there is working code for, said of the declarations in the schema.
-/
namespace Butte.Gen
open Ir (QIdent nameIn tagEnumIn refIn lastNs fixIdentifier)
open Ast (Element)

/-- What a type name is declared as. -/
inductive Decl where
  | table
  | struct
  /-- base type, names and explicit values of the variants -/
  | enum (base : Ast.Builtin) (variants : List (Str × Option Int))
  /-- the namespace it is declared in, its enum, the members -/
  | union (ns : Option Ast.QIdent) (tags : QIdent) (members : List Ast.Ident)
deriving DecidableEq

/-- The variants of the enum that goes with a union. -/
def tagVariants (members : List Ast.Ident) : List (Str × Option Int) :=
  (c!"None", some 0) :: members.map fun i => (fixIdentifier i, none)

/-- The types that an element declares in namespace `ns`. -/
def declOf (ns : Option Ast.QIdent) : Element → List (QIdent × Decl)
  | .table t => [(nameIn ns t.id, .table)]
  | .struct s => [(nameIn ns s.id, .struct)]
  | .enum e =>
    match e.baseType with
    | .builtin b => [(nameIn ns e.id, .enum b (e.variants.map fun v => (fixIdentifier v.id, v.value)))]
    | _ => []
  | .union u =>
    [(tagEnumIn ns u.id, .enum .ubyte (tagVariants (u.variants.map (·.id)))),
     (nameIn ns u.id, .union ns (tagEnumIn ns u.id) (u.variants.map (·.id)))]
  | _ => []

/-- The types that a schema declares. -/
def decls (E : List Element) : List (QIdent × Decl) :=
  (List.range E.length).flatMap fun p =>
    match E[p]? with
    | some el => declOf (lastNs (E.take p)) el
    | none => []

theorem mem_decls {E : List Element} {x : QIdent × Decl} :
    x ∈ decls E ↔ ∃ p el, E[p]? = some el ∧ x ∈ declOf (lastNs (E.take p)) el := by
  unfold decls
  rw [List.mem_flatMap]
  constructor
  · rintro ⟨p, _, h⟩
    split at h
    · exact ⟨p, _, ‹_›, h⟩
    · cases h
  · rintro ⟨p, el, h1, h2⟩
    refine ⟨p, List.mem_range.mpr ?_, by rw [h1]; exact h2⟩
    exact (List.getElem?_eq_some_iff.mp h1).1

/-- The smallest and largest value of an integer type. -/
def intRange : Ast.Builtin → Option (Int × Int)
  | .byte | .int8 => some (-128, 127)
  | .ubyte | .uint8 => some (0, 255)
  | .short | .int16 => some (-32768, 32767)
  | .ushort | .uint16 => some (0, 65535)
  | .int | .int32 => some (-2147483648, 2147483647)
  | .uint | .uint32 => some (0, 4294967295)
  | .long | .int64 => some (-9223372036854775808, 9223372036854775807)
  | .ulong | .uint64 => some (0, 18446744073709551615)
  | .bool | .float | .double | .float32 | .float64 => none

/-- An integer that the type can hold. -/
def InRange (b : Ast.Builtin) (i : Int) : Prop := ∃ lo hi, intRange b = some (lo, hi) ∧ lo ≤ i ∧ i ≤ hi

/-- The values of the variants of an enum: the explicit one, or else the position. -/
def numbers (vs : List (Str × Option Int)) : List Int := vs.zipIdx.map fun p => p.1.2.getD p.2

/-- There is working code for an enum: variants have different names, and different values in the range of the base
type. -/
structure EnumWorks (b : Ast.Builtin) (vs : List (Str × Option Int)) : Prop where
  some : vs ≠ []
  names : (vs.map (·.1)).Nodup
  values : (numbers vs).Nodup
  range : ∀ n ∈ numbers vs, InRange b n

/-- A decimal number that is written as an integer which the type can hold. No sign can stand before an unsigned number, not even
before 0. -/
def WholeFits (b : Ast.Builtin) (x : Nat) : Prop :=
  f64Finite x = true ∧ 2 ^ 1074 ∣ f64Units x ∧ ∃ n : Nat, Shown (x % 2 ^ 63) n ∧ ∃ lo hi, intRange b = some (lo, hi) ∧
    (if 2 ^ 63 ≤ x then lo ≤ -(n : Int) ∧ lo < 0 else (n : Int) ≤ hi)

/-- A default that fits a builtin type: booleans for `bool`, integers in range for integer types, any integers and
finite floats for floating-point types (those of `float` must not round to infinity); decimal numbers for integer types if they are
whole. -/
def Fits (b : Ast.Builtin) : Ast.Scalar → Prop
  | .boolean _ => b = .bool
  | .integer i => InRange b i ∨ b ∈ [.float, .float32, .double, .float64]
  | .float x => (b = .double ∨ b = .float64 ∨ (b = .float ∨ b = .float32) ∧ f64ToF32 x % 2 ^ 31 < 255 * 2 ^ 23) ∧
      f64Finite x = true ∨ WholeFits b x

/-- The type can be that of the elements of a vector, or of the member of a union. -/
def Follows (E : List Element) (ns : Option Ast.QIdent) : Ast.Ty → Prop
  | .builtin _ | .string => True
  | .array t => Follows E ns t
  | .ident q => (refIn ns q, .table) ∈ decls E ∨
      ∃ b vs, (refIn ns q, .enum b vs) ∈ decls E ∧ EnumWorks b vs

/-- The field names a union. -/
def isUnionRef (E : List Element) (ns : Option Ast.QIdent) (f : Ast.Field) : Bool :=
  match f.ty with
  | .ident q => (decls E).any fun x => x.1 == refIn ns q && (match x.2 with | .union .. => true | _ => false)
  | _ => false

/-- There is working code for a field of this type and default. -/
def FieldWorks (E : List Element) (ns : Option Ast.QIdent) (f : Ast.Field) : Prop :=
  match f.ty with
  | .builtin b => f.default = none ∨ ∃ s, f.default = some (.scalar s) ∧ Fits b s
  | .string => f.default = none
  | .array t => f.default = none ∧ Follows E ns t
  | .ident q =>
    ((refIn ns q, .table) ∈ decls E ∧ f.default = none) ∨
    (∃ b vs, (refIn ns q, .enum b vs) ∈ decls E ∧ EnumWorks b vs ∧
      (f.default = none ∨ ∃ v ∈ vs, f.default = some (.ident v.1))) ∨
    (∃ ns' e ms, (refIn ns q, .union ns' e ms) ∈ decls E ∧
      (∀ i, f.default ≠ some (.scalar (.integer i))) ∧ (∀ x, f.default ≠ some (.scalar (.float x))) ∧
      EnumWorks .ubyte (tagVariants ms) ∧
      ∀ m ∈ ms, Follows E ns' (.ident [m]))

/-- The names of the fields of the generated table: a union has a field for its tag. -/
def slotNames (E : List Element) (ns : Option Ast.QIdent) (fs : List Ast.Field) : List Str :=
  fs.flatMap fun f =>
    if isUnionRef E ns f then [Heck.snake f.id ++ c!"_type", fixIdentifier f.id] else [fixIdentifier f.id]

/-- A tag for the union field `f`, which is named `type`: its accessor calls `ty_type`, which may happen to be the accessor of another
field of the union's enum. -/
def OddTag (E : List Element) (ns : Option Ast.QIdent) (fs : List Ast.Field) (f : Ast.Field) : Prop :=
  ∃ f' ∈ fs, Heck.snake (fixIdentifier f'.id) = c!"ty_type" ∧ (Ir.MarkedRequired f' ↔ Ir.MarkedRequired f) ∧
    ∃ q q' ns' ms, f.ty = .ident q ∧ f'.ty = .ident q' ∧ (refIn ns q, .union ns' (refIn ns q') ms) ∈ decls E

/-- There is working code for a table. -/
structure TableWorks (gm : Mode) (E : List Element) (ns : Option Ast.QIdent) (fs : List Ast.Field) : Prop where
  fields : ∀ f ∈ fs, FieldWorks E ns f
  /-- the accessor of a union calls the right accessor for the tag -/
  tags : ∀ f ∈ fs, isUnionRef E ns f = true → f.id ≠ c!"type" ∨ OddTag E ns fs f
  /-- names that can be used in Rust -/
  usable : ∀ i ∈ slotNames E ns fs, rustName i = true ∧ rustName (Heck.snake i) = true
  /-- no two accessors, and no two constants, of the same name -/
  accessors : ((slotNames E ns fs).map Heck.snake).Nodup
  constants : ((slotNames E ns fs).map Heck.shouty).Nodup
  free : c!"create" ∉ (slotNames E ns fs).map Heck.snake ∧ c!"get_root" ∉ (slotNames E ns fs).map Heck.snake
  /-- the generator computes the slots without overflow -/
  slots : gm = .release ∨ (slotNames E ns fs).length ≤ 32766

theorem tags_of {E : List Element} {ns : Option Ast.QIdent} {fs : List Ast.Field} (h : ∀ f ∈ fs, f.id ≠ c!"type") :
    ∀ f ∈ fs, isUnionRef E ns f = true → f.id ≠ c!"type" ∨ OddTag E ns fs f := fun f hf _ => .inl (h f hf)

end Butte.Gen
