import Verif.Rt.Read
import Verif.Ir.Types
import Verif.Ir.Heck
import Verif.Gen.Display
/-
From the intermediate representation to the code that is generated for a table: butte-build/src/codegen.rs.

The generator emits Rust text. What is modelled is the meaning of that text: for every field of a table, the slot
constant, the kind of value, the default literal and the `required` flag (`GField`). `none` stands for "no working
code": the generator panics, or the Rust compiler rejects what was generated.
-/
namespace Butte.Gen
open Ir (QIdent)

/-- codegen.rs 104-124 (the primitive arms of `to_type_token`). -/
def builtinSTy : Ast.Builtin → STy
  | .bool => .bool
  | .byte | .int8 => .i8
  | .ubyte | .uint8 => .u8
  | .short | .int16 => .i16
  | .ushort | .uint16 => .u16
  | .int | .int32 => .i32
  | .uint | .uint32 => .u32
  | .float | .float32 => .f32
  | .long | .int64 => .i64
  | .ulong | .uint64 => .u64
  | .double | .float64 => .f64

/-- codegen.rs 836-858 `ToTokens for EnumBaseType`. -/
def enumBaseSTy : Ir.EnumBase → STy
  | .byte | .int8 => .i8
  | .ubyte | .uint8 => .u8
  | .short | .int16 => .i16
  | .ushort | .uint16 => .u16
  | .int | .int32 => .i32
  | .uint | .uint32 => .u32
  | .long | .int64 => .i64
  | .ulong | .uint64 => .u64

/-- Value of an integer literal of an integer type with `w` bits, `none` when it is out of range (a deny-by-default
lint of the compiler). -/
def intLit (signed : Bool) (w : Nat) (i : Int) : Option Nat :=
  if signed then
    if -(2 ^ (w - 1) : Int) ≤ i ∧ i < 2 ^ (w - 1) then some (ofSigned w i) else none
  else if 0 ≤ i ∧ i < 2 ^ w then some i.toNat else none

/-- Value of a decimal number as a literal of an integer type with `w` bits (codegen.rs 193-201): a whole number is written without a
point, so it is an integer. A sign cannot stand before an unsigned number, not even before 0. -/
def wholeLit (signed : Bool) (w x : Nat) : Option Nat :=
  if signed = false ∧ 2 ^ 63 ≤ x then none
  else (shown x).bind fun n => intLit signed w (if 2 ^ 63 ≤ x then -(n : Int) else n)

/-- Sign bit of an integer. -/
def signBit (i : Int) (w : Nat) : Nat := if i < 0 then 2 ^ (w - 1) else 0

/-- codegen.rs 175-214 (`fmt_lit`, `to_default_value` on a scalar): the value of the literal that is emitted for a
default of a builtin type; `none` when the literal cannot be built (NaN, infinities) or has the wrong type.
For the floating-point types, printing a finite float and parsing it again is taken to be the identity. -/
def literal (t : STy) : Ast.Scalar → Option (SVal t)
  | .boolean b => if t = .bool then some (Fin.ofNat _ b.toNat) else none
  | .integer i =>
    match t with
    | .bool => none
    | .i8 => (intLit true 8 i).map (Fin.ofNat _)
    | .u8 => (intLit false 8 i).map (Fin.ofNat _)
    | .i16 => (intLit true 16 i).map (Fin.ofNat _)
    | .u16 => (intLit false 16 i).map (Fin.ofNat _)
    | .i32 => (intLit true 32 i).map (Fin.ofNat _)
    | .u32 => (intLit false 32 i).map (Fin.ofNat _)
    | .i64 => (intLit true 64 i).map (Fin.ofNat _)
    | .u64 => (intLit false 64 i).map (Fin.ofNat _)
    | .f32 => some (Fin.ofNat _ (signBit i 32 + roundBits 8 23 i.natAbs 1))
    | .f64 => some (Fin.ofNat _ (signBit i 64 + roundBits 11 52 i.natAbs 1))
  | .float x =>
    match t with
    | .f32 => if f64Finite x && decide (f64ToF32 x % 2 ^ 31 < 255 * 2 ^ 23) then some (Fin.ofNat _ (f64ToF32 x)) else none
    | .f64 => if f64Finite x then some (Fin.ofNat _ x.val) else none
    | .bool => none
    | .i8 => (wholeLit true 8 x).map (Fin.ofNat _)
    | .u8 => (wholeLit false 8 x).map (Fin.ofNat _)
    | .i16 => (wholeLit true 16 x).map (Fin.ofNat _)
    | .u16 => (wholeLit false 16 x).map (Fin.ofNat _)
    | .i32 => (wholeLit true 32 x).map (Fin.ofNat _)
    | .u32 => (wholeLit false 32 x).map (Fin.ofNat _)
    | .i64 => (wholeLit true 64 x).map (Fin.ofNat _)
    | .u64 => (wholeLit false 64 x).map (Fin.ofNat _)

/-- codegen.rs 914-934 `variants_and_scalars`: the value of every variant, the explicit one or else the variant's
position in the list; with 945-950 the literals must fit the base type. -/
def variantValues (t : STy) : Nat → List Ir.EnumVariant → Option (List (SVal t))
  | _, [] => some []
  | i, v :: vs => do
    let x ← literal t (.integer (v.value.getD i))
    let xs ← variantValues t (i + 1) vs
    return x :: xs

/-- The values of a generated enum (codegen.rs 883-1027). The compiler rejects an enum with no variants (its
`Default` has no body), with two variants of the same name or with two variants of the same value. -/
def enumValues (t : STy) (vs : List Ir.EnumVariant) : Option (List (SVal t)) := do
  let xs ← variantValues t 0 vs
  if vs = [] ∨ ¬ (vs.map (·.ident)).Nodup ∨ ¬ xs.Nodup then none else some xs

/-- The `Follow` type of a generated enum (codegen.rs 982-999). -/
def enumFTy (t : STy) (xs : List (SVal t)) : FTy := .enum t (xs.map (·.val))

/-- codegen.rs 76-172 `to_type_token` with `ForwardsUOffset` as the wrapper: the `Follow` type of a field or vector
element. Structs have no generated code (1148), unions no `Follow` implementation. -/
def followTy : Ir.Ty → Option FTy
  | .builtin b => some (.scalar (builtinSTy b))
  | .string => some (.fwdU .str)
  | .array t => do
    let e ← followTy t
    return .fwdU (.vector e)
  | .table _ => some (.fwdU .table)
  | .struct .. => none
  | .enum _ vs b => do
    let xs ← enumValues (enumBaseSTy b) vs
    return enumFTy (enumBaseSTy b) xs
  | .union .. => none

/-- What a field holds, as far as the generated code is concerned. -/
inductive Kind where
  /-- a builtin scalar and its default literal -/
  | scalar (t : STy) (dflt : Option (SVal t))
  /-- an enum: base type, values of the variants, position of the default variant -/
  | enum (t : STy) (vals : List (SVal t)) (dflt : Option (Fin vals.length))
  /-- a string, vector or table behind an offset -/
  | ref (f : FTy)
  /-- a union: for each variant what the offset is followed as -/
  | union (variants : List FTy)

/-- codegen.rs 217-220, 470-476: the default of an enum field is a variant, found by the name in the schema text
(not by the substituted name). -/
def enumDefault (vs : List Ir.EnumVariant) : Ast.DefaultValue → Option Nat
  | .ident i => vs.findIdx? (fun v => v.ident == i)
  | .scalar _ => none

/-- A default that the code for a union field puts up with: the accessor does not look at it (codegen.rs 608-683), but the
literal of a number cannot be made (236-241: a union has `<>` behind its name, which is no suffix). -/
def unionDefault : Option Ast.DefaultValue → Bool
  | some (.scalar (.integer _)) | some (.scalar (.float _)) => false
  | _ => true

/-- What is generated for one field type and default. A default on a string, vector or table gives an ill-typed literal in the
accessor (codegen.rs 596-601, 693, 704). -/
def kindOf : Ir.Ty → Option Ast.DefaultValue → Option Kind
  | .builtin b, none => some (.scalar (builtinSTy b) none)
  | .builtin b, some (.scalar s) => do
    let v ← literal (builtinSTy b) s
    return .scalar (builtinSTy b) (some v)
  | .builtin _, some (.ident _) => none
  | .enum _ vs b, d => do
    let xs ← enumValues (enumBaseSTy b) vs
    match d with
    | none => return .enum (enumBaseSTy b) xs none
    | some d => do
      let i ← enumDefault vs d
      if h : i < xs.length then return .enum (enumBaseSTy b) xs (some ⟨i, h⟩) else none
  | .string, none => some (.ref .str)
  | .array t, none => do
    let e ← followTy t
    return .ref (.vector e)
  | .table _, none => some (.ref .table)
  | .union _ _ vs, d => if unionDefault d then (vs.mapM fun v => followTy v.ty).map .union else none
  | .struct .., _ => none
  | _, some _ => none

theorem unionDefault_iff {d : Option Ast.DefaultValue} : unionDefault d = true ↔
    (∀ i, d ≠ some (.scalar (.integer i))) ∧ ∀ x, d ≠ some (.scalar (.float x)) := by
  unfold unionDefault
  split
  · simp
  · simp
  · rename_i h1 h2
    simp only [true_iff]
    exact ⟨fun i h => h1 i h, fun x h => h2 x h⟩

theorem kindOf_union_iff {q e : Ir.QIdent} {vs : List Ir.UnionVariant} {d : Option Ast.DefaultValue} {k : Kind} :
    kindOf (.union q e vs) d = some k ↔
      unionDefault d = true ∧ ∃ fs, vs.mapM (fun v => followTy v.ty) = some fs ∧ k = .union fs := by
  simp only [kindOf]
  split
  · rename_i h
    simp only [h, Option.map_eq_some_iff, true_and]
    exact ⟨fun ⟨fs, h1, h2⟩ => ⟨fs, h1, h2.symm⟩, fun ⟨fs, h1, h2⟩ => ⟨fs, h1, h2.symm⟩⟩
  · rename_i h
    simp [h]

/-- One field of a generated table. -/
structure GField where
  /-- accessor name (codegen.rs 580) and name in errors (581, 714) -/
  name : Str
  /-- value of the `VT_` constant (codegen.rs 562-568) -/
  slot : Fin 65536
  kind : Kind
  required : Bool

/-- codegen.rs 562-568: `field_index_to_field_offset(index as VOffsetT)`, evaluated by the generator (built in mode
`gm`). -/
def slotOf (gm : Mode) (index : Nat) : Option (Fin 65536) :=
  match fieldIndexToFieldOffset gm (index % 65536) with
  | .ok s => if h : s < 65536 then some ⟨s, h⟩ else none
  | _ => none

/-- The fields of a generated table, from field number `i` on. -/
def compileFields (gm : Mode) : Nat → List Ir.Field → Option (List GField)
  | _, [] => some []
  | i, f :: fs => do
    let k ← kindOf f.ty f.default
    let s ← slotOf gm i
    let gs ← compileFields gm (i + 1) fs
    return ⟨Heck.snake f.ident, s, k, f.required⟩ :: gs

/-- Words that cannot be the name of a function or a field in Rust 2018. -/
def rustKeywords : List Str :=
  [c!"as", c!"async", c!"await", c!"break", c!"const", c!"continue", c!"crate", c!"dyn", c!"else", c!"enum",
   c!"extern", c!"false", c!"fn", c!"for", c!"if", c!"impl", c!"in", c!"let", c!"loop", c!"match", c!"mod",
   c!"move", c!"mut", c!"pub", c!"ref", c!"return", c!"self", c!"Self", c!"static", c!"struct", c!"super",
   c!"trait", c!"true", c!"type", c!"unsafe", c!"use", c!"where", c!"while",
   c!"abstract", c!"become", c!"box", c!"do", c!"final", c!"macro", c!"override", c!"priv", c!"try", c!"typeof",
   c!"unsized", c!"virtual", c!"yield"]

/-- Constructors of the standard prelude: no parameter can have such a name (codegen.rs 513-560: the identifier of a field
is the name of the parameter of its `add_` method). -/
def preludeNames : List Str := [c!"Some", c!"None", c!"Ok", c!"Err"]

/-- A word that can be the name of a function and of a parameter: not empty, no leading digit, no keyword (and
`format_ident!` panics on the first two), no constructor of the prelude. -/
def rustName (s : Str) : Bool :=
  match s with
  | [] => false
  | c :: _ => !c.isDigit && decide (s ∉ rustKeywords) && decide (s ≠ ['_']) && decide (s ∉ preludeNames)

/-- Names of the items generated for the fields: argument fields and `add_` methods (375-388, 513) carry the
identifier, accessors its snake case (583), slot constants its upper-case form (355). All must be usable names and
no two of the same sort may be equal; `create` and `get_root` (744, 762) are methods next to the accessors. -/
def namesOk (fs : List Ir.Field) : Bool :=
  let ids := fs.map (·.ident)
  let accs := fs.map (fun f => Heck.snake f.ident)
  decide ids.Nodup && decide (accs ++ [c!"create", c!"get_root"]).Nodup && ids.all rustName && accs.all rustName &&
    decide (fs.map (fun f => Heck.shouty f.ident)).Nodup

/-- codegen.rs 623-624, 649, 679: the accessor of a union field calls the accessor `<name>_type`, which must exist,
be required just like the union field, and return the union's companion enum; the `match` on it (647-656, 675-681)
lists `None` and the union's variants. (The order of the variants would not matter to the compiler; the
companion made by ir/transform.rs 340-352 has this order.) -/
def unionTagOk (fs : List Ir.Field) (f : Ir.Field) : Bool :=
  match f.ty with
  | .union _ e uvs => fs.any fun g => Heck.snake g.ident == Heck.snake f.ident ++ c!"_type" &&
      g.required == f.required &&
      (match g.ty with
       | .enum i vs _ => i == e && vs.map (·.ident) == c!"None" :: uvs.map (·.ident)
       | _ => false)
  | _ => true

/-- codegen.rs 359-826 `ToTokens for ir::Table`, as the list of generated fields. -/
def compileTable (gm : Mode) (t : Ir.Table) : Option (List GField) :=
  if namesOk t.fields && t.fields.all (unionTagOk t.fields) then compileFields gm 0 t.fields else none

end Butte.Gen
