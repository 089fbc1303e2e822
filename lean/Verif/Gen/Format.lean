import Verif.Gen.Evolve
/-
The FlatBuffers binary format, as a relation between the bytes of a message and the value it stands for. Nothing here
models code of the project: the text follows the description of the format ("FlatBuffer Internals"), so that the
statements that use it say what programs made with other FlatBuffers implementations can rely on. Addresses are
counted from the start of the message.
-/
namespace Butte.Format
open Ir (QIdent)
open Gen (Val Tables below)

/-! ### Bytes -/

/-- The number with these bytes, the first being the lowest. -/
def littleEndian : Bytes → Nat
  | [] => 0
  | b :: bs => b.toNat + 256 * littleEndian bs

/-- The bytes `bs` stand at address `p`. -/
def BytesAt (buf : Bytes) (p : Nat) (bs : Bytes) : Prop := ∃ pre post, buf = pre ++ (bs ++ post) ∧ pre.length = p

/-- The `n` bytes at address `p` are the number `v`. -/
def NumAt (buf : Bytes) (p n v : Nat) : Prop := ∃ bs, BytesAt buf p bs ∧ bs.length = n ∧ littleEndian bs = v

/-- The `n` bytes at address `p` are the number `v` in two's complement. -/
def IntAt (buf : Bytes) (p n : Nat) (v : Int) : Prop := NumAt buf p n (v % 2 ^ (8 * n)).toNat

/-! ### Scalars -/

/-- Size of a scalar, which is its alignment too. -/
def width : Ast.Builtin → Nat
  | .bool | .byte | .int8 | .ubyte | .uint8 => 1
  | .short | .int16 | .ushort | .uint16 => 2
  | .int | .int32 | .uint | .uint32 | .float | .float32 => 4
  | .long | .int64 | .ulong | .uint64 | .double | .float64 => 8

/-- Size of an enum value. -/
def baseWidth : Ir.EnumBase → Nat
  | .byte | .int8 | .ubyte | .uint8 => 1
  | .short | .int16 | .ushort | .uint16 => 2
  | .int | .int32 | .uint | .uint32 => 4
  | .long | .int64 | .ulong | .uint64 => 8

/-- A scalar of type `t` with bit pattern `x`. A `bool` is 0 or 1. -/
def ScalarAt (buf : Bytes) (p : Nat) (t : Ast.Builtin) (x : Nat) : Prop :=
  NumAt buf p (width t) x ∧ (t = .bool → x ≤ 1)

/-- How numbers and defaults are understood. -/
structure Dialect where
  /-- the numbers of the variants of an enum -/
  numbers : List Ir.EnumVariant → List Int
  /-- what a field that is not stored holds -/
  absent : Ir.Field → Option Val
  /-- whether tables must store nothing beyond the fields of the schema, as a later version of the schema may have -/
  exact : Prop := False

/-- The same, with nothing stored beyond the fields of the schema if `p`. -/
def Dialect.limit (D : Dialect) (p : Prop) : Dialect := { D with exact := p }

/-- Variant number `i` of an enum. -/
def VariantAt (D : Dialect) (buf : Bytes) (p : Nat) (vs : List Ir.EnumVariant) (base : Ir.EnumBase) (i : Nat) : Prop :=
  ∃ n, (D.numbers vs)[i]? = some n ∧ IntAt buf p (baseWidth base) n

/-- Values that are stored elsewhere, with an offset to them. -/
inductive IsRef : Ir.Ty → Prop
  | string : IsRef .string
  | array (t : Ir.Ty) : IsRef (.array t)
  | table (q : QIdent) : IsRef (.table q)

/-! ### Tables -/

/-- A field of `w` bytes at distance `e` from the start of its table, which is at `loc` and `tsize` bytes long. -/
def Inline (loc tsize e w : Nat) : Prop := 4 ≤ e ∧ e + w ≤ tsize ∧ (loc + e) % w = 0

/-- The offset `o` at address `p` points forward. -/
def OffsetAt (buf : Bytes) (p o : Nat) : Prop := NumAt buf p 4 o ∧ 0 < o

/-- The vtable of the table at `loc` is at `vt` and `vsize` bytes long; the table itself is `tsize` bytes long. -/
structure Header (buf : Bytes) (loc vt vsize tsize : Nat) : Prop where
  aligned : loc % 4 = 0
  back : IntAt buf loc 4 ((loc : Int) - vt)
  vtAligned : vt % 2 = 0
  vtSize : NumAt buf vt 2 vsize
  vtEven : vsize % 2 = 0
  vtMin : 4 ≤ vsize
  vtInside : vt + vsize ≤ buf.length
  size : NumAt buf (vt + 2) 2 tsize
  sizeMin : 4 ≤ tsize
  inside : loc + tsize ≤ buf.length

/-- Entry number `i` of the vtable is `e`; entries beyond its end count as 0. -/
def EntryAt (buf : Bytes) (vt vsize i e : Nat) : Prop :=
  if 4 + 2 * i < vsize then NumAt buf (vt + 4 + 2 * i) 2 e else e = 0

/-- The member that the field `<name>_type` selects for the union field `f`: `some 0` is none of them. -/
def selector (fields : List Ir.Field) (xs : List (Option Val)) (f : Ir.Field) : Option Nat :=
  match fields.findIdx? (fun g => Heck.snake g.ident == Heck.snake f.ident ++ c!"_type") with
  | some i =>
    match xs[i]? with
    | some (some (.variant k)) => some k
    | _ => none
  | none => none

/-- Field `f` of the table at `loc`, whose vtable entry is `e`, holds `x`; when it is an offset, `o` is that offset. -/
inductive FieldAt (D : Dialect) (buf : Bytes) (loc tsize : Nat) (sel : Option Nat) (f : Ir.Field) (e o : Nat) :
    Option Val → Prop
  | absent (he : e = 0) : FieldAt D buf loc tsize sel f e o (D.absent f)
  | scalar {t : Ast.Builtin} {n : Nat} (ht : f.ty = .builtin t) (hi : Inline loc tsize e (width t))
      (hn : ScalarAt buf (loc + e) t n) : FieldAt D buf loc tsize sel f e o (some (.bits n))
  | enum {id : QIdent} {vs : List Ir.EnumVariant} {base : Ir.EnumBase} {i : Nat} (ht : f.ty = .enum id vs base)
      (hi : Inline loc tsize e (baseWidth base)) (hn : VariantAt D buf (loc + e) vs base i) :
      FieldAt D buf loc tsize sel f e o (some (.variant i))
  | ref {v : Val} (ht : IsRef f.ty) (hi : Inline loc tsize e 4) (ho : OffsetAt buf (loc + e) o) :
      FieldAt D buf loc tsize sel f e o (some v)
  | union {id en : QIdent} {uvs : List Ir.UnionVariant} {u : Ir.UnionVariant} {j : Nat} {v : Val}
      (ht : f.ty = .union id en uvs) (hs : sel = some (j + 1)) (hu : uvs[j]? = some u) (hr : IsRef u.ty)
      (hi : Inline loc tsize e 4) (ho : OffsetAt buf (loc + e) o) : FieldAt D buf loc tsize sel f e o (some (.union j v))
  | unionNone {id en : QIdent} {uvs : List Ir.UnionVariant} (ht : f.ty = .union id en uvs)
      (hs : sel = none ∨ sel = some 0) (hi : Inline loc tsize e 4) : FieldAt D buf loc tsize sel f e o none

/-! ### Values -/

/-- The value `v` of type `ty`, which is a string, a vector or a table, is stored at address `loc`. -/
inductive Holds (D : Dialect) (S : Tables) (buf : Bytes) : Ir.Ty → Val → Nat → Prop
  | string {s : String} {loc : Nat} (ha : loc % 4 = 0) (hl : NumAt buf loc 4 s.toUTF8.size)
      (hb : BytesAt buf (loc + 4) (s.toUTF8.data.toList ++ [0])) : Holds D S buf .string (.str s) loc
  | scalars {t : Ast.Builtin} {xs : List Nat} {loc : Nat} (ha : loc % 4 = 0) (hw : (loc + 4) % width t = 0)
      (hl : NumAt buf loc 4 xs.length)
      (hx : ∀ i (hi : i < xs.length), ScalarAt buf (loc + 4 + width t * i) t xs[i]) :
      Holds D S buf (.array (.builtin t)) (.vec (xs.map .bits)) loc
  | enums {id : QIdent} {vs : List Ir.EnumVariant} {base : Ir.EnumBase} {xs : List Nat} {loc : Nat} (ha : loc % 4 = 0)
      (hw : (loc + 4) % baseWidth base = 0) (hl : NumAt buf loc 4 xs.length)
      (hx : ∀ i (hi : i < xs.length), VariantAt D buf (loc + 4 + baseWidth base * i) vs base xs[i]) :
      Holds D S buf (.array (.enum id vs base)) (.vec (xs.map .variant)) loc
  | offsets {t : Ir.Ty} {xs : List Val} {os : List Nat} {loc : Nat} (ht : IsRef t) (ha : loc % 4 = 0)
      (hl : NumAt buf loc 4 xs.length) (hn : os.length = xs.length)
      (ho : ∀ i (hi : i < os.length), OffsetAt buf (loc + 4 + 4 * i) os[i])
      (hx : ∀ (i : Nat) o x, os[i]? = some o → xs[i]? = some x → Holds D S buf t x (loc + 4 + 4 * i + o)) :
      Holds D S buf (.array t) (.vec xs) loc
  | table {q : QIdent} {t : Ir.Table} {xs : List (Option Val)} {es os : List Nat} {loc vt vsize tsize : Nat}
      (hq : S q = some t) (hh : Header buf loc vt vsize tsize) (hn : xs.length = t.fields.length)
      (hes : es.length = t.fields.length) (hos : os.length = t.fields.length)
      (he : ∀ i (hi : i < es.length), EntryAt buf vt vsize i es[i])
      (hf : ∀ (i : Nat) f e o x, t.fields[i]? = some f → es[i]? = some e → os[i]? = some o → xs[i]? = some x →
        FieldAt D buf loc tsize (selector t.fields xs f) f e o x)
      (hr : ∀ (i : Nat) f x, t.fields[i]? = some f → xs[i]? = some x → f.required = true → x ≠ none)
      (hx : ∀ (i : Nat) f e o x ty v, t.fields[i]? = some f → es[i]? = some e → os[i]? = some o → xs[i]? = some x →
        below f.ty x = some (ty, v) → Holds D S buf ty v (loc + e + o))
      (hc : D.exact → ∀ i, t.fields.length ≤ i → EntryAt buf vt vsize i 0) :
      Holds D S buf (.table q) (.table xs) loc

/-- `buf` is a message with root `v`, a table of type `q`: the offset of the root comes first, or after the length of
what follows if there is a size prefix; then the file identifier, if there is one. -/
structure Message (D : Dialect) (S : Tables) (sizePrefixed : Bool) (ident : Option Bytes) (q : QIdent) (v : Val)
    (buf : Bytes) : Prop where
  /-- the size prefix -/
  size : sizePrefixed = true → 4 ≤ buf.length ∧ NumAt buf 0 4 (buf.length - 4)
  /-- the file identifier -/
  ident : ∀ id, ident = some id → id.length = 4 ∧ BytesAt buf (if sizePrefixed then 8 else 4) id
  /-- the root -/
  root : ∃ o, OffsetAt buf (if sizePrefixed then 4 else 0) o ∧
    Holds D S buf (.table q) v ((if sizePrefixed then 4 else 0) + o)

/-! ### Dialects -/

/-- FlatBuffers' rule for the variants of an enum: the number that is given, or else one more than the one before. -/
def numbersFrom : Int → List Ir.EnumVariant → List Int
  | _, [] => []
  | next, v :: vs => v.value.getD next :: numbersFrom (v.value.getD next + 1) vs

/-- FlatBuffers: numbers count on, and a scalar or enum field that is not stored holds its default, which is 0 if the
schema does not say otherwise. -/
def flatbuffers : Dialect where
  numbers := numbersFrom 0
  absent f :=
    match f.ty, f.default with
    | .builtin _, none => some (.bits 0)
    | .builtin b, some (.scalar s) => (Gen.literal (Gen.builtinSTy b) s).map fun x => .bits x.val
    | .enum _ vs _, none => ((numbersFrom 0 vs).findIdx? (· == 0)).map .variant
    | .enum _ vs _, some (.ident i) => (vs.findIdx? (fun v => v.ident == i)).map .variant
    | _, _ => none

/-- What the generated code makes of it: a variant without a number has its position as number, and a scalar or enum
field without default that is not stored holds nothing. -/
def generated : Dialect where
  numbers vs := vs.mapIdx fun i v => v.value.getD i
  absent f :=
    match f.ty, f.default with
    | .builtin b, some (.scalar s) => (Gen.literal (Gen.builtinSTy b) s).map fun x => .bits x.val
    | .enum _ vs _, some (.ident i) => (vs.findIdx? (fun v => v.ident == i)).map .variant
    | _, _ => none

/-- The variants of the enums in this type have the numbers that the generated code gives them. (There is no code for
structs.) -/
inductive SameNumbers (D : Dialect) : Ir.Ty → Prop
  | builtin (b : Ast.Builtin) : SameNumbers D (.builtin b)
  | string : SameNumbers D .string
  | table (q : QIdent) : SameNumbers D (.table q)
  | struct (id : QIdent) (fields : List Ir.Field) : SameNumbers D (.struct id fields)
  | array {t : Ir.Ty} (h : SameNumbers D t) : SameNumbers D (.array t)
  | enum {id : QIdent} {vs : List Ir.EnumVariant} {base : Ir.EnumBase}
      (h : D.numbers vs = generated.numbers vs) : SameNumbers D (.enum id vs base)
  | union {id e : QIdent} {uvs : List Ir.UnionVariant} (h : ∀ u ∈ uvs, SameNumbers D u.ty) :
      SameNumbers D (.union id e uvs)

/-- The same for all enums of the schema. -/
def Numbered (D : Dialect) (S : Tables) : Prop := ∀ q t, S q = some t → ∀ f ∈ t.fields, SameNumbers D f.ty

/-- `D` and the generated code agree on what a field that is not stored holds, except for scalar and enum fields without
default. -/
def SameDefaults (D : Dialect) (S : Tables) : Prop := ∀ q t, S q = some t → ∀ f ∈ t.fields,
  (f.default ≠ none ∨ match f.ty with | .builtin _ | .enum .. => False | _ => True) → D.absent f = generated.absent f

/-- Every scalar and enum field of the schema has a default. -/
def Defaulted (S : Tables) : Prop := ∀ q t, S q = some t → ∀ f ∈ t.fields,
  (match f.ty with | .builtin _ | .enum .. => True | _ => False) → f.default ≠ none

/-- FlatBuffers' own rule: only fields that are offsets can be required. -/
def RequiredOffsets (S : Tables) : Prop := ∀ q t, S q = some t → ∀ f ∈ t.fields, f.required = true →
  match f.ty with | .builtin _ | .enum .. => False | _ => True

/-- The enum that tells the members of a union apart begins with `NONE`, which is what it holds if not stored. -/
def TagsBeginWithNone (S : Tables) : Prop := ∀ q t, S q = some t → ∀ f ∈ t.fields, ∀ g ∈ t.fields,
  Heck.snake g.ident = Heck.snake f.ident ++ c!"_type" → flatbuffers.absent g = none ∨ flatbuffers.absent g = some (.variant 0)

/-- What a field of type `f.ty` holds, first as FlatBuffers and then as the generated code understands it: a scalar or
enum without default that is not stored is missing from the latter; otherwise they agree as far as the field itself
goes. -/
inductive ViewField (f : Ir.Field) : Option Val → Option Val → Prop
  | same (x : Option Val) (h : ∀ ty v, below f.ty x ≠ some (ty, v)) : ViewField f x x
  | unset {x : Val} (hd : f.default = none) (h : flatbuffers.absent f = some x) : ViewField f (some x) none
  | ref {v w : Val} (h : IsRef f.ty) : ViewField f (some v) (some w)
  | union {id en : QIdent} {uvs : List Ir.UnionVariant} {j : Nat} {v w : Val} (h : f.ty = .union id en uvs) :
      ViewField f (some (.union j v)) (some (.union j w))

/-- The same for whole values. -/
inductive View (S : Tables) : Ir.Ty → Val → Val → Prop
  | str (s : String) : View S .string (.str s) (.str s)
  | scalars (t : Ast.Builtin) (xs : List Nat) : View S (.array (.builtin t)) (.vec (xs.map .bits)) (.vec (xs.map .bits))
  | enums (id : QIdent) (vs : List Ir.EnumVariant) (b : Ir.EnumBase) (xs : List Nat) :
      View S (.array (.enum id vs b)) (.vec (xs.map .variant)) (.vec (xs.map .variant))
  | vec {t : Ir.Ty} {xs ys : List Val} (h : xs.length = ys.length)
      (hs : ∀ (i : Nat) x y, xs[i]? = some x → ys[i]? = some y → View S t x y) : View S (.array t) (.vec xs) (.vec ys)
  | table {q : QIdent} {t : Ir.Table} {xs ys : List (Option Val)} (hq : S q = some t) (hx : xs.length = t.fields.length)
      (hy : ys.length = t.fields.length)
      (hf : ∀ (i : Nat) f x y, t.fields[i]? = some f → xs[i]? = some x → ys[i]? = some y → ViewField f x y)
      (hs : ∀ (i : Nat) f x y ty ty' v w, t.fields[i]? = some f → xs[i]? = some x → ys[i]? = some y →
        below f.ty x = some (ty, v) → below f.ty y = some (ty', w) → View S ty v w) :
      View S (.table q) (.table xs) (.table ys)

end Butte.Format
