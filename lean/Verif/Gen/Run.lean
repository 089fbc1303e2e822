import Verif.Rt.Builder
import Verif.Gen.Compile
/-
The behaviour of the code generated for a table: `create`, the `Default` of the argument record, and the
accessors (butte-build/src/codegen.rs 359-826).
-/
namespace Butte.Gen

/-! ### Building -/

/-- codegen.rs 394-435: the type of the field in the argument record. Scalars and enums are given by value,
everything else by offset, optional unless the field is required. -/
def Kind.Arg : Kind → Bool → Type
  | .scalar t _, _ => SVal t
  | .enum _ vals _, _ => Fin vals.length
  | .ref _, true | .union _, true => Fin (2 ^ 32)
  | .ref _, false | .union _, false => Option (Fin (2 ^ 32))

/-- The argument of a field. -/
abbrev GField.Arg (f : GField) : Type := f.kind.Arg f.required

/-- codegen.rs 792-795: the argument record, one value per field. -/
def Args : List GField → Type
  | [] => Unit
  | f :: fs => f.Arg × Args fs

/-- The argument of field number `i`. -/
def Args.get : (fs : List GField) → Args fs → (i : Fin fs.length) → (fs.get i).Arg
  | _ :: _, (a, _), ⟨0, _⟩ => a
  | _ :: fs, (_, as), ⟨i + 1, h⟩ => Args.get fs as ⟨i, Nat.lt_of_succ_lt_succ h⟩

/-- codegen.rs 373-391 (the call in `create`) with 512-560 (the `add_` method): one field. -/
def addField (m : Mode) (b : Builder) (slot : Nat) : (k : Kind) → (req : Bool) → k.Arg req → Res Builder
  | .scalar t none, _, a => b.pushSlotAlways m slot (p := .sc t) a
  | .scalar t (some d), _, a => b.pushSlot m slot (p := .sc t) a d
  | .enum t vals none, _, a => b.pushSlotAlways m slot (p := .sc t) (vals.get a)
  | .enum t vals (some d), _, a => b.pushSlot m slot (p := .sc t) (vals.get a) (vals.get d)
  | .ref _, true, a | .union _, true, a => b.pushSlotAlways m slot (p := .off) a
  | .ref _, false, some a | .union _, false, some a => b.pushSlotAlways m slot (p := .off) a
  | .ref _, false, none | .union _, false, none => .ok b

/-- codegen.rs 749: the `add_` calls, in field order. -/
def addFields (m : Mode) : Builder → (fs : List GField) → Args fs → Res Builder
  | b, [], _ => .ok b
  | b, f :: fs, (a, as) => do
    let b ← addField m b f.slot f.kind f.required a
    addFields m b fs as

/-- codegen.rs 710-719: `fbb.required(o, VT, name)` for every required field. -/
def checkRequired (m : Mode) (b : Builder) (o : Nat) : List GField → Res Unit
  | [] => .ok ()
  | f :: fs =>
    if f.required then do
      b.required m o f.slot
      checkRequired m b o fs
    else checkRequired m b o fs

/-- codegen.rs 744-751 `create`, with 809-821 `new` and `finish` of the table's builder. -/
def create (m : Mode) (b : Builder) (fs : List GField) (args : Args fs) : Res (Nat × Builder) := do
  let (start, b) ← b.startTable m
  let b ← addFields m b fs args
  let (o, b) ← b.endTable m start
  checkRequired m b o fs
  return (o, b)

/-- codegen.rs 456-496: the default of one argument: `None`, the explicit or implicit default value, or
`<ty>::default()`, which is zero for a builtin (0 bits in every type) and the first variant for an enum
(codegen.rs 903-910). `none` when there is no default (a required offset). -/
def Kind.defaultArg : (k : Kind) → (req : Bool) → Option (k.Arg req)
  | .scalar _ (some d), _ => some d
  | .scalar t none, _ => some (Fin.ofNat t.card 0)
  | .enum _ _ (some d), _ => some d
  | .enum _ vals none, _ => if h : 0 < vals.length then some ⟨0, h⟩ else none
  | .ref _, false | .union _, false => some none
  | .ref _, true | .union _, true => none

/-- codegen.rs 452-508: `Default for Args`; generated only if no offset is required (452-454). -/
def defaultArgs : (fs : List GField) → Option (Args fs)
  | [] => some ()
  | f :: fs =>
    match f.kind.defaultArg f.required, defaultArgs fs with
    | some a, some as => some (a, as)
    | _, _ => none

/-! ### Reading -/

/-- codegen.rs 76-172 with `wrap_outer = false`, 582-588: what the accessor hands out. A union value is the number
of its variant and the value of that variant. -/
def Kind.Inner : Kind → Type
  | .scalar t _ => SVal t
  | .enum _ _ _ => Nat
  | .ref f => f.Inner
  | .union vs => Σ i : Fin vs.length, (vs.get i).Inner

/-- The part common to all accessors (codegen.rs 607-708): `self.table.get::<T>(VT, default)?`; for a union the tag
is read first, and no tag or the tag `None` (variant 0) means no value. -/
def Kind.fetch (m : Mode) (t : Table) (slot : Nat) (tag : Res (Option Nat)) : (k : Kind) → Res (Option k.Inner)
  | .scalar ty d => t.get m (.scalar ty) slot d
  | .enum ty vals d => t.get m (enumFTy ty vals) slot (d.map (·.val))
  | .ref f => t.get m (.fwdU f) slot none
  | .union vs => do
    match ← tag with
    | none | some 0 => return none
    | some (i + 1) =>
      if h : i < vs.length then do
        let x ← t.get m (vs.get ⟨i, h⟩) slot none
        return x.map (fun v => ⟨⟨i, h⟩, v⟩)
      else .panic

/-- `Option::ok_or(RequiredFieldMissing(name))` (codegen.rs 642, 651, 692-694) for a required field. A required
accessor returns `T` where an optional one returns `Option<T>`; here both return an option. -/
def okOr {α : Type} (name : Str) (required : Bool) : Option α → Res (Option α)
  | some x => .ok (some x)
  | none => if required then .err (.requiredFieldMissing (String.ofList name)) else .ok none

/-- The accessor `self.<name>_type()` that a union accessor calls (codegen.rs 623-624, 649, 679). -/
def tagOf (m : Mode) (t : Table) (fs : List GField) (name : Str) : Res (Option Nat) :=
  match fs.find? (fun g => g.name == name ++ c!"_type") with
  | some ⟨n, slot, .enum ty vals d, req⟩ => do
    let x ← t.get m (enumFTy ty vals) slot (d.map (·.val))
    okOr n req x
  | _ => .panic

/-- codegen.rs 570-708: the accessor of field `f` in a table with fields `fs`. -/
def accessor (m : Mode) (t : Table) (fs : List GField) (f : GField) : Res (Option f.kind.Inner) := do
  let x ← f.kind.fetch m t f.slot (tagOf m t fs f.name)
  okOr f.name f.required x

/-- codegen.rs 1081-1087 `get_type` of a generated union: member number `i` gives the variant of the companion enum that
has the member's name (the first one, were there several; then the enum does not compile). -/
def unionGetType (evs : List Ir.EnumVariant) (uvs : List Ir.UnionVariant) (i : Nat) : Option Nat := do
  let u ← uvs[i]?
  evs.findIdx? fun v => v.ident == u.ident

end Butte.Gen
