import Verif.Gen.Run
/-
Words for the statements about generated code. Nothing here models code.
-/
namespace Butte

/-- Read a value whose place is known: the target of an offset, or the value itself. -/
def FTy.atTarget (m : Mode) : (f : FTy) → Bytes → Nat → Res f.Inner
  | .fwdU f, buf, loc => f.follow m buf loc
  | f, buf, loc => f.follow m buf loc

/-- The integer a scalar stands for (its bit pattern read as signed for the signed types). -/
def SVal.int : {t : STy} → SVal t → Int
  | .i8, x => toSigned 8 x.val
  | .i16, x => toSigned 16 x.val
  | .i32, x => toSigned 32 x.val
  | .i64, x => toSigned 64 x.val
  | _, x => x.val

/-- The table does not store the slot: its vtable is too short, or holds 0 there. -/
def Table.Lacks (m : Mode) (t : Table) (slot : Nat) : Prop :=
  ∃ v, t.vtable m = .ok v ∧ (v.get m slot = .ok none ∨ v.get m slot = .ok (some 0))

/-- The table stores the scalar `v` in the slot. -/
def Table.Holds (m : Mode) (t : Table) (slot : Nat) (ty : STy) (x : SVal ty) : Prop :=
  ∃ v o l, t.vtable m = .ok v ∧ v.get m slot = .ok (some o) ∧ o ≠ 0 ∧ addU m t.loc o = .ok l ∧
    readScalarAt m ty t.buf l = .ok x

namespace Gen

/-- What a field that is not stored reads as: the default of the schema, or nothing. -/
def Kind.fallback : (k : Kind) → Option k.Inner
  | .scalar _ d => d
  | .enum _ _ d => d.map (·.val)
  | .ref _ | .union _ => none

/-- What reading a field that is not stored returns: the default; without one nothing, which for a required field is
the error `RequiredFieldMissing`. -/
def Kind.missing (k : Kind) (name : Str) (required : Bool) : Res (Option k.Inner) :=
  match k.fallback with
  | some d => .ok (some d)
  | none => if required then .err (.requiredFieldMissing (String.ofList name)) else .ok none

/-- The default of a field in the sense of the schema: the explicit or implicit one, zero or the first variant if
there is none, and nothing for offsets. -/
def Kind.schemaDefault : (k : Kind) → Option k.Inner
  | .scalar t d => some (d.getD (Fin.ofNat t.card 0))
  | .enum _ _ d => some (((d.map (·.val)).getD 0 : Nat))
  | .ref _ | .union _ => none

/-- Number of the variant given for an enum field. -/
def Kind.variant? : (k : Kind) → (req : Bool) → k.Arg req → Option Nat
  | .enum _ _ _, _, a => some (a : Fin _).val
  | _, _, _ => none

/-- Number of the variant given for the enum field called `name`. -/
def Args.variant? : (fs : List GField) → Args fs → Str → Option Nat
  | [], _, _ => none
  | f :: fs, (a, as), name => if f.name = name then f.kind.variant? f.required a else Args.variant? fs as name

/-- The offset given for a string, vector, table or union field. -/
def Kind.offset? : (k : Kind) → (req : Bool) → k.Arg req → Option (Fin (2 ^ 32))
  | .ref _, true, a | .union _, true, a => some a
  | .ref _, false, a | .union _, false, a => a
  | _, _, _ => none

/-- What reading a field that was given argument `a` must return, in data `buf` where the table was built after
`base` bytes had been written. `tag` is the variant number given for `<name>_type`.
* a scalar: the argument, or a default equal to it (these differ only as `0.0` and `-0.0`);
* an enum: the variant given;
* an offset to something written before the table: what stands there; `None` stays `None`;
* a union: the variant given, holding what stands at the offset; nothing for the variant `None`. -/
def ReadsBack (m : Mode) (buf : Bytes) (base : Nat) (name : Str) (tag : Option Nat) :
    (k : Kind) → (req : Bool) → k.Arg req → Res (Option k.Inner) → Prop
  | .scalar _ d, _, a, res => ∃ y, res = .ok (some y) ∧ (y = a ∨ ∃ d', d = some d' ∧ SVal.eqv a d' = true ∧ y = d')
  | .enum _ vals _, _, a, res => res = .ok (some (a : Fin vals.length).val)
  | .ref f, true, x, res => (x : Fin (2 ^ 32)).val ≤ base →
      res = (do let y ← f.follow m buf (buf.length - (x : Fin (2 ^ 32)).val); return some y)
  | .ref f, false, some x, res => x.val ≤ base →
      res = (do let y ← f.follow m buf (buf.length - x.val); return some y)
  | .ref _, false, none, res => res = .ok none
  | .union vs, true, x, res => ∃ k, tag = some k ∧
      (k = 0 → res = .err (.requiredFieldMissing (String.ofList name))) ∧
      (∀ j : Fin vs.length, k = j.val + 1 → (∃ F, vs.get j = .fwdU F) → (x : Fin (2 ^ 32)).val ≤ base →
        res = (do let y ← (vs.get j).atTarget m buf (buf.length - (x : Fin (2 ^ 32)).val); return some ⟨j, y⟩))
  | .union vs, false, some x, res => ∃ k, tag = some k ∧ (k = 0 → res = .ok none) ∧
      (∀ j : Fin vs.length, k = j.val + 1 → (∃ F, vs.get j = .fwdU F) → x.val ≤ base →
        res = (do let y ← (vs.get j).atTarget m buf (buf.length - x.val); return some ⟨j, y⟩))
  | .union _, false, none, res => res = .ok none

end Gen
end Butte
