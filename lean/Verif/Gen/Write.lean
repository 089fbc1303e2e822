import Verif.Gen.Evolve
import Verif.Gen.Progress
/-
Trees that conform to a schema and a caller that writes them, for the statements about whole object graphs. Nothing
here models code: `writeVal` is a caller of the builder and of the generated `create`.
-/
namespace Butte.Gen
open Ir (QIdent)

/-! ### Trees of a schema -/

/-- The variant that an enum field holds. -/
def Kind.variantOf : Kind → Option Val → Option Nat
  | .enum _ _ _, some (.variant i) => some i
  | _, _ => none

/-- The variant of the tag that goes with field `name`, in a table whose fields have the values `xs`. -/
def tagValue : List GField → List (Option Val) → Str → Option Nat
  | g :: gs, x :: xs, name =>
    if g.name = name ++ c!"_type" then
      g.kind.variantOf x
    else tagValue gs xs name
  | _, _, _ => none

/-- A field of this kind can have the value `x`, as far as the field itself goes: the value is of the right sort and
in range, required fields are there, a required scalar or enum differs from its default (the generated `create`
panics otherwise, C35), and a union value is the one its tag says. -/
def Kind.Takes (tag : Option Nat) : (k : Kind) → (req : Bool) → Option Val → Prop
  | .scalar t d, req, some (.bits n) =>
    n < t.card ∧ (req = true → ∀ d', d = some d' → SVal.eqv (Fin.ofNat t.card n : SVal t) d' = false)
  | .enum _ vals d, req, some (.variant i) =>
    i < vals.length ∧ (req = true → ∀ d' : Fin vals.length, d = some d' → i ≠ d'.val)
  | .ref _, _, some _ => True
  | .ref _, req, none => req = false
  | .union vs, _, some (.union j _) => j < vs.length ∧ tag = some (j + 1)
  | .union _, req, none => req = false
  | _, _, _ => False

/-- `v` is a value of type `ty` in the schema, and writing it takes at most `n` bytes, padding included. -/
inductive Conforms (gm : Mode) (S : Tables) : Ir.Ty → Val → Nat → Prop
  | string (s : String) : Conforms gm S .string (.str s) ((Builder.strBytes s).length + 16)
  | scalars (t : Ast.Builtin) (items : List (SVal (builtinSTy t))) :
      Conforms gm S (.array (.builtin t)) (.vec (items.map fun x => .bits x.val))
        (items.length * (builtinSTy t).size + 16)
  | enums (id : QIdent) (vs : List Ir.EnumVariant) (base : Ir.EnumBase) {vals : List (SVal (enumBaseSTy base))}
      (hv : enumValues (enumBaseSTy base) vs = some vals) (items : List (Fin vals.length)) :
      Conforms gm S (.array (.enum id vs base)) (.vec (items.map fun x => .variant x.val))
        (items.length * (enumBaseSTy base).size + 16)
  | vec {t : Ir.Ty} {F : FTy} (ht : followTy t = some (.fwdU F)) {xs : List Val} {ns : List Nat}
      (hl : ns.length = xs.length) (hx : ∀ (i : Nat) v n, xs[i]? = some v → ns[i]? = some n → Conforms gm S t v n) :
      Conforms gm S (.array t) (.vec xs) (ns.sum + xs.length * 4 + 16)
  | table {q : QIdent} {t : Ir.Table} {gs : List GField} (hq : S q = some t) (hc : compileTable gm t = some gs)
      (hn : t.fields.length ≤ 32765) (hfit : roomFor gs + 7 < 65536) {xs : List (Option Val)} {ns : List Nat}
      (hl : xs.length = gs.length) (hm : ns.length = gs.length)
      (hk : ∀ (i : Fin gs.length) x, xs[i.val]? = some x →
        (gs.get i).kind.Takes (tagValue gs xs (gs.get i).name) (gs.get i).required x)
      (hx : ∀ (i : Nat) f x n ty v, t.fields[i]? = some f → xs[i]? = some x → ns[i]? = some n →
        below f.ty x = some (ty, v) → Conforms gm S ty v n) :
      Conforms gm S (.table q) (.table xs) (ns.sum + roomFor gs + 2 * gs.length + 16)

/-! ### Writing them -/

/-- Write what is below a field and return the argument for `create`. -/
def writeField (wr : Builder → Ir.Ty → Val → Res (Nat × Builder)) (b : Builder) (ty : Ir.Ty) :
    (k : Kind) → (req : Bool) → Option Val → Res (k.Arg req × Builder)
  | .scalar t _, _, some (.bits n) => .ok (Fin.ofNat t.card n, b)
  | .enum _ vals _, _, some (.variant i) => if h : i < vals.length then .ok ((⟨i, h⟩ : Fin vals.length), b) else .panic
  | .ref _, false, none => .ok (none, b)
  | .union _, false, none => .ok (none, b)
  | .ref _, false, some v => offset v fun o => some o
  | .ref _, true, some v => offset v fun o => o
  | .union _, false, some v => offset v fun o => some o
  | .union _, true, some v => offset v fun o => o
  | _, _, _ => .panic
where
  offset {α : Type} (v : Val) (f : Fin (2 ^ 32) → α) : Res (α × Builder) :=
    match below ty (some v) with
    | some (ty, v) => do
      let (o, b) ← wr b ty v
      if h : o < 2 ^ 32 then return (f ⟨o, h⟩, b) else .panic
    | none => .panic

/-- Write what is below the fields, in order. -/
def writeFields (wr : Builder → Ir.Ty → Val → Res (Nat × Builder)) : Builder → List Ir.Field → (gs : List GField) →
    List (Option Val) → Res (Args gs × Builder)
  | b, _, [], _ => .ok ((), b)
  | b, f :: fs, g :: gs, x :: xs => do
    let (a, b) ← writeField wr b f.ty g.kind g.required x
    let (as, b) ← writeFields wr b fs gs xs
    return ((a, as), b)
  | _, _, _, _ => .panic

/-- Write the elements of a vector, in order. -/
def writeAll (wr : Builder → Val → Res (Nat × Builder)) : Builder → List Val → Res (List (Fin (2 ^ 32)) × Builder)
  | b, [] => .ok ([], b)
  | b, v :: vs => do
    let (o, b) ← wr b v
    if h : o < 2 ^ 32 then do
      let (os, b) ← writeAll wr b vs
      return (⟨o, h⟩ :: os, b)
    else .panic

/-- A call that returns an offset. -/
def offsetOf : Res (Option Nat × Builder) → Res (Nat × Builder)
  | .ok (some o, b) => .ok (o, b)
  | .ok (none, _) => .panic
  | .err e => .err e
  | .panic => .panic

/-- Write a value and everything below it, children first: `create_string`, `create_vector` and the generated
`create`. `n` bounds the depth. -/
def writeVal (gm m : Mode) (S : Tables) : Nat → Builder → Ir.Ty → Val → Res (Nat × Builder)
  | _ + 1, b, .string, .str s => offsetOf (step m b (.createString s))
  | _ + 1, b, .array (.builtin t), .vec xs =>
    match xs.mapM (fun | .bits n => some (Fin.ofNat (builtinSTy t).card n : SVal (builtinSTy t)) | _ => none) with
    | some items => offsetOf (step m b (.createVector (.sc (builtinSTy t)) items))
    | none => .panic
  | _ + 1, b, .array (.enum _ vs base), .vec xs =>
    match enumValues (enumBaseSTy base) vs with
    | some vals =>
      match xs.mapM (fun | .variant i => vals[i]? | _ => none) with
      | some items => offsetOf (step m b (.createVector (.sc (enumBaseSTy base)) items))
      | none => .panic
    | none => .panic
  | n + 1, b, .array t, .vec xs => do
    let (os, b) ← writeAll (fun b v => writeVal gm m S n b t v) b xs
    offsetOf (step m b (.createVector .off os))
  | n + 1, b, .table q, .table xs =>
    match S q with
    | none => .panic
    | some t =>
      match compileTable gm t with
      | none => .panic
      | some gs => do
        let (args, b) ← writeFields (writeVal gm m S n) b t.fields gs xs
        create m b gs args
  | _, _, _, _ => .panic

end Butte.Gen
