import Verif.Rs.Traits
import Verif.Gen.Write
/-
Callers that write and read whole object graphs with the emitted program. Nothing here models code: these are programs a
user could write against the generated interface, calling the functions of the emitted program by name and the builder and
the vectors of the runtime directly. Compare `Gen.writeVal` and `Gen.readVal`, which do the same with the model of the generated code.
-/
namespace Butte.Rs
open Ir (QIdent)
open Gen (Tables Val below mapAll writeAll offsetOf)

/-- A state to call functions in that do not look at it. -/
def anySt : St := ⟨⟨[], 0, [], [], false, false, 0⟩, []⟩

/-- A call of a function that returns a `Result`. Whatever else happens counts as a panic. -/
def returned : Out Value → Res Value
  | .val (.ok v) _ => .ok v
  | .val (.err e) _ => .err e
  | _ => .panic

/-! ### Reading -/

/-- A number, or a variant, told by its name. -/
def leafText : Ir.Ty → Value → Res Val
  | .builtin _, .scalar _ x => .ok (.bits x.val)
  | .enum q vs _, .variant m k v =>
    if m = modOf q ∧ k = QIdent.simple q then
      match vs.findIdx? (fun w => w.ident == v) with
      | some i => .ok (.variant i)
      | none => .panic
    else .panic
  | _, _ => .panic

/-- Read what an accessor of a field of type `ty` returned, with `rd` for what is behind offsets. The member of a union is
told by its name. -/
def kindText (rd : Ir.Ty → Value → Res Val) : Ir.Ty → Value → Res Val
  | .union q _ uvs, .union m k u y =>
    if m = modOf q ∧ k = QIdent.simple q then
      match uvs.findIdx? (fun w => w.ident == u) with
      | some j =>
        match uvs[j]? with
        | some w => do
          let v ← rd w.ty y
          return .union j v
        | none => .panic
      | none => .panic
    else .panic
  | .union .., _ => .panic
  | .builtin b, x => leafText (.builtin b) x
  | .enum q vs b, x => leafText (.enum q vs b) x
  | ty, x => rd ty x

/-- Read what is below the result of an accessor. -/
def fieldText (rd : Ir.Ty → Value → Res Val) (f : Ir.Field) (res : Res Value) : Res (Option Val) := do
  match f.required, ← res with
  | true, x => do
    let v ← kindText rd f.ty x
    return some v
  | false, .none => return none
  | false, .some x => do
    let v ← kindText rd f.ty x
    return some v
  | false, _ => .panic

/-- Read everything below a value of type `ty`: strings as they are, vectors element by element with `get`, tables field by
field with the accessors of the emitted program. `n` bounds the depth. -/
def readText (md : Mode) (P : Program) (S : Tables) : Nat → Ir.Ty → Value → Res Val
  | 0, _, _ => .panic
  | _ + 1, .builtin b, x => leafText (.builtin b) x
  | _ + 1, .enum q vs b, x => leafText (.enum q vs b) x
  | _ + 1, .string, .str s => .ok (.str s)
  | n + 1, .array t, .vector e v => do
    let len ← Vec.len md v
    let xs ← mapAll (fun i => do
      let x ← Vec.get md v i
      match e.value x with
      | some y => readText md P S n t y
      | none => .panic) (List.range len)
    return .vec xs
  | n + 1, .table q, x =>
    match S q with
    | none => .panic
    | some t => do
      let fs ← mapAll (fun f => fieldText (readText md P S n) f
        (returned (callFn md P 9 (modOf q) (QIdent.simple q) (Heck.snake f.ident) [x] anySt))) t.fields
      return .table fs
  | _ + 1, _, _ => .panic

/-- The table at the root: with the emitted `get_root`, or (there is no such function) with that of the runtime for buffers with
a size prefix and the emitted `from`. -/
def rootText (md : Mode) (P : Program) (q : QIdent) (sizePrefixed : Bool) (buf : Bytes) : Res Value :=
  if sizePrefixed then do
    let tb ← Table.getSizePrefixedRoot md buf
    match callTrait md P 3 (modOf q) (QIdent.simple q) (.std c!"From") c!"from" [.table tb] anySt with
    | .val v _ => .ok v
    | _ => .panic
  else returned (callFn md P 3 (modOf q) (QIdent.simple q) c!"get_root" [.bytes buf] anySt)

/-! ### Writing -/

/-- Write what is below a field and return the field of the argument record. -/
def argText (wr : Builder → Ir.Ty → Val → Res (Nat × Builder)) (b : Builder) (f : Ir.Field) (x : Option Val) :
    Res (Value × Builder) :=
  match f.ty, x with
  | .builtin t, some (.bits n) => .ok (.scalar (Gen.builtinSTy t) (Fin.ofNat _ n), b)
  | .builtin _, _ => .panic
  | .enum q vs _, some (.variant i) =>
    match vs[i]? with
    | some v => .ok (.variant (modOf q) (QIdent.simple q) v.ident, b)
    | none => .panic
  | .enum .., _ => .panic
  | _, none => if f.required then .panic else .ok (.none, b)
  | ty, some v =>
    match below ty (some v) with
    | some (ty, v) => do
      let (o, b) ← wr b ty v
      if o < 2 ^ 32 then return (if f.required then .offset o else .some (.offset o), b) else .panic
    | none => .panic

/-- Write what is below the fields, in order. -/
def argsText (wr : Builder → Ir.Ty → Val → Res (Nat × Builder)) : Builder → List Ir.Field → List (Option Val) →
    Res (List (Str × Value) × Builder)
  | b, [], _ => .ok ([], b)
  | b, f :: fs, x :: xs => do
    let (a, b) ← argText wr b f x
    let (as, b) ← argsText wr b fs xs
    return ((f.ident, a) :: as, b)
  | _, _, [] => .panic

/-- Write a value and everything below it, children first: `create_string`, `create_vector` and the `create` functions of the
emitted program. Vectors of enums are written as vectors of their values, which is what the emitted `push` does (C74). -/
def writeText (md : Mode) (P : Program) (S : Tables) : Nat → Builder → Ir.Ty → Val → Res (Nat × Builder)
  | _ + 1, b, .string, .str s => offsetOf (step md b (.createString s))
  | _ + 1, b, .array (.builtin t), .vec xs =>
    match xs.mapM (fun | .bits n => some (Fin.ofNat (Gen.builtinSTy t).card n : SVal (Gen.builtinSTy t)) | _ => none) with
    | some items => offsetOf (step md b (.createVector (.sc (Gen.builtinSTy t)) items))
    | none => .panic
  | _ + 1, b, .array (.enum _ vs base), .vec xs =>
    match Gen.enumValues (Gen.enumBaseSTy base) vs with
    | some vals =>
      match xs.mapM (fun | .variant i => vals[i]? | _ => none) with
      | some items => offsetOf (step md b (.createVector (.sc (Gen.enumBaseSTy base)) items))
      | none => .panic
    | none => .panic
  | n + 1, b, .array t, .vec xs => do
    let (os, b) ← writeAll (fun b v => writeText md P S n b t v) b xs
    offsetOf (step md b (.createVector .off os))
  | n + 1, b, .table q, .table xs =>
    match S q with
    | none => .panic
    | some t => do
      let (args, b) ← argsText (writeText md P S n) b t.fields xs
      match callFn md P 4 (modOf q) (QIdent.simple q) c!"create"
          [.builder, .struct (modOf q) (QIdent.simple q ++ c!"Args") args] ⟨b, []⟩ with
      | .val (.offset o) s => .ok (o, s.fbb)
      | _ => .panic
  | _, _, _, _ => .panic

end Butte.Rs
