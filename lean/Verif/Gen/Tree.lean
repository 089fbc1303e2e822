import Verif.Gen.Spec
import Verif.Rt.Spec
/-
Trees of values, for the statements about whole object graphs. Nothing here models code: `Written` says by which calls
a caller wrote a tree, `readVal` is a caller that reads a whole tree through the generated accessors.
-/
namespace Butte.Gen
open Ir (QIdent)

/-- A value of a schema type. Scalars are given by their bit pattern, enum values and union members by the number of
the variant; a table lists its fields in the order of the schema. -/
inductive Val where
  | bits (n : Nat)
  | variant (i : Nat)
  | str (s : String)
  | vec (xs : List Val)
  | table (fields : List (Option Val))
  | union (i : Nat) (v : Val)

/-- The two zeros of `f32` or of `f64`. -/
def Zeros (a b : Nat) : Prop := (a = 0 ∨ a = 2 ^ 31) ∧ (b = 0 ∨ b = 2 ^ 31) ∨ (a = 0 ∨ a = 2 ^ 63) ∧ (b = 0 ∨ b = 2 ^ 63)

mutual
/-- The same value, up to the sign of floating-point zeros in table fields. -/
inductive Same : Val → Val → Prop
  | bits (n : Nat) : Same (.bits n) (.bits n)
  | variant (i : Nat) : Same (.variant i) (.variant i)
  | str (s : String) : Same (.str s) (.str s)
  | vec {xs ys : List Val} (h : xs.length = ys.length) (hs : ∀ i (hi : i < xs.length), Same xs[i] (ys[i]'(h ▸ hi))) :
      Same (.vec xs) (.vec ys)
  | table {xs ys : List (Option Val)} (h : xs.length = ys.length)
      (hs : ∀ i (hi : i < xs.length), SameField xs[i] (ys[i]'(h ▸ hi))) : Same (.table xs) (.table ys)
  | union (i : Nat) {v w : Val} (h : Same v w) : Same (.union i v) (.union i w)

/-- The same for a field of a table. -/
inductive SameField : Option Val → Option Val → Prop
  | none : SameField none none
  | some {v w : Val} (h : Same v w) : SameField (some v) (some w)
  | zero {a b : Nat} (h : Zeros a b) : SameField (some (.bits a)) (some (.bits b))
end

/-- The tables of a schema, by name. -/
abbrev Tables := QIdent → Option Ir.Table

/-! ### Writing -/

/-- The member of a union that is written with this tag (`0` is `None`). -/
def tagged (tag : Option Nat) (v : Val) : Option Val :=
  match tag with
  | some (j + 1) => some (.union j v)
  | _ => none

/-- The value of a field that is given argument `a`, when its offset, if it is one, leads to the value `v`. -/
def Kind.value (tag : Option Nat) (v : Val) : (k : Kind) → (req : Bool) → k.Arg req → Option Val
  | .scalar t _, _, a => some (.bits (a : SVal t).val)
  | .enum _ vals _, _, a => some (.variant (a : Fin vals.length).val)
  | .ref _, true, _ => some v
  | .ref _, false, some _ => some v
  | .ref _, false, none => none
  | .union _, true, _ => tagged tag v
  | .union _, false, some _ => tagged tag v
  | .union _, false, none => none

/-- The value of field `i` of a table made by `create`. -/
def fieldValue (gs : List GField) (args : Args gs) (w : Fin gs.length → Val) (i : Fin gs.length) : Option Val :=
  (gs.get i).kind.value (args.variant? gs ((gs.get i).name ++ c!"_type")) (w i) (gs.get i).required (args.get gs i)

/-- The type of what the offset given for a field of type `ty` leads to. -/
def pointee (tag : Option Nat) : Ir.Ty → Option Ir.Ty
  | .union _ _ uvs =>
    match tag with
    | some (j + 1) => uvs[j]?.map (·.ty)
    | _ => none
  | ty => some ty

/-- In builder `b` the value `v` of type `ty` has been written and its offset is `o`. A string, vector or table is
written by a call (`create_string`, `create_vector`, `create_vector_of_strings`, the generated `create`) that is
given offsets of values written before, in whatever order and with whatever other calls in between; it stays there
until `reset`. The same offset may be used any number of times. -/
inductive Written (gm m : Mode) (S : Tables) : Builder → Ir.Ty → Val → Nat → Prop
  | keep {b b' : Builder} {ty : Ir.Ty} {v : Val} {o : Nat} {ops : List Op} {rets : List (Option Nat)}
      (h : Written gm m S b ty v o) (e : run m b ops = .ok (rets, b')) (hr : NoReset ops) : Written gm m S b' ty v o
  | string {b b' : Builder} {s : String} {o : Nat} (hb : Reachable m b)
      (e : step m b (.createString s) = .ok (some o, b')) : Written gm m S b' .string (.str s) o
  | scalars {b b' : Builder} {t : Ast.Builtin} {items : List (SVal (builtinSTy t))} {o : Nat} (hb : Reachable m b)
      (e : step m b (.createVector (.sc (builtinSTy t)) items) = .ok (some o, b')) :
      Written gm m S b' (.array (.builtin t)) (.vec (items.map fun x => .bits x.val)) o
  | enums {b b' : Builder} {id : QIdent} {vs : List Ir.EnumVariant} {base : Ir.EnumBase}
      {vals : List (SVal (enumBaseSTy base))} (hv : enumValues (enumBaseSTy base) vs = some vals)
      {items : List (Fin vals.length)} {o : Nat} (hb : Reachable m b)
      (e : step m b (.createVector (.sc (enumBaseSTy base)) (items.map vals.get)) = .ok (some o, b')) :
      Written gm m S b' (.array (.enum id vs base)) (.vec (items.map fun x => .variant x.val)) o
  | strings {b b' : Builder} {xs : List String} {o : Nat} (hb : Reachable m b)
      (e : step m b (.createVectorOfStrings xs) = .ok (some o, b')) :
      Written gm m S b' (.array .string) (.vec (xs.map .str)) o
  | offsets {b b' : Builder} {t : Ir.Ty} {F : FTy} {items : List (Fin (2 ^ 32))} {xs : List Val} {o : Nat}
      (hb : Reachable m b) (ht : followTy t = some (.fwdU F)) (hl : xs.length = items.length)
      (hx : ∀ i (hi : i < xs.length), Written gm m S b t xs[i] (items[i]'(hl ▸ hi)).val)
      (e : step m b (.createVector .off items) = .ok (some o, b')) :
      Written gm m S b' (.array t) (.vec xs) o
  | table {b b' : Builder} {q : QIdent} {t : Ir.Table} {gs : List GField} {args : Args gs} {w : Fin gs.length → Val}
      {o : Nat} (hq : S q = some t) (hc : compileTable gm t = some gs) (hn : t.fields.length ≤ 32765)
      (hi : Idle m b) (e : create m b gs args = .ok (o, b')) (hfit : m = .release → o - b.usedSpace < 65536)
      (hx : ∀ (i : Fin gs.length) (x : Fin (2 ^ 32)) (f : Ir.Field) (ty : Ir.Ty),
        (gs.get i).kind.offset? (gs.get i).required (args.get gs i) = some x → t.fields[i.val]? = some f →
        pointee (args.variant? gs ((gs.get i).name ++ c!"_type")) f.ty = some ty → Written gm m S b ty (w i) x.val)
      (hreq : ∀ i : Fin gs.length, (gs.get i).required = true → fieldValue gs args w i ≠ none) :
      Written gm m S b' (.table q) (.table (List.ofFn (fieldValue gs args w))) o

/-! ### Reading -/

/-- All results, or the first failure. -/
def mapAll {α β : Type} (f : α → Res β) : List α → Res (List β)
  | [] => .ok []
  | x :: xs => do
    let y ← f x
    let ys ← mapAll f xs
    return y :: ys

/-- Read what an accessor of a field of type `ty` returned, with `rd` for what is behind offsets. -/
def readKind (rd : Ir.Ty → (f : FTy) → f.Inner → Res Val) (ty : Ir.Ty) : (k : Kind) → k.Inner → Res Val
  | .scalar t _, x => .ok (.bits (x : SVal t).val)
  | .enum _ _ _, i => .ok (.variant i)
  | .ref f, x => rd ty (.fwdU f) x
  | .union vs, ⟨i, x⟩ =>
    match ty with
    | .union _ _ uvs =>
      match uvs[i.val]? with
      | some u => do
        let v ← rd u.ty (vs.get i) x
        return .union i v
      | none => .panic
    | _ => .panic

/-- Read what is below the result of an accessor of a field of type `ty`. -/
def readField (rd : Ir.Ty → (f : FTy) → f.Inner → Res Val) (ty : Ir.Ty) (k : Kind) (res : Res (Option k.Inner)) :
    Res (Option Val) := do
  match ← res with
  | none => return none
  | some y => do
    let v ← readKind rd ty k y
    return some v

/-- Read everything below a value of type `ty` that was read as an `f`: strings as they are, vectors element by
element with `get`, tables field by field with the generated accessors. `n` bounds the depth. -/
def readVal (gm m : Mode) (S : Tables) : Nat → Ir.Ty → (f : FTy) → f.Inner → Res Val
  | 0, _, _, _ => .panic
  | _ + 1, .builtin _, .scalar t, x => .ok (.bits (x : SVal t).val)
  | _ + 1, .enum _ _ _, .enum _ _, i => .ok (.variant i)
  | _ + 1, .string, .fwdU .str, s => .ok (.str s)
  | n + 1, .array t, .fwdU (.vector e), v => do
    let len ← Vec.len m (v : Vec e)
    let xs ← mapAll (fun i => do
      let x ← Vec.get m (v : Vec e) i
      readVal gm m S n t e x) (List.range len)
    return .vec xs
  | n + 1, .table q, .fwdU .table, tb =>
    match S q with
    | none => .panic
    | some t =>
      match compileTable gm t with
      | none => .panic
      | some gs => do
        let fs ← mapAll (fun i : Fin gs.length =>
          match t.fields[i.val]? with
          | some f => readField (readVal gm m S n) f.ty (gs.get i).kind (accessor m (tb : Butte.Table) gs (gs.get i))
          | none => .panic) (List.finRange gs.length)
        return .table fs
  | _ + 1, _, _, _ => .panic

end Butte.Gen
