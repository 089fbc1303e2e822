import Verif.Mem.Model
/-
Reading on machines with another pointer width: the reading half of `Mem/Model` once more, with `usize` of `w` bits (and
`isize::MAX = 2 ^ (w - 1) - 1`, so that a slice has less than `2 ^ (w - 1)` bytes). With `w = 64` it is that model (C95_same). What
differs is where sums and products wrap, or panic in debug builds, and the size of types that hold pointers.
-/
namespace Butte.Word
open Mem
open Mem.Tr (touch onRes within)

/-- `size_of::<T>()`: a slice is two words, a handle three. -/
def wordSize (w : Nat) : FTy → Nat
  | .scalar t => t.size
  | .str | .slice _ => 2 * (w / 8)
  | .vector _ | .table | .vtable => 3 * (w / 8)
  | .fileId | .skipSize _ | .skipRoot _ | .skipFileId _ => 0
  | .fwdU _ | .backS _ => 4
  | .fwdV _ => 2
  | .enum t _ => t.size

/-- vector.rs 203-213 `VectorIter::new`. -/
def vnew (w : Nat) (m : Mode) {e : FTy} (v : Vec e) (len : Nat) : Res (VIter e) := do
  let l ← addW w m v.loc 4
  return ⟨v.buf, l, len⟩

/-- endian_scalar.rs 167-170 `read_scalar_at::<A>`. -/
def readScalarAtAs (w : Nat) (m : Mode) (A t : STy) (s : Bytes) (loc : Nat) : Tr (SVal t) := do
  let e ← addW w m loc t.size
  let buf ← sliceGet s loc e
  within s loc (readScalarAs A t buf)

/-- endian_scalar.rs 167-170 `read_scalar_at`. -/
def readScalarAt (w : Nat) (m : Mode) (t : STy) (s : Bytes) (loc : Nat) : Tr (SVal t) := readScalarAtAs w m t t s loc

/-- `read_scalar_at::<T>(..)? as usize` for an unsigned `T`. -/
def readNatAt (w : Nat) (m : Mode) (t : STy) (s : Bytes) (loc : Nat) : Tr Nat := do
  let v ← readScalarAt w m t s loc
  return v.val

/-! ### Reading (vtable.rs, primitives.rs, vector.rs, table.rs) -/

namespace VTable

/-- vtable.rs 41-43 `num_bytes`. -/
def numBytes (w : Nat) (m : Mode) (v : VTable) : Tr Nat := readNatAt w m .u16 v.buf v.loc

/-- vtable.rs 38-40 `num_fields`. -/
def numFields (w : Nat) (m : Mode) (v : VTable) : Tr Nat := do
  let n ← numBytes w m v
  subW w m (n / 2) 2

/-- vtable.rs 44-47 `object_inline_num_bytes`. -/
def objectInlineNumBytes (w : Nat) (m : Mode) (v : VTable) : Tr Nat := do
  let l ← addW w m v.loc 2
  readNatAt w m .u16 v.buf l

/-- vtable.rs 48-57 `get_field`. -/
def getField (w : Nat) (m : Mode) (v : VTable) (idx : Nat) : Tr (Option Nat) := do
  let nf ← numFields w m v
  if idx > nf then return none
  let a ← addW w m v.loc 2
  let b ← addW w m a 2
  let c ← mulW w m 2 idx
  let l ← addW w m b c
  let x ← readNatAt w m .u16 v.buf l
  return some x

/-- vtable.rs 58-63 `get`. -/
def get (w : Nat) (m : Mode) (v : VTable) (byteLoc : Nat) : Tr (Option Nat) := do
  let n ← numBytes w m v
  if byteLoc ≥ n then return none
  let l ← addW w m v.loc byteLoc
  let x ← readNatAt w m .u16 v.buf l
  return some x

/-- vtable.rs 64-69 `as_bytes`. -/
def asBytes (w : Nat) (m : Mode) (v : VTable) : Tr Bytes := do
  let len ← numBytes w m v
  let e ← addW w m v.loc len
  sliceGet v.buf v.loc e

/-- vtable.rs 28-32 `PartialEq`: both `as_bytes()` are computed, a panic in the first one ends it. -/
def eqv (w : Nat) (m : Mode) (v v' : VTable) : Tr Bool :=
  let x := asBytes w m v
  let y := asBytes w m v'
  match x.res with
  | .panic => ⟨x.log, .panic⟩
  | r => ⟨x.log ++ y.log, match r, y.res with
    | _, .panic => .panic
    | .ok a, .ok b => .ok (a == b)
    | .err a, .err b => .ok (a == b)
    | _, _ => .ok false⟩

end VTable

/-- vector.rs 137-161 `<&str as Follow>::follow`. -/
def followStr (w : Nat) (m : Mode) (buf : Bytes) (loc : Nat) : Tr String := do
  let len ← readNatAt w m .u32 buf loc
  let a ← addW w m loc 4
  let endLoc ← addW w m a len
  if endLoc ≥ buf.length then Tr.lift (.err .outOfBounds)
  else do
    let z ← match buf[endLoc]? with
      | some z => Tr.lift (.ok z)
      | none => Tr.lift .panic
    if z ≠ 0 then Tr.lift (.err .nonNullTerminatedString)
    else do
      let slice ← sliceIdx buf a endLoc
      match String.fromUTF8? (ByteArray.mk slice.toArray) with
      | some s => return s
      | none => Tr.lift (.err .nonUtf8String)

/-- vector.rs 164-174 `follow_slice_helper`, 86-98 `safe_slice`: `from_raw_parts(ptr, len)`. -/
def followSlice (w : Nat) (m : Mode) (t : STy) (buf : Bytes) (loc : Nat) : Tr (List (SVal t)) := do
  debugAssert m (0 < t.size)
  let len ← readNatAt w m .u32 buf loc
  let a ← addW w m loc 4
  let n ← mulW w m len t.size
  let e ← addW w m a n
  let data ← sliceGet buf a e
  touch ⟨false, t, len, a, buf⟩
  return castSlice t len data

/-- `Follow::follow` for every followable type. -/
def follow (w : Nat) (m : Mode) : (f : FTy) → Bytes → Nat → Tr f.Inner
  | .scalar t, buf, loc => readScalarAtAs w m (readAs t) t buf loc
  | .str, buf, loc => followStr w m buf loc
  | .slice t, buf, loc => followSlice w m t buf loc
  | .vector e, buf, loc => (return (⟨buf, loc⟩ : Vec e) : Tr (Vec e))
  | .table, buf, loc => (return (⟨buf, loc⟩ : Table) : Tr Table)
  | .vtable, buf, loc => (return (⟨buf, loc⟩ : Butte.VTable) : Tr Butte.VTable)
  | .fileId, buf, loc => (do
    let e ← addW w m loc 4
    sliceGet buf loc e : Tr Bytes)
  | .fwdU t, buf, loc => do
    let e ← addW w m loc 4
    let slice ← sliceGet buf loc e
    let off ← within buf loc (Mem.readScalar .u32 slice)
    let l ← addW w m loc off.val
    follow w m t buf l
  | .fwdV t, buf, loc => do
    let e ← addW w m loc 2
    let slice ← sliceGet buf loc e
    let off ← within buf loc (Mem.readScalar .u16 slice)
    let l ← addW w m loc off.val
    follow w m t buf l
  | .backS t, buf, loc => do
    let e ← addW w m loc 4
    let slice ← sliceGet buf loc e
    let off ← within buf loc (Mem.readScalar .i32 slice)
    let d ← subS 32 m (toSigned 32 (loc % 2 ^ 32)) (toSigned 32 off.val)
    follow w m t buf (ofSigned w d)
  | .skipSize t, buf, loc => do
    let l ← addW w m loc 4
    follow w m t buf l
  | .skipRoot t, buf, loc => do
    let l ← addW w m loc 4
    follow w m t buf l
  | .skipFileId t, buf, loc => do
    let l ← addW w m loc 4
    follow w m t buf l
  | .enum t vals, buf, loc => (do
    let v ← readScalarAt w m t buf loc
    enumTryFrom vals v.val : Tr Nat)

namespace Table

/-- table.rs 42-44 `get_root`. -/
def getRoot (w : Nat) (m : Mode) (buf : Bytes) : Tr Table := follow w m (.fwdU .table) buf 0

/-- table.rs 46-48 `get_size_prefixed_root`. -/
def getSizePrefixedRoot (w : Nat) (m : Mode) (buf : Bytes) : Tr Table := follow w m (.skipSize (.fwdU .table)) buf 0

/-- table.rs 50-52 `vtable`. -/
def vtable (w : Nat) (m : Mode) (t : Table) : Tr VTable := follow w m (.backS .vtable) t.buf t.loc

/-- table.rs 55-70 `get::<T>(slot, default)`. -/
def get (w : Nat) (m : Mode) (t : Table) (f : FTy) (slot : Nat) (default : Option f.Inner) : Tr (Option f.Inner) := do
  let vt ← vtable w m t
  let vo ← VTable.get w m vt slot
  match vo with
  | some offset =>
    if offset = 0 then return default
    else do
      let l ← addW w m t.loc offset
      let x ← follow w m f t.buf l
      return some x
  | none => return default

end Table

/-- table.rs 102-112 `buffer_has_identifier`. -/
def bufferHasIdentifier (w : Nat) (m : Mode) (data ident : Bytes) (sizePrefixed : Bool) : Tr Bool := do
  assert (ident.length == 4)
  let got ← if sizePrefixed then (follow w m (.skipSize (.skipRoot .fileId)) data 0 : Tr Bytes)
    else (follow w m (.skipRoot .fileId) data 0 : Tr Bytes)
  return ident == got

namespace Vec

/-- vector.rs 57-59 `len`. -/
def len (w : Nat) (m : Mode) {e : FTy} (v : Vec e) : Tr Nat := readNatAt w m .u32 v.buf v.loc

/-- vector.rs 61-63 `is_empty`. -/
def isEmpty (w : Nat) (m : Mode) {e : FTy} (v : Vec e) : Tr Bool := do
  let n ← len w m v
  return n == 0

/-- vector.rs 68-73 `get`. -/
def get (w : Nat) (m : Mode) {e : FTy} (v : Vec e) (idx : Nat) : Tr e.Inner := do
  if m = .debug then
    let n ← readNatAt w m .u32 v.buf v.loc
    debugAssert m (idx < n)
  debugAssert m (0 < (wordSize w e))
  let a ← addW w m v.loc 4
  let b ← mulW w m (wordSize w e) idx
  let l ← addW w m a b
  follow w m e v.buf l

/-- vector.rs 86-98 `safe_slice`. -/
def safeSlice (w : Nat) (m : Mode) {t : STy} (v : Vec (.scalar t)) : Tr (List (SVal t)) := followSlice w m t v.buf v.loc

/-- vector.rs 76-81 `Vector::iter`. -/
def iter (w : Nat) (m : Mode) {e : FTy} (v : Vec e) : Tr (VIter e) := do
  let len ← onRes (Res.unwrapOr 0) (len w m v)
  vnew w m v len

end Vec

namespace VIter

/-- vector.rs 232-244 `next`. -/
def next (w : Nat) (m : Mode) {e : FTy} (it : VIter e) : Tr (VIter.Item e × VIter e) := do
  debugAssert m (0 < (wordSize w e))
  if it.remaining = 0 then return (none, it)
  else do
    let r ← onRes VIter.item (follow w m e it.buf it.loc)
    let l ← addW w m it.loc (wordSize w e)
    return (some r, { it with loc := l, remaining := it.remaining - 1 })

/-- vector.rs 247-258 `nth`. -/
def nth (w : Nat) (m : Mode) {e : FTy} (it : VIter e) (n : Nat) : Tr (VIter.Item e × VIter e) := do
  debugAssert m (0 < (wordSize w e))
  let d ← mulW w m (wordSize w e) n
  next w m { it with remaining := it.remaining - n, loc := (it.loc + d) % 2 ^ w }

/-- vector.rs 268-278 `next_back`. -/
def nextBack (w : Nat) (m : Mode) {e : FTy} (it : VIter e) : Tr (VIter.Item e × VIter e) := do
  debugAssert m (0 < (wordSize w e))
  if it.remaining = 0 then return (none, it)
  else do
    let d ← mulW w m (wordSize w e) (it.remaining - 1)
    let l ← addW w m it.loc d
    let r ← onRes VIter.item (follow w m e it.buf l)
    return (some r, { it with remaining := it.remaining - 1 })

/-- vector.rs 281-284 `nth_back`. -/
def nthBack (w : Nat) (m : Mode) {e : FTy} (it : VIter e) (n : Nat) : Tr (VIter.Item e × VIter e) :=
  nextBack w m { it with remaining := it.remaining - n }

end VIter

/-! ### Generated accessors (codegen.rs 570-708) -/

section
open Gen

/-- codegen.rs 607-708, as `Gen.Kind.fetch`. -/
def fetch (w : Nat) (m : Mode) (t : Butte.Table) (slot : Nat) (tag : Tr (Option Nat)) : (k : Kind) → Tr (Option k.Inner)
  | .scalar ty d => Table.get w m t (.scalar ty) slot d
  | .enum ty vals d => Table.get w m t (enumFTy ty vals) slot (d.map (·.val))
  | .ref f => Table.get w m t (.fwdU f) slot none
  | .union vs => do
    match ← tag with
    | none | some 0 => return none
    | some (i + 1) =>
      if h : i < vs.length then do
        let x ← Table.get w m t (vs.get ⟨i, h⟩) slot none
        return x.map (fun v => ⟨⟨i, h⟩, v⟩)
      else Tr.lift .panic

/-- codegen.rs 623-624, 649, 679, as `Gen.tagOf`. -/
def tagOf (w : Nat) (m : Mode) (t : Butte.Table) (fs : List GField) (name : Str) : Tr (Option Nat) :=
  match fs.find? (fun g => g.name == name ++ c!"_type") with
  | some ⟨n, slot, .enum ty vals d, req⟩ => do
    let x ← Table.get w m t (enumFTy ty vals) slot (d.map (·.val))
    okOr n req x
  | _ => Tr.lift .panic

/-- codegen.rs 570-708: the accessor of a field. -/
def accessor (w : Nat) (m : Mode) (t : Butte.Table) (fs : List GField) (f : GField) : Tr (Option f.kind.Inner) := do
  let x ← fetch w m t f.slot (tagOf w m t fs f.name) f.kind
  okOr f.name f.required x

/-! ### A caller that reads everything (Gen/Tree) -/

/-- As `Gen.readVal`: everything below a value. -/
def readVal (w : Nat) (gm m : Mode) (S : Tables) : Nat → Ir.Ty → (f : FTy) → f.Inner → Tr Val
  | 0, _, _, _ => Tr.lift .panic
  | _ + 1, .builtin _, .scalar t, x => return .bits (x : SVal t).val
  | _ + 1, .enum _ _ _, .enum _ _, i => return .variant i
  | _ + 1, .string, .fwdU .str, s => return .str s
  | n + 1, .array t, .fwdU (.vector e), v => do
    let len ← Vec.len w m (v : Vec e)
    let xs ← mapAll (fun i => do
      let x ← Vec.get w m (v : Vec e) i
      readVal w gm m S n t e x) (List.range len)
    return .vec xs
  | n + 1, .table q, .fwdU .table, tb =>
    match S q with
    | none => Tr.lift .panic
    | some t =>
      match compileTable gm t with
      | none => Tr.lift .panic
      | some gs => do
        let fs ← mapAll (fun i : Fin gs.length =>
          match t.fields[i.val]? with
          | some f => readField (readVal w gm m S n) f.ty (gs.get i).kind (accessor w m (tb : Butte.Table) gs (gs.get i))
          | none => Tr.lift .panic) (List.finRange gs.length)
        return .table fs
  | _ + 1, _, _, _ => Tr.lift .panic

end

end Butte.Word
