import Verif.Rt.Scalar
/-
Reading side of the runtime: butte/src/follow.rs, primitives.rs, vector.rs, table.rs, vtable.rs.
-/
namespace Butte

/-! ### VTable (vtable.rs) -/

/-- vtable.rs 21-25. -/
structure VTable where
  buf : Bytes
  loc : Nat
deriving DecidableEq, Repr

namespace VTable

/-- vtable.rs 41-43 `num_bytes`. -/
def numBytes (m : Mode) (v : VTable) : Res Nat := readNatAt m .u16 v.buf v.loc

/-- vtable.rs 38-40 `num_fields`: `num_bytes / 2 - 2` in `usize`. -/
def numFields (m : Mode) (v : VTable) : Res Nat := do
  let n ← v.numBytes m
  subU m (n / 2) 2

/-- vtable.rs 44-47 `object_inline_num_bytes`. -/
def objectInlineNumBytes (m : Mode) (v : VTable) : Res Nat := do
  let l ← addU m v.loc 2
  readNatAt m .u16 v.buf l

/-- vtable.rs 48-57 `get_field` (the guard is `idx > num_fields`, as in the source). -/
def getField (m : Mode) (v : VTable) (idx : Nat) : Res (Option Nat) := do
  let nf ← v.numFields m
  if idx > nf then return none
  let a ← addU m v.loc 2
  let b ← addU m a 2
  let c ← mulU m 2 idx
  let l ← addU m b c
  let x ← readNatAt m .u16 v.buf l
  return some x

/-- vtable.rs 58-63 `get`. -/
def get (m : Mode) (v : VTable) (byteLoc : Nat) : Res (Option Nat) := do
  let n ← v.numBytes m
  if byteLoc ≥ n then return none
  let l ← addU m v.loc byteLoc
  let x ← readNatAt m .u16 v.buf l
  return some x

/-- vtable.rs 64-69 `as_bytes`. -/
def asBytes (m : Mode) (v : VTable) : Res Bytes := do
  let len ← v.numBytes m
  let e ← addU m v.loc len
  sliceGet v.buf v.loc e

/-- vtable.rs 28-32 `PartialEq`: compares the two `as_bytes()` results (errors included). -/
def eqv (m : Mode) (v w : VTable) : Res Bool :=
  match v.asBytes m, w.asBytes m with
  | .panic, _ => .panic
  | _, .panic => .panic
  | .ok a, .ok b => .ok (a == b)
  | .err a, .err b => .ok (a == b)
  | _, _ => .ok false

end VTable

/-- vtable.rs 73-77 `field_index_to_field_offset` (`u16` arithmetic). -/
def fieldIndexToFieldOffset (m : Mode) (i : Nat) : Res Nat := do
  let a ← addW 16 m i 2
  mulW 16 m a 2

/-- vtable.rs 80-84 `field_offset_to_field_index` (`u16` arithmetic). -/
def fieldOffsetToFieldIndex (m : Mode) (o : Nat) : Res Nat := do
  debugAssert m (2 ≤ o)
  subW 16 m (o / 2) 2

/-! ### Types that can be followed -/

/-- table.rs 26-30 `Table<B>`; generated table types wrap it (codegen.rs 726-729). -/
structure Table where
  buf : Bytes
  loc : Nat
deriving DecidableEq, Repr

/-- The `Follow` implementations of the crate and of generated code, as a closed universe so that every
nesting of them can be quantified over. -/
inductive FTy where
  /-- primitives.rs 334-368 -/
  | scalar (t : STy)
  /-- vector.rs 137-161 `&str` -/
  | str
  /-- vector.rs 176-183 `&[T]` -/
  | slice (t : STy)
  /-- vector.rs 185-191 `Vector<T>` -/
  | vector (e : FTy)
  /-- table.rs 73-83, codegen.rs 768-776 -/
  | table
  /-- vtable.rs 86-91 -/
  | vtable
  /-- primitives.rs 313-320 -/
  | fileId
  /-- primitives.rs 169-182 `ForwardsUOffset<T>` -/
  | fwdU (t : FTy)
  /-- primitives.rs 225-233 `ForwardsVOffset<T>` -/
  | fwdV (t : FTy)
  /-- primitives.rs 255-263 `BackwardsSOffset<T>` -/
  | backS (t : FTy)
  /-- primitives.rs 277-284 -/
  | skipSize (t : FTy)
  /-- primitives.rs 302-309 -/
  | skipRoot (t : FTy)
  /-- primitives.rs 326-333 -/
  | skipFileId (t : FTy)
  /-- codegen.rs 963-971: generated enum with base scalar `t` and variant values `vals` -/
  | enum (t : STy) (vals : List Nat)
deriving DecidableEq, Repr

/-- vector.rs 30-31 `Vector<T>(buf, loc)`. -/
structure Vec (e : FTy) where
  buf : Bytes
  loc : Nat
deriving DecidableEq, Repr

/-- The associated type `Follow::Inner`. A slice is the list of its elements; an enum value is the index of
its variant. -/
def FTy.Inner : FTy → Type
  | .scalar t => SVal t
  | .str => String
  | .slice t => List (SVal t)
  | .vector e => Vec e
  | .table => Table
  | .vtable => VTable
  | .fileId => Bytes
  | .fwdU t | .fwdV t | .backS t | .skipSize t | .skipRoot t | .skipFileId t => t.Inner
  | .enum _ _ => Nat

/-- `size_of::<T>()` on the 64-bit target, as used by `Vector::get` and `VectorIter`. -/
def FTy.size : FTy → Nat
  | .scalar t => t.size
  | .str | .slice _ => 16
  | .vector _ | .table | .vtable => 24
  | .fileId | .skipSize _ | .skipRoot _ | .skipFileId _ => 0
  | .fwdU _ | .backS _ => 4
  | .fwdV _ => 2
  | .enum t _ => t.size

/-- vector.rs 137-161 `<&str as Follow>::follow`. -/
def followStr (m : Mode) (buf : Bytes) (loc : Nat) : Res String := do
  let len ← readNatAt m .u32 buf loc
  let a ← addU m loc 4
  let endLoc ← addU m a len
  if endLoc ≥ buf.length then .err .outOfBounds
  else do
    let z ← match buf[endLoc]? with
      | some z => Res.ok z
      | none => .panic
    if z ≠ 0 then .err .nonNullTerminatedString
    else do
      let slice ← sliceIdx buf a endLoc
      match String.fromUTF8? (ByteArray.mk slice.toArray) with
      | some s => .ok s
      | none => .err .nonUtf8String

/-- Cut `n` scalars out of a byte slice (the `from_raw_parts` cast of vector.rs 95-96, 171-172, little-endian). -/
def castSlice (t : STy) : Nat → Bytes → List (SVal t)
  | 0, _ => []
  | n + 1, bs => SVal.ofBytes t (bs.take t.size) :: castSlice t n (bs.drop t.size)

/-- vector.rs 164-174 `follow_slice_helper` (and 86-98 `safe_slice`, which has the same body). -/
def followSlice (m : Mode) (t : STy) (buf : Bytes) (loc : Nat) : Res (List (SVal t)) := do
  debugAssert m (0 < t.size)
  let len ← readNatAt m .u32 buf loc
  let a ← addU m loc 4
  let n ← mulU m len t.size
  let e ← addU m a n
  let data ← sliceGet buf a e
  return castSlice t len data

/-- codegen.rs 973-981: `TryFrom<base>` of a generated enum: the first variant with that value. -/
def enumTryFrom (vals : List Nat) (v : Nat) : Res Nat :=
  match vals.findIdx? (· == v) with
  | some i => .ok i
  | none => .err .unknownEnumVariant

/-- `Follow::follow` for every followable type. -/
def FTy.follow (m : Mode) : (f : FTy) → Bytes → Nat → Res f.Inner
  | .scalar t, buf, loc => readScalarAt m t buf loc
  | .str, buf, loc => followStr m buf loc
  | .slice t, buf, loc => followSlice m t buf loc
  | .vector _, buf, loc => .ok ⟨buf, loc⟩
  | .table, buf, loc => .ok ⟨buf, loc⟩
  | .vtable, buf, loc => .ok ⟨buf, loc⟩
  | .fileId, buf, loc => do
    let e ← addU m loc 4
    sliceGet buf loc e
  | .fwdU t, buf, loc => do
    let e ← addU m loc 4
    let slice ← sliceGet buf loc e
    let off ← readScalar .u32 slice
    let l ← addU m loc off.val
    t.follow m buf l
  | .fwdV t, buf, loc => do
    let e ← addU m loc 2
    let slice ← sliceGet buf loc e
    let off ← readScalar .u16 slice
    let l ← addU m loc off.val
    t.follow m buf l
  | .backS t, buf, loc => do
    let e ← addU m loc 4
    let slice ← sliceGet buf loc e
    let off ← readScalar .i32 slice
    -- `(loc as SOffsetT - off) as usize`: truncate, subtract in i32, sign-extend to usize
    let d ← subS 32 m (toSigned 32 (loc % 2 ^ 32)) (toSigned 32 off.val)
    t.follow m buf (ofSigned 64 d)
  | .skipSize t, buf, loc => do
    let l ← addU m loc 4
    t.follow m buf l
  | .skipRoot t, buf, loc => do
    let l ← addU m loc 4
    t.follow m buf l
  | .skipFileId t, buf, loc => do
    let l ← addU m loc 4
    t.follow m buf l
  | .enum t vals, buf, loc => do
    let v ← readScalarAt m t buf loc
    enumTryFrom vals v.val

/-! ### Tables (table.rs) -/

namespace Table

/-- table.rs 42-44 `get_root` (and 86-92 the free function). -/
def getRoot (m : Mode) (buf : Bytes) : Res Table := FTy.follow m (.fwdU .table) buf 0

/-- table.rs 46-48 `get_size_prefixed_root` (and 94-100). -/
def getSizePrefixedRoot (m : Mode) (buf : Bytes) : Res Table :=
  FTy.follow m (.skipSize (.fwdU .table)) buf 0

/-- table.rs 50-52 `vtable`. -/
def vtable (m : Mode) (t : Table) : Res VTable := FTy.follow m (.backS .vtable) t.buf t.loc

/-- table.rs 55-70 `get::<T>(slot, default)`. -/
def get (m : Mode) (t : Table) (f : FTy) (slot : Nat) (default : Option f.Inner) :
    Res (Option f.Inner) := do
  let vt ← t.vtable m
  let vo ← vt.get m slot
  match vo with
  | some offset =>
    if offset = 0 then return default
    else do
      let l ← addU m t.loc offset
      let x ← f.follow m t.buf l
      return some x
  | none => return default

end Table

/-- table.rs 102-112 `buffer_has_identifier`. -/
def bufferHasIdentifier (m : Mode) (data ident : Bytes) (sizePrefixed : Bool) : Res Bool := do
  assert (ident.length == 4)
  let got ← if sizePrefixed then (FTy.follow m (.skipSize (.skipRoot .fileId)) data 0 : Res Bytes)
    else (FTy.follow m (.skipRoot .fileId) data 0 : Res Bytes)
  return ident == got

/-! ### Vectors (vector.rs) -/

namespace Vec

/-- vector.rs 57-59 `len`. -/
def len (m : Mode) {e : FTy} (v : Vec e) : Res Nat := readNatAt m .u32 v.buf v.loc

/-- vector.rs 61-63 `is_empty`. -/
def isEmpty (m : Mode) {e : FTy} (v : Vec e) : Res Bool := do
  let n ← v.len m
  return n == 0

/-- vector.rs 68-73 `get`. The `debug_assert!` condition contains a `?`, so in debug an unreadable length is
returned as an error. -/
def get (m : Mode) {e : FTy} (v : Vec e) (idx : Nat) : Res e.Inner := do
  if m = .debug then
    let n ← readNatAt m .u32 v.buf v.loc
    debugAssert m (idx < n)
  debugAssert m (0 < e.size)
  let a ← addU m v.loc 4
  let b ← mulU m e.size idx
  let l ← addU m a b
  e.follow m v.buf l

/-- vector.rs 86-98 `safe_slice`. -/
def safeSlice (m : Mode) {t : STy} (v : Vec (.scalar t)) : Res (List (SVal t)) :=
  followSlice m t v.buf v.loc

end Vec

/-- vector.rs 193-199 `VectorIter`. -/
structure VIter (e : FTy) where
  buf : Bytes
  loc : Nat
  remaining : Nat
deriving DecidableEq, Repr

/-- vector.rs 203-213 `VectorIter::new`. -/
def VIter.new (m : Mode) {e : FTy} (v : Vec e) (len : Nat) : Res (VIter e) := do
  let l ← addU m v.loc 4
  return ⟨v.buf, l, len⟩

/-- vector.rs 76-81 `Vector::iter`. -/
def Vec.iter (m : Mode) {e : FTy} (v : Vec e) : Res (VIter e) := do
  let len ← (v.len m).unwrapOr 0
  VIter.new m v len

namespace VIter

/-- An item of the iterator: `Option<Result<T::Inner, Error>>`. -/
abbrev Item (e : FTy) := Option (Except Error e.Inner)

/-- Turn the outcome of a `follow` into the `Result` handed out as an item; panics propagate. -/
def item {e : FTy} : Res e.Inner → Res (Except Error e.Inner)
  | .ok a => .ok (.ok a)
  | .err x => .ok (.error x)
  | .panic => .panic

/-- vector.rs 232-244 `next`. -/
def next (m : Mode) {e : FTy} (it : VIter e) : Res (Item e × VIter e) := do
  debugAssert m (0 < e.size)
  if it.remaining = 0 then return (none, it)
  else do
    let r ← item (e.follow m it.buf it.loc)
    let l ← addU m it.loc e.size
    return (some r, { it with loc := l, remaining := it.remaining - 1 })

/-- vector.rs 247-258 `nth`: `sz * n` is a plain (checked in debug) multiplication, the addition wraps. -/
def nth (m : Mode) {e : FTy} (it : VIter e) (n : Nat) : Res (Item e × VIter e) := do
  debugAssert m (0 < e.size)
  let d ← mulU m e.size n
  next m { it with remaining := it.remaining - n, loc := (it.loc + d) % 2 ^ 64 }

/-- vector.rs 261-263 `size_hint` (lower bound; the upper bound is the same number), 289-291 `len`. -/
def len {e : FTy} (it : VIter e) : Nat := it.remaining

/-- vector.rs 268-278 `next_back`. -/
def nextBack (m : Mode) {e : FTy} (it : VIter e) : Res (Item e × VIter e) := do
  debugAssert m (0 < e.size)
  if it.remaining = 0 then return (none, it)
  else do
    let d ← mulU m e.size (it.remaining - 1)
    let l ← addU m it.loc d
    let r ← item (e.follow m it.buf l)
    return (some r, { it with remaining := it.remaining - 1 })

/-- vector.rs 281-284 `nth_back`. -/
def nthBack (m : Mode) {e : FTy} (it : VIter e) (n : Nat) : Res (Item e × VIter e) :=
  nextBack m { it with remaining := it.remaining - n }

end VIter

end Butte
