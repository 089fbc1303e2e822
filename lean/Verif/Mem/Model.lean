import Verif.Gen.Tree
/-
The `unsafe` code of butte/src: the same functions as in Rt/Read, Rt/Builder and Gen/Run, which now also record every
access to memory through a raw pointer. Mem/Erase shows that they compute the same results.
-/
namespace Butte.Mem

/-! ### Accesses -/

/-- A use of a raw pointer: `*p` (endian_scalar.rs 179), `*mut_ptr = val` (160), `from_raw_parts(ptr, len)` (vector.rs
96, 172; builder.rs 277) or `write_bytes(ptr, 0, len)` (builder.rs 108, 555; vtable_writer.rs 84). -/
structure Access where
  /-- memory is written, not read -/
  write : Bool
  /-- the type behind the pointer -/
  ty : STy
  /-- how many values of that type -/
  count : Nat
  /-- where the first of them is in the block of memory -/
  off : Nat
  /-- the block of memory, as it is just then -/
  mem : Bytes
deriving DecidableEq

/-- Rust's rules for such a use: the values are inside the block of memory. -/
def Access.Inside (a : Access) : Prop := a.off + a.count * a.ty.size ≤ a.mem.length

/-- They are aligned for their type, where `addr n` is the address of a block of `n` bytes. (A buffer that grows may move;
it then has another length.) -/
def Access.Aligned (addr : Nat → Nat) (a : Access) : Prop := (addr a.mem.length + a.off) % a.ty.size = 0

/-- What is read is a value of the type: a `bool` is 0 or 1; all bytes are values of the other types. -/
def Access.Valid (a : Access) : Prop :=
  a.write = false → a.ty = .bool → ∀ i < a.count, ∃ x, a.mem[a.off + i]? = some x ∧ x.toNat ≤ 1

/-- The access is allowed. Otherwise the behaviour of the program is undefined. -/
structure Access.Ok (addr : Nat → Nat) (a : Access) : Prop where
  inside : a.Inside
  aligned : a.Aligned addr
  valid : a.Valid

/-- A computation and the accesses it made. -/
structure Tr (α : Type) where
  log : List Access
  res : Res α

namespace Tr

/-- Sequencing, as for `Res`. -/
def bind (x : Tr α) (f : α → Tr β) : Tr β :=
  match x.res with
  | .ok a => ⟨x.log ++ (f a).log, (f a).res⟩
  | .err e => ⟨x.log, .err e⟩
  | .panic => ⟨x.log, .panic⟩

instance : Monad Tr where
  pure a := ⟨[], .ok a⟩
  bind := Tr.bind

/-- A computation that uses no raw pointer. -/
def lift (r : Res α) : Tr α := ⟨[], r⟩

instance : MonadLift Res Tr := ⟨lift⟩

/-- The access and nothing else. -/
def touch (a : Access) : Tr Unit := ⟨[a], .ok ()⟩

/-- Go on with the result, be it a failure (`expect`, `unwrap_or`). -/
def onRes (g : Res α → Res β) (x : Tr α) : Tr β := ⟨x.log, g x.res⟩

/-- The computation was given a part of the block `mem` that begins at `start`. -/
def within (mem : Bytes) (start : Nat) (x : Tr α) : Tr α :=
  ⟨x.log.map fun a => { a with off := start + a.off, mem := mem }, x.res⟩

end Tr

open Tr (touch onRes within)

/-! ### Scalars (endian_scalar.rs) -/

/-- endian_scalar.rs 155-162 `emplace_scalar`. -/
def emplaceScalar {t : STy} (s : Bytes) (x : SVal t) : Tr Bytes := do
  if t.size ≤ s.length then
    touch ⟨true, t, 1, 0, s⟩
    return splice s 0 x.bytes
  else Tr.lift .panic

/-- endian_scalar.rs 175-182 `read_scalar::<A>`, the value then taken as a `t` (the two differ for `bool` only). -/
def readScalarAs (A t : STy) (s : Bytes) : Tr (SVal t) := do
  if t.size ≤ s.length then
    touch ⟨false, A, 1, 0, s⟩
    return SVal.ofBytes t (s.take t.size)
  else Tr.lift (.err .outOfBounds)

/-- endian_scalar.rs 175-182 `read_scalar`. -/
def readScalar (t : STy) (s : Bytes) : Tr (SVal t) := readScalarAs t t s

/-- endian_scalar.rs 167-170 `read_scalar_at::<A>`. -/
def readScalarAtAs (m : Mode) (A t : STy) (s : Bytes) (loc : Nat) : Tr (SVal t) := do
  let e ← addU m loc t.size
  let buf ← sliceGet s loc e
  within s loc (readScalarAs A t buf)

/-- endian_scalar.rs 167-170 `read_scalar_at`. -/
def readScalarAt (m : Mode) (t : STy) (s : Bytes) (loc : Nat) : Tr (SVal t) := readScalarAtAs m t t s loc

/-- `read_scalar_at::<T>(..)? as usize` for an unsigned `T`. -/
def readNatAt (m : Mode) (t : STy) (s : Bytes) (loc : Nat) : Tr Nat := do
  let v ← readScalarAt m t s loc
  return v.val

/-- primitives.rs 334-340: `bool` is read as a `u8`; 347-368: the others as themselves. -/
def readAs : STy → STy
  | .bool => .u8
  | t => t

/-! ### Reading (vtable.rs, primitives.rs, vector.rs, table.rs) -/

namespace VTable

/-- vtable.rs 41-43 `num_bytes`. -/
def numBytes (m : Mode) (v : VTable) : Tr Nat := readNatAt m .u16 v.buf v.loc

/-- vtable.rs 38-40 `num_fields`. -/
def numFields (m : Mode) (v : VTable) : Tr Nat := do
  let n ← numBytes m v
  subU m (n / 2) 2

/-- vtable.rs 44-47 `object_inline_num_bytes`. -/
def objectInlineNumBytes (m : Mode) (v : VTable) : Tr Nat := do
  let l ← addU m v.loc 2
  readNatAt m .u16 v.buf l

/-- vtable.rs 48-57 `get_field`. -/
def getField (m : Mode) (v : VTable) (idx : Nat) : Tr (Option Nat) := do
  let nf ← numFields m v
  if idx > nf then return none
  let a ← addU m v.loc 2
  let b ← addU m a 2
  let c ← mulU m 2 idx
  let l ← addU m b c
  let x ← readNatAt m .u16 v.buf l
  return some x

/-- vtable.rs 58-63 `get`. -/
def get (m : Mode) (v : VTable) (byteLoc : Nat) : Tr (Option Nat) := do
  let n ← numBytes m v
  if byteLoc ≥ n then return none
  let l ← addU m v.loc byteLoc
  let x ← readNatAt m .u16 v.buf l
  return some x

/-- vtable.rs 64-69 `as_bytes`. -/
def asBytes (m : Mode) (v : VTable) : Tr Bytes := do
  let len ← numBytes m v
  let e ← addU m v.loc len
  sliceGet v.buf v.loc e

/-- vtable.rs 28-32 `PartialEq`: both `as_bytes()` are computed, a panic in the first one ends it. -/
def eqv (m : Mode) (v w : VTable) : Tr Bool :=
  let x := asBytes m v
  let y := asBytes m w
  match x.res with
  | .panic => ⟨x.log, .panic⟩
  | r => ⟨x.log ++ y.log, match r, y.res with
    | _, .panic => .panic
    | .ok a, .ok b => .ok (a == b)
    | .err a, .err b => .ok (a == b)
    | _, _ => .ok false⟩

end VTable

/-- vector.rs 137-161 `<&str as Follow>::follow`. -/
def followStr (m : Mode) (buf : Bytes) (loc : Nat) : Tr String := do
  let len ← readNatAt m .u32 buf loc
  let a ← addU m loc 4
  let endLoc ← addU m a len
  if endLoc ≥ buf.length then Tr.lift (.err .outOfBounds)
  else do
    let z ← match buf[endLoc]? with
      | some z => Tr.lift (.ok z)
      | none => Tr.lift .panic
    if z ≠ 0 then Tr.lift (.err .nonNullTerminatedString)
    else do
      let slice ← sliceIdx buf a endLoc
      match String.fromUTF8? (ByteArray.mk slice.toArray) with
      | some s => return s
      | none => Tr.lift (.err .nonUtf8String)

/-- vector.rs 164-174 `follow_slice_helper`, 86-98 `safe_slice`: `from_raw_parts(ptr, len)`. -/
def followSlice (m : Mode) (t : STy) (buf : Bytes) (loc : Nat) : Tr (List (SVal t)) := do
  debugAssert m (0 < t.size)
  let len ← readNatAt m .u32 buf loc
  let a ← addU m loc 4
  let n ← mulU m len t.size
  let e ← addU m a n
  let data ← sliceGet buf a e
  touch ⟨false, t, len, a, buf⟩
  return castSlice t len data

/-- `Follow::follow` for every followable type. -/
def follow (m : Mode) : (f : FTy) → Bytes → Nat → Tr f.Inner
  | .scalar t, buf, loc => readScalarAtAs m (readAs t) t buf loc
  | .str, buf, loc => followStr m buf loc
  | .slice t, buf, loc => followSlice m t buf loc
  | .vector e, buf, loc => (return (⟨buf, loc⟩ : Vec e) : Tr (Vec e))
  | .table, buf, loc => (return (⟨buf, loc⟩ : Table) : Tr Table)
  | .vtable, buf, loc => (return (⟨buf, loc⟩ : Butte.VTable) : Tr Butte.VTable)
  | .fileId, buf, loc => (do
    let e ← addU m loc 4
    sliceGet buf loc e : Tr Bytes)
  | .fwdU t, buf, loc => do
    let e ← addU m loc 4
    let slice ← sliceGet buf loc e
    let off ← within buf loc (readScalar .u32 slice)
    let l ← addU m loc off.val
    follow m t buf l
  | .fwdV t, buf, loc => do
    let e ← addU m loc 2
    let slice ← sliceGet buf loc e
    let off ← within buf loc (readScalar .u16 slice)
    let l ← addU m loc off.val
    follow m t buf l
  | .backS t, buf, loc => do
    let e ← addU m loc 4
    let slice ← sliceGet buf loc e
    let off ← within buf loc (readScalar .i32 slice)
    let d ← subS 32 m (toSigned 32 (loc % 2 ^ 32)) (toSigned 32 off.val)
    follow m t buf (ofSigned 64 d)
  | .skipSize t, buf, loc => do
    let l ← addU m loc 4
    follow m t buf l
  | .skipRoot t, buf, loc => do
    let l ← addU m loc 4
    follow m t buf l
  | .skipFileId t, buf, loc => do
    let l ← addU m loc 4
    follow m t buf l
  | .enum t vals, buf, loc => (do
    let v ← readScalarAt m t buf loc
    enumTryFrom vals v.val : Tr Nat)

namespace Table

/-- table.rs 42-44 `get_root`. -/
def getRoot (m : Mode) (buf : Bytes) : Tr Table := follow m (.fwdU .table) buf 0

/-- table.rs 46-48 `get_size_prefixed_root`. -/
def getSizePrefixedRoot (m : Mode) (buf : Bytes) : Tr Table := follow m (.skipSize (.fwdU .table)) buf 0

/-- table.rs 50-52 `vtable`. -/
def vtable (m : Mode) (t : Table) : Tr VTable := follow m (.backS .vtable) t.buf t.loc

/-- table.rs 55-70 `get::<T>(slot, default)`. -/
def get (m : Mode) (t : Table) (f : FTy) (slot : Nat) (default : Option f.Inner) : Tr (Option f.Inner) := do
  let vt ← vtable m t
  let vo ← VTable.get m vt slot
  match vo with
  | some offset =>
    if offset = 0 then return default
    else do
      let l ← addU m t.loc offset
      let x ← follow m f t.buf l
      return some x
  | none => return default

end Table

/-- table.rs 102-112 `buffer_has_identifier`. -/
def bufferHasIdentifier (m : Mode) (data ident : Bytes) (sizePrefixed : Bool) : Tr Bool := do
  assert (ident.length == 4)
  let got ← if sizePrefixed then (follow m (.skipSize (.skipRoot .fileId)) data 0 : Tr Bytes)
    else (follow m (.skipRoot .fileId) data 0 : Tr Bytes)
  return ident == got

namespace Vec

/-- vector.rs 57-59 `len`. -/
def len (m : Mode) {e : FTy} (v : Vec e) : Tr Nat := readNatAt m .u32 v.buf v.loc

/-- vector.rs 61-63 `is_empty`. -/
def isEmpty (m : Mode) {e : FTy} (v : Vec e) : Tr Bool := do
  let n ← len m v
  return n == 0

/-- vector.rs 68-73 `get`. -/
def get (m : Mode) {e : FTy} (v : Vec e) (idx : Nat) : Tr e.Inner := do
  if m = .debug then
    let n ← readNatAt m .u32 v.buf v.loc
    debugAssert m (idx < n)
  debugAssert m (0 < e.size)
  let a ← addU m v.loc 4
  let b ← mulU m e.size idx
  let l ← addU m a b
  follow m e v.buf l

/-- vector.rs 86-98 `safe_slice`. -/
def safeSlice (m : Mode) {t : STy} (v : Vec (.scalar t)) : Tr (List (SVal t)) := followSlice m t v.buf v.loc

/-- vector.rs 76-81 `Vector::iter`. -/
def iter (m : Mode) {e : FTy} (v : Vec e) : Tr (VIter e) := do
  let len ← onRes (Res.unwrapOr 0) (len m v)
  VIter.new m v len

end Vec

namespace VIter

/-- vector.rs 232-244 `next`. -/
def next (m : Mode) {e : FTy} (it : VIter e) : Tr (VIter.Item e × VIter e) := do
  debugAssert m (0 < e.size)
  if it.remaining = 0 then return (none, it)
  else do
    let r ← onRes VIter.item (follow m e it.buf it.loc)
    let l ← addU m it.loc e.size
    return (some r, { it with loc := l, remaining := it.remaining - 1 })

/-- vector.rs 247-258 `nth`. -/
def nth (m : Mode) {e : FTy} (it : VIter e) (n : Nat) : Tr (VIter.Item e × VIter e) := do
  debugAssert m (0 < e.size)
  let d ← mulU m e.size n
  next m { it with remaining := it.remaining - n, loc := (it.loc + d) % 2 ^ 64 }

/-- vector.rs 268-278 `next_back`. -/
def nextBack (m : Mode) {e : FTy} (it : VIter e) : Tr (VIter.Item e × VIter e) := do
  debugAssert m (0 < e.size)
  if it.remaining = 0 then return (none, it)
  else do
    let d ← mulU m e.size (it.remaining - 1)
    let l ← addU m it.loc d
    let r ← onRes VIter.item (follow m e it.buf l)
    return (some r, { it with remaining := it.remaining - 1 })

/-- vector.rs 281-284 `nth_back`. -/
def nthBack (m : Mode) {e : FTy} (it : VIter e) (n : Nat) : Tr (VIter.Item e × VIter e) :=
  nextBack m { it with remaining := it.remaining - n }

end VIter

/-! ### Generated accessors (codegen.rs 570-708) -/

section
open Gen

/-- codegen.rs 607-708, as `Gen.Kind.fetch`. -/
def fetch (m : Mode) (t : Butte.Table) (slot : Nat) (tag : Tr (Option Nat)) : (k : Kind) → Tr (Option k.Inner)
  | .scalar ty d => Table.get m t (.scalar ty) slot d
  | .enum ty vals d => Table.get m t (enumFTy ty vals) slot (d.map (·.val))
  | .ref f => Table.get m t (.fwdU f) slot none
  | .union vs => do
    match ← tag with
    | none | some 0 => return none
    | some (i + 1) =>
      if h : i < vs.length then do
        let x ← Table.get m t (vs.get ⟨i, h⟩) slot none
        return x.map (fun v => ⟨⟨i, h⟩, v⟩)
      else Tr.lift .panic

/-- codegen.rs 623-624, 649, 679, as `Gen.tagOf`. -/
def tagOf (m : Mode) (t : Butte.Table) (fs : List GField) (name : Str) : Tr (Option Nat) :=
  match fs.find? (fun g => g.name == name ++ c!"_type") with
  | some ⟨n, slot, .enum ty vals d, req⟩ => do
    let x ← Table.get m t (enumFTy ty vals) slot (d.map (·.val))
    okOr n req x
  | _ => Tr.lift .panic

/-- codegen.rs 570-708: the accessor of a field. -/
def accessor (m : Mode) (t : Butte.Table) (fs : List GField) (f : GField) : Tr (Option f.kind.Inner) := do
  let x ← fetch m t f.slot (tagOf m t fs f.name) f.kind
  okOr f.name f.required x

/-! ### A caller that reads everything (Gen/Tree) -/

/-- All results, or the first failure. -/
def mapAll {α β : Type} (f : α → Tr β) : List α → Tr (List β)
  | [] => return []
  | x :: xs => do
    let y ← f x
    let ys ← mapAll f xs
    return y :: ys

/-- As `Gen.readKind`. -/
def readKind (rd : Ir.Ty → (f : FTy) → f.Inner → Tr Val) (ty : Ir.Ty) : (k : Kind) → k.Inner → Tr Val
  | .scalar t _, x => return .bits (x : SVal t).val
  | .enum _ _ _, i => return .variant i
  | .ref f, x => rd ty (.fwdU f) x
  | .union vs, ⟨i, x⟩ =>
    match ty with
    | .union _ _ uvs =>
      match uvs[i.val]? with
      | some u => do
        let v ← rd u.ty (vs.get i) x
        return .union i v
      | none => Tr.lift .panic
    | _ => Tr.lift .panic

/-- As `Gen.readField`. -/
def readField (rd : Ir.Ty → (f : FTy) → f.Inner → Tr Val) (ty : Ir.Ty) (k : Kind) (res : Tr (Option k.Inner)) :
    Tr (Option Val) := do
  match ← res with
  | none => return none
  | some y => do
    let v ← readKind rd ty k y
    return some v

/-- As `Gen.readVal`: everything below a value. -/
def readVal (gm m : Mode) (S : Tables) : Nat → Ir.Ty → (f : FTy) → f.Inner → Tr Val
  | 0, _, _, _ => Tr.lift .panic
  | _ + 1, .builtin _, .scalar t, x => return .bits (x : SVal t).val
  | _ + 1, .enum _ _ _, .enum _ _, i => return .variant i
  | _ + 1, .string, .fwdU .str, s => return .str s
  | n + 1, .array t, .fwdU (.vector e), v => do
    let len ← Vec.len m (v : Vec e)
    let xs ← mapAll (fun i => do
      let x ← Vec.get m (v : Vec e) i
      readVal gm m S n t e x) (List.range len)
    return .vec xs
  | n + 1, .table q, .fwdU .table, tb =>
    match S q with
    | none => Tr.lift .panic
    | some t =>
      match compileTable gm t with
      | none => Tr.lift .panic
      | some gs => do
        let fs ← mapAll (fun i : Fin gs.length =>
          match t.fields[i.val]? with
          | some f => readField (readVal gm m S n) f.ty (gs.get i).kind (accessor m (tb : Butte.Table) gs (gs.get i))
          | none => Tr.lift .panic) (List.finRange gs.length)
        return .table fs
  | _ + 1, _, _, _ => Tr.lift .panic

end

/-! ### The builder (builder.rs, push.rs, vtable_writer.rs) -/

namespace VTableWriter

/-- vtable_writer.rs 45-48 `write_vtable_byte_length`. -/
def writeVTableByteLength (m : Mode) (buf : Bytes) (n : Nat) : Tr Bytes := do
  if 2 ≤ buf.length then do
    touch ⟨true, .u16, 1, 0, buf⟩
    let buf' := splice buf 0 (leBytes 2 n)
    debugAssert m (n == buf.length)
    return buf'
  else Tr.lift .panic

/-- vtable_writer.rs 52-54 `write_object_inline_size`. -/
def writeObjectInlineSize (buf : Bytes) (n : Nat) : Tr Bytes := do
  if 4 ≤ buf.length then do
    touch ⟨true, .u16, 1, 2, buf⟩
    return splice buf 2 (leBytes 2 n)
  else Tr.lift .panic

/-- vtable_writer.rs 61-64 `get_field_offset`. -/
def getFieldOffset (m : Mode) (buf : Bytes) (off : Nat) : Tr Nat := onRes Res.expect (readNatAt m .u16 buf off)

/-- vtable_writer.rs 71-74 `write_field_offset`. -/
def writeFieldOffset (buf : Bytes) (off n : Nat) : Tr Bytes := do
  if off + 2 ≤ buf.length then do
    touch ⟨true, .u16, 1, off, buf⟩
    return splice buf off (leBytes 2 n)
  else Tr.lift .panic

/-- builder.rs 473-481. -/
def writeFields (m : Mode) (obj : Nat) : List FieldLoc → Bytes → Tr Bytes
  | [], buf => return buf
  | fl :: rest, buf => do
    let d ← subW 32 m obj fl.off
    if m = .debug then
      let x ← getFieldOffset m buf fl.id
      debugAssert m (x == 0)
    let buf' ← writeFieldOffset buf fl.id (d % 2 ^ 16)
    writeFields m obj rest buf'

end VTableWriter

namespace Builder

/-- builder.rs 102-119 `reset`: `write_bytes` on the used part. -/
def reset (b : Builder) : Tr Builder := do
  touch ⟨true, .u8, b.buf.length - b.head, b.head, b.buf⟩
  return b.reset

/-- builder.rs 527-558 `grow_owned_buf`: `write_bytes` on the first half. -/
def grow (m : Mode) (b : Builder) : Tr Builder :=
  let oldLen := b.buf.length
  let newLen := max 1 (oldLen * 2)
  if newLen > isizeMax then Tr.lift .panic
  else
    let diff := newLen - oldLen
    let buf1 := b.buf ++ List.replicate diff 0
    let b1 := { b with buf := buf1, head := b.head + diff }
    if m = .debug ∧ b1.usedSpace ≠ b.usedSpace then Tr.lift .panic
    else if newLen = 1 then return b1
    else
      let middle := newLen / 2
      let left := buf1.take middle
      let right := buf1.drop middle
      if left.length ≠ right.length then Tr.lift .panic
      else do
        touch ⟨true, .u8, middle, 0, left ++ left⟩
        return { b1 with buf := List.replicate middle 0 ++ left }

theorem grow_res (m : Mode) (b : Builder) : (grow m b).res = Butte.Builder.grow m b := by
  unfold grow Butte.Builder.grow
  dsimp only
  repeat' split
  all_goals rfl

/-- builder.rs 644-646: the growth loop of `ensure_capacity`. -/
def growLoop (m : Mode) (b : Builder) (want : Nat) : Tr Builder :=
  if b.head < want then
    match _h : (grow m b).res with
    | .ok b' => ⟨(grow m b).log ++ (growLoop m b' want).log, (growLoop m b' want).res⟩
    | .err e => ⟨(grow m b).log, .err e⟩
    | .panic => ⟨(grow m b).log, .panic⟩
  else return b
termination_by want - b.head
decreasing_by all_goals (rw [grow_res] at _h; have := Butte.Builder.grow_head _h; omega)

/-- builder.rs 635-648 `ensure_capacity`. -/
def ensureCapacity (m : Mode) (b : Builder) (want : Nat) : Tr Builder :=
  if b.head ≥ want then return b
  else do
    assert (decide (want ≤ maxBufferSize))
    growLoop m b want

/-- builder.rs 628-632 `make_space`. -/
def makeSpace (m : Mode) (b : Builder) (want : Nat) : Tr Builder := do
  let b ← ensureCapacity m b want
  let h ← subU m b.head want
  return { b with head := h }

/-- builder.rs 608-612 `align`. -/
def align (m : Mode) (b : Builder) (len alignment : Nat) : Tr Builder := do
  let b := { b with minAlign := max b.minAlign alignment }
  let s ← addU m b.usedSpace len
  makeSpace m b (paddingBytes s alignment)

/-- builder.rs 620-625 `push_bytes_unprefixed` (`copy_from_slice`). -/
def pushBytesUnprefixed (m : Mode) (b : Builder) (x : Bytes) : Tr Builder := do
  let b ← makeSpace m b x.length
  if b.head + x.length ≤ b.buf.length then return { b with buf := splice b.buf b.head x } else Tr.lift .panic

/-- The type that `Push::push` stores (push.rs 64-67; primitives.rs 137-142: a `u32`). -/
def stored : PTy → STy
  | .sc t => t
  | .off => .u32

/-- builder.rs 132-141 `push`: `emplace_scalar` at the new `head`. -/
def push (m : Mode) (b : Builder) {p : PTy} (x : PVal p) : Tr (Nat × Builder) := do
  let b ← align m b p.size p.align
  let b ← makeSpace m b p.size
  if p.size ≤ b.buf.length - b.head then do
    let bs ← x.pushBytes m (b.buf.length - b.head - p.size)
    touch ⟨true, stored p, 1, b.head, b.buf⟩
    let b := { b with buf := splice b.buf b.head bs }
    return (b.usedSpace % 2 ^ 32, b)
  else Tr.lift .panic

/-- builder.rs 158-162 `push_slot_always`. -/
def pushSlotAlways (m : Mode) (b : Builder) (slot : Nat) {p : PTy} (x : PVal p) : Tr Builder := do
  b.assertNested m
  let (off, b) ← push m b x
  return b.trackField slot off

/-- builder.rs 147-153 `push_slot`. -/
def pushSlot (m : Mode) (b : Builder) (slot : Nat) {p : PTy} (x default : PVal p) : Tr Builder := do
  b.assertNested m
  if x.eqv default then return b
  else pushSlotAlways m b slot x

/-- builder.rs 512-523 `find_duplicate_stored_vtable_revloc`. -/
def findDuplicate (m : Mode) (b : Builder) (needle : VTable) : List Nat → Tr (Option Nat)
  | [] => return none
  | r :: rest => do
    let l ← subU m (b.head + b.usedSpace) r
    let same ← VTable.eqv m needle ⟨b.buf, l⟩
    if same then return some r else findDuplicate m b needle rest

/-- builder.rs 493-508, the end of `write_vtable`. -/
def patchVTable (m : Mode) (b : Builder) (vtUse obj : Nat) : Tr (Nat × Builder) := do
  let n ← subU m (b.head + b.usedSpace) obj
  let saw ← onRes Res.expect (readNatAt m .u32 b.buf n)
  debugAssert m (saw == 0xF0F0F0F0)
  let d ← subS 32 m (toSigned 32 vtUse) (toSigned 32 obj)
  if n + 4 ≤ b.buf.length then do
    touch ⟨true, .i32, 1, n, b.buf⟩
    return (obj, { b with buf := splice b.buf n (leBytes 4 (ofSigned 32 d)), fieldLocs := [] })
  else Tr.lift .panic

/-- builder.rs 400-509 `write_vtable`. -/
def writeVTable (m : Mode) (b : Builder) (tail : Nat) : Tr (Nat × Builder) := do
  b.assertNested m
  let (obj, b) ← push m b (PVal.sc (u32v 0xF0F0F0F0))
  let vtLen := vtableByteLen b.fieldLocs
  let b ← makeSpace m b vtLen
  let objSize ← subW 32 m obj tail
  debugAssert m (decide (objSize < 0x10000))
  let start := b.head
  let slice ← sliceIdx b.buf start (start + vtLen)
  let slice ← within b.buf start (VTableWriter.writeVTableByteLength m slice (vtLen % 2 ^ 16))
  let slice ← within b.buf start (VTableWriter.writeObjectInlineSize slice (objSize % 2 ^ 16))
  let slice ← within b.buf start (VTableWriter.writeFields m obj b.fieldLocs slice)
  let b := { b with buf := splice b.buf start slice }
  let dup ← findDuplicate m b ⟨b.buf, b.head⟩ b.vtables.reverse
  match dup with
  | some n => do
    -- vtable_writer.rs 80-86 `clear`
    touch ⟨true, .u8, vtLen, start, b.buf⟩
    patchVTable m { b with buf := splice b.buf start (List.replicate vtLen 0), head := b.head + vtLen } n obj
  | none =>
    let n := b.usedSpace % 2 ^ 32
    patchVTable m { b with vtables := b.vtables ++ [n] } n obj

/-- builder.rs 190-202 `end_table`. -/
def endTable (m : Mode) (b : Builder) (tail : Nat) : Tr (Nat × Builder) := do
  b.assertNested m
  let (o, b) ← writeVTable m b tail
  return (o, { b with nested := false, fieldLocs := [] })

/-- builder.rs 212-218 `start_vector`. -/
def startVector (m : Mode) (b : Builder) (p : PTy) (numItems : Nat) : Tr Builder := do
  b.assertNotNested m
  let b := { b with nested := true }
  let n ← mulU m numItems p.size
  align m b n (max p.align 4)

/-- builder.rs 227-232 `end_vector`. -/
def endVector (m : Mode) (b : Builder) (numElems : Nat) : Tr (Nat × Builder) := do
  b.assertNested m
  let b := { b with nested := false }
  push m b (PVal.sc (u32v numElems))

/-- builder.rs 247-256 `create_byte_string`. -/
def createByteString (m : Mode) (b : Builder) (data : Bytes) : Tr (Nat × Builder) := do
  b.assertNotNested m
  let n ← addU m data.length 1
  let b ← align m b n 4
  let (_, b) ← push m b (PVal.sc (t := .u8) (0 : Fin 256))
  let b ← pushBytesUnprefixed m b data
  let (_, b) ← push m b (PVal.sc (u32v data.length))
  return (b.usedSpace % 2 ^ 32, b)

/-- builder.rs 238-243 `create_string`. -/
def createString (m : Mode) (b : Builder) (s : String) : Tr (Nat × Builder) := do
  b.assertNotNested m
  createByteString m b (Butte.Builder.strBytes s)

/-- builder.rs 265-283 `create_vector_direct`: `from_raw_parts` on the memory of the items. -/
def createVectorDirect (m : Mode) (b : Builder) {t : STy} (items : List (SVal t)) : Tr (Nat × Builder) := do
  b.assertNotNested m
  let n ← mulU m items.length t.size
  let b ← align m b n (max t.size 4)
  touch ⟨false, .u8, items.length * t.size, 0, (items.map SVal.bytes).flatten⟩
  let b ← pushBytesUnprefixed m b (items.map SVal.bytes).flatten
  let (_, b) ← push m b (PVal.sc (u32v items.length))
  return (b.usedSpace % 2 ^ 32, b)

/-- builder.rs 322-324. -/
def pushAll (m : Mode) {p : PTy} : Builder → List (PVal p) → Tr Builder
  | b, [] => return b
  | b, x :: xs => do
    let (_, b) ← push m b x
    pushAll m b xs

/-- builder.rs 316-326 `create_vector`. -/
def createVector (m : Mode) (b : Builder) {p : PTy} (items : List (PVal p)) : Tr (Nat × Builder) := do
  let n ← mulU m items.length p.size
  let b ← align m b n (max p.align 4)
  let b ← pushAll m b items.reverse
  push m b (PVal.sc (u32v items.length))

/-- builder.rs 303-307. (299-301: `set_len` on a vector whose elements are not there yet; all are stored before any is
read. This is not recorded.) -/
def createStrings (m : Mode) : Builder → List String → List (PVal .off) → Tr (List (PVal .off) × Builder)
  | b, [], acc => return (acc, b)
  | b, s :: rest, acc => do
    let (o, b) ← createString m b s
    createStrings m b rest (Butte.Builder.offVal o :: acc)

/-- builder.rs 290-309 `create_vector_of_strings`. -/
def createVectorOfStrings (m : Mode) (b : Builder) (xs : List String) : Tr (Nat × Builder) := do
  b.assertNotNested m
  let (offs, b) ← createStrings m b xs.reverse []
  createVector m b offs

/-- builder.rs 345-360 `required`: reads the table in the used part of the buffer. -/
def required (m : Mode) (b : Builder) (tab slot : Nat) : Tr Unit := do
  let idx ← subU m b.usedSpace tab
  let t : Butte.Table := ⟨b.buf.drop b.head, idx⟩
  let vt ← onRes Res.expect (within b.buf b.head (Table.vtable m t))
  let o ← onRes Res.expect (within b.buf b.head (VTable.get m vt slot))
  match o with
  | none => Tr.lift .panic
  | some o => assert (o != 0)

/-- builder.rs 591-594. -/
def pushIdent (m : Mode) (b : Builder) : Option Bytes → Tr Builder
  | some i => do
    debugAssert m (i.length == 4)
    pushBytesUnprefixed m b i
  | none => return b

/-- builder.rs 598-601. -/
def pushSizePrefix (m : Mode) (b : Builder) (sizePrefixed : Bool) : Tr Builder :=
  if sizePrefixed then do
    let (_, b) ← push m b (PVal.sc (u32v b.usedSpace))
    return b
  else return b

/-- builder.rs 562-605 `finish_with_opts`. -/
def finishWithOpts (m : Mode) (b : Builder) (root : Nat) (ident : Option Bytes) (sizePrefixed : Bool) : Tr Builder := do
  b.assertNotFinished m
  b.assertNotNested m
  let b := { b with vtables := [] }
  let toAlign := 4 + (if sizePrefixed then 4 else 0) + (if ident.isSome then 4 else 0)
  let b ← align m b toAlign b.minAlign
  let b ← pushIdent m b ident
  let (_, b) ← push m b (Butte.Builder.offVal root)
  let b ← pushSizePrefix m b sizePrefixed
  return { b with finished := true }

end Builder

/-- Attach "no offset". -/
def noRet (r : Tr Builder) : Tr (Option Nat × Builder) := do
  let b ← r
  return (none, b)

/-- Attach the returned offset. -/
def withRet (r : Tr (Nat × Builder)) : Tr (Option Nat × Builder) := do
  let (o, b) ← r
  return (some o, b)

/-- One call on the builder. -/
def step (m : Mode) (b : Builder) : Op → Tr (Option Nat × Builder)
  | .push _ x => withRet (Builder.push m b x)
  | .pushSlot s _ x d => noRet (Builder.pushSlot m b s x d)
  | .pushSlotAlways s _ x => noRet (Builder.pushSlotAlways m b s x)
  | .startTable => withRet (Tr.lift (b.startTable m))
  | .endTable t => withRet (Builder.endTable m b t)
  | .startVector p n => noRet (Builder.startVector m b p n)
  | .endVector n => withRet (Builder.endVector m b n)
  | .createString s => withRet (Builder.createString m b s)
  | .createByteString bs => withRet (Builder.createByteString m b bs)
  | .createVectorDirect _ xs => withRet (Builder.createVectorDirect m b xs)
  | .createVector _ xs => withRet (Builder.createVector m b xs)
  | .createVectorOfStrings xs => withRet (Builder.createVectorOfStrings m b xs)
  | .required t s => do
    Builder.required m b t s
    return (none, b)
  | .finish r i sp => noRet (Builder.finishWithOpts m b r i sp)
  | .reset => noRet (Builder.reset b)

/-- A list of calls. -/
def run (m : Mode) : Builder → List Op → Tr (List (Option Nat) × Builder)
  | b, [] => return ([], b)
  | b, op :: ops => do
    let (r, b) ← step m b op
    let (rs, b) ← run m b ops
    return (r :: rs, b)

end Butte.Mem
