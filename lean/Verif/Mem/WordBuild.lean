import Verif.Mem.WordAgree
import Verif.Rt.Growth
/-
Writing on machines with another pointer width: the builder of `Rt/Builder` once more, with `usize` of `w` bits. With `w = 64` it is
that builder (C98_same). What differs is where sums, differences and products wrap, or panic in debug builds, and the length a `Vec`
can have, `isize::MAX = 2 ^ (w - 1) - 1`. `&mut self` methods return the new builder.
-/
namespace Butte.Word

/-- builder.rs 690-693 `padding_bytes`: `(!buf_size).wrapping_add(1) & scalar_size.wrapping_sub(1)`. -/
def paddingBytes (w bufSize scalarSize : Nat) : Nat :=
  ((~~~ (BitVec.ofNat w bufSize) + 1#w) &&& (BitVec.ofNat w scalarSize - 1#w)).toNat

/-- push.rs 64-67; primitives.rs 137-142: `(SIZE_UOFFSET + rest.len() - self.value() as usize) as UOffsetT`. -/
def pushBytes (w : Nat) (m : Mode) {p : PTy} (v : PVal p) (restLen : Nat) : Res Bytes :=
  match p with
  | .sc t => .ok (SVal.bytes (t := t) v)
  | .off => do
    let s ← addW w m 4 restLen
    let n ← subW w m s v.val
    return leBytes 4 (n % 2 ^ 32)

/-- vtable_writer.rs 61-64 `get_field_offset`. -/
def getFieldOffset (w : Nat) (m : Mode) (buf : Bytes) (off : Nat) : Res Nat := (Word.readNatAt w m .u16 buf off).res.expect

/-- builder.rs 473-481: the loop writing every `FieldLoc` of the table at `obj`. -/
def writeFields (w : Nat) (m : Mode) (obj : Nat) : List FieldLoc → Bytes → Res Bytes
  | [], buf => .ok buf
  | fl :: rest, buf => do
    let d ← subW 32 m obj fl.off
    if m = .debug then
      let x ← getFieldOffset w m buf fl.id
      debugAssert m (x == 0)
    let buf' ← VTableWriter.writeFieldOffset buf fl.id (d % 2 ^ 16)
    writeFields w m obj rest buf'

namespace Builder
open Butte.Builder (reset assertNested assertNotNested assertNotFinished trackField strBytes offVal)

/-- builder.rs 67-89 `new_with_capacity` (`new()`, line 59, is capacity 0); `vec![0; size]` past `isize::MAX` panics. -/
def newWithCapacity (w : Nat) (size : Nat) : Res Builder := do
  assert (decide (size ≤ maxBufferSize))
  assert (decide (size ≤ 2 ^ (w - 1) - 1))
  return { buf := List.replicate size 0, head := size, fieldLocs := [], vtables := [],
           nested := false, finished := false, minAlign := 0 }

/-- builder.rs 527-558 `grow_owned_buf`. `Vec::resize` past `isize::MAX` panics. -/
def grow (w : Nat) (m : Mode) (b : Builder) : Res Builder :=
  let oldLen := b.buf.length
  let newLen := max 1 (oldLen * 2)
  if newLen > 2 ^ (w - 1) - 1 then .panic
  else
    let diff := newLen - oldLen
    let buf1 := b.buf ++ List.replicate diff 0
    let b1 := { b with buf := buf1, head := b.head + diff }
    if m = .debug ∧ b1.usedSpace ≠ b.usedSpace then .panic
    else if newLen = 1 then .ok b1
    else
      let middle := newLen / 2
      let left := buf1.take middle
      let right := buf1.drop middle
      -- `copy_from_slice` panics on different lengths
      if left.length ≠ right.length then .panic
      else .ok { b1 with buf := List.replicate middle 0 ++ left }

theorem grow_head {w : Nat} {m : Mode} {b b' : Builder} (h : grow w m b = .ok b') : b.head < b'.head := by
  unfold grow at h
  simp only at h
  split at h
  · cases h
  · split at h
    · cases h
    · split at h
      · cases h; simp; omega
      · split at h
        · cases h
        · cases h; simp; omega

/-- builder.rs 644-646: the growth loop of `ensure_capacity`. -/
def growLoop (w : Nat) (m : Mode) (b : Builder) (want : Nat) : Res Builder :=
  if b.head < want then
    match _h : grow w m b with
    | .ok b' => growLoop w m b' want
    | .err e => .err e
    | .panic => .panic
  else .ok b
termination_by want - b.head
decreasing_by have := grow_head _h; omega

/-- builder.rs 635-648 `ensure_capacity`. -/
def ensureCapacity (w : Nat) (m : Mode) (b : Builder) (want : Nat) : Res Builder :=
  if b.head ≥ want then .ok b
  else do
    assert (decide (want ≤ maxBufferSize))
    growLoop w m b want

/-- builder.rs 628-632 `make_space`. -/
def makeSpace (w : Nat) (m : Mode) (b : Builder) (want : Nat) : Res Builder := do
  let b ← ensureCapacity w m b want
  let h ← subW w m b.head want
  return { b with head := h }

/-- builder.rs 608-612 `align` (with 615-617 `track_min_align`). -/
def align (w : Nat) (m : Mode) (b : Builder) (len alignment : Nat) : Res Builder := do
  let b := { b with minAlign := max b.minAlign alignment }
  let s ← addW w m b.usedSpace len
  makeSpace w m b (paddingBytes w s alignment)

/-- builder.rs 620-625 `push_bytes_unprefixed`. -/
def pushBytesUnprefixed (w : Nat) (m : Mode) (b : Builder) (x : Bytes) : Res Builder := do
  let b ← makeSpace w m b x.length
  if b.head + x.length ≤ b.buf.length then return { b with buf := splice b.buf b.head x } else .panic

/-- builder.rs 132-141 `push`; returns the `WIPOffset` value `used_space() as u32`.
`split_at_mut(sz)` panics if fewer than `sz` bytes follow `head`. -/
def push (w : Nat) (m : Mode) (b : Builder) {p : PTy} (x : PVal p) : Res (Nat × Builder) := do
  let b ← align w m b p.size p.align
  let b ← makeSpace w m b p.size
  if p.size ≤ b.buf.length - b.head then do
    let bs ← pushBytes w m x (b.buf.length - b.head - p.size)
    let b := { b with buf := splice b.buf b.head bs }
    return (b.usedSpace % 2 ^ 32, b)
  else .panic

/-- builder.rs 158-162 `push_slot_always`. -/
def pushSlotAlways (w : Nat) (m : Mode) (b : Builder) (slot : Nat) {p : PTy} (x : PVal p) : Res Builder := do
  assertNested m b
  let (off, b) ← push w m b x
  return b.trackField slot off

/-- builder.rs 147-153 `push_slot`. -/
def pushSlot (w : Nat) (m : Mode) (b : Builder) (slot : Nat) {p : PTy} (x default : PVal p) : Res Builder := do
  assertNested m b
  if x.eqv default then return b
  else pushSlotAlways w m b slot x

/-- builder.rs 512-523 `find_duplicate_stored_vtable_revloc`: newest first (`revs` is already reversed). -/
def findDuplicate (w : Nat) (m : Mode) (b : Builder) (needle : VTable) : List Nat → Res (Option Nat)
  | [] => .ok none
  | r :: rest => do
    let l ← subW w m (b.head + b.usedSpace) r
    let same ← (Word.VTable.eqv w m needle ⟨b.buf, l⟩).res
    if same then return some r else findDuplicate w m b needle rest

/-- builder.rs 493-508, the end of `write_vtable`: store the distance to the vtable at `vtUse` in the table
at `obj` (both end-relative) and forget the field locations. -/
def patchVTable (w : Nat) (m : Mode) (b : Builder) (vtUse obj : Nat) : Res (Nat × Builder) := do
  let n ← subW w m (b.head + b.usedSpace) obj
  let saw ← (Word.readNatAt w m .u32 b.buf n).res.expect
  debugAssert m (saw == 0xF0F0F0F0)
  -- `vt_use as SOffsetT - obj as SOffsetT`
  let d ← subS 32 m (toSigned 32 vtUse) (toSigned 32 obj)
  if n + 4 ≤ b.buf.length then
    return (obj, { b with buf := splice b.buf n (leBytes 4 (ofSigned 32 d)), fieldLocs := [] })
  else .panic

/-- builder.rs 400-509 `write_vtable`; returns the table's end-relative position. -/
def writeVTable (w : Nat) (m : Mode) (b : Builder) (tail : Nat) : Res (Nat × Builder) := do
  assertNested m b
  let (obj, b) ← push w m b (PVal.sc (u32v 0xF0F0F0F0))
  let vtLen := vtableByteLen b.fieldLocs
  let b ← makeSpace w m b vtLen
  let objSize ← subW 32 m obj tail
  debugAssert m (decide (objSize < 0x10000))
  let start := b.head
  let slice ← sliceIdx b.buf start (start + vtLen)
  let slice ← VTableWriter.writeVTableByteLength m slice (vtLen % 2 ^ 16)
  let slice ← VTableWriter.writeObjectInlineSize slice (objSize % 2 ^ 16)
  let slice ← writeFields w m obj b.fieldLocs slice
  let b := { b with buf := splice b.buf start slice }
  let dup ← findDuplicate w m b ⟨b.buf, b.head⟩ b.vtables.reverse
  match dup with
  | some n =>
    patchVTable w m { b with buf := splice b.buf start (List.replicate vtLen 0), head := b.head + vtLen } n obj
  | none =>
    let n := b.usedSpace % 2 ^ 32
    patchVTable w m { b with vtables := b.vtables ++ [n] } n obj

/-- builder.rs 190-202 `end_table`. -/
def endTable (w : Nat) (m : Mode) (b : Builder) (tail : Nat) : Res (Nat × Builder) := do
  assertNested m b
  let (o, b) ← writeVTable w m b tail
  return (o, { b with nested := false, fieldLocs := [] })

/-- builder.rs 212-218 `start_vector::<T>(num_items)`. -/
def startVector (w : Nat) (m : Mode) (b : Builder) (p : PTy) (numItems : Nat) : Res Builder := do
  assertNotNested m b
  let b := { b with nested := true }
  let n ← mulW w m numItems p.size
  align w m b n (max p.align 4)

/-- builder.rs 227-232 `end_vector(num_elems)`. -/
def endVector (w : Nat) (m : Mode) (b : Builder) (numElems : Nat) : Res (Nat × Builder) := do
  assertNested m b
  let b := { b with nested := false }
  push w m b (PVal.sc (u32v numElems))

/-- builder.rs 247-256 `create_byte_string`. -/
def createByteString (w : Nat) (m : Mode) (b : Builder) (data : Bytes) : Res (Nat × Builder) := do
  assertNotNested m b
  let n ← addW w m data.length 1
  let b ← align w m b n 4
  let (_, b) ← push w m b (PVal.sc (t := .u8) (0 : Fin 256))
  let b ← pushBytesUnprefixed w m b data
  let (_, b) ← push w m b (PVal.sc (u32v data.length))
  return (b.usedSpace % 2 ^ 32, b)

/-- builder.rs 238-243 `create_string`. -/
def createString (w : Nat) (m : Mode) (b : Builder) (s : String) : Res (Nat × Builder) := do
  assertNotNested m b
  createByteString w m b (strBytes s)

/-- builder.rs 265-283 `create_vector_direct`: the items' memory is their little-endian bytes. -/
def createVectorDirect (w : Nat) (m : Mode) (b : Builder) {t : STy} (items : List (SVal t)) :
    Res (Nat × Builder) := do
  assertNotNested m b
  let n ← mulW w m items.length t.size
  let b ← align w m b n (max t.size 4)
  let b ← pushBytesUnprefixed w m b (items.map SVal.bytes).flatten
  let (_, b) ← push w m b (PVal.sc (u32v items.length))
  return (b.usedSpace % 2 ^ 32, b)

/-- builder.rs 322-324: `for i in (0..len).rev() { self.push(items[i]); }` on the reversed list. -/
def pushAll (w : Nat) (m : Mode) {p : PTy} : Builder → List (PVal p) → Res Builder
  | b, [] => .ok b
  | b, x :: xs => do
    let (_, b) ← push w m b x
    pushAll w m b xs

/-- builder.rs 316-326 `create_vector`. -/
def createVector (w : Nat) (m : Mode) (b : Builder) {p : PTy} (items : List (PVal p)) : Res (Nat × Builder) := do
  let n ← mulW w m items.length p.size
  let b ← align w m b n (max p.align 4)
  let b ← pushAll w m b items.reverse
  push w m b (PVal.sc (u32v items.length))

/-- builder.rs 303-307: create the strings of the (already reversed) list, newest offset first. -/
def createStrings (w : Nat) (m : Mode) : Builder → List String → List (PVal .off) → Res (List (PVal .off) × Builder)
  | b, [], acc => .ok (acc, b)
  | b, s :: rest, acc => do
    let (o, b) ← createString w m b s
    createStrings w m b rest (offVal o :: acc)

/-- builder.rs 290-309 `create_vector_of_strings`. -/
def createVectorOfStrings (w : Nat) (m : Mode) (b : Builder) (xs : List String) : Res (Nat × Builder) := do
  assertNotNested m b
  let (offs, b) ← createStrings w m b xs.reverse []
  createVector w m b offs

/-- builder.rs 345-360 `required`. -/
def required (w : Nat) (m : Mode) (b : Builder) (tab slot : Nat) : Res Unit := do
  let idx ← subW w m b.usedSpace tab
  let t : Table := ⟨b.buf.drop b.head, idx⟩
  let vt ← (Word.Table.vtable w m t).res.expect
  let o ← (Word.VTable.get w m vt slot).res.expect
  match o with
  | none => .panic
  | some o => assert (o != 0)

/-- builder.rs 591-594: the optional file identifier. -/
def pushIdent (w : Nat) (m : Mode) (b : Builder) : Option Bytes → Res Builder
  | some i => do
    debugAssert m (i.length == 4)
    pushBytesUnprefixed w m b i
  | none => .ok b

/-- builder.rs 598-601: the optional size prefix, `used_space() as u32` before it is pushed. -/
def pushSizePrefix (w : Nat) (m : Mode) (b : Builder) (sizePrefixed : Bool) : Res Builder :=
  if sizePrefixed then do
    let (_, b) ← push w m b (PVal.sc (u32v b.usedSpace))
    return b
  else .ok b

/-- builder.rs 562-605 `finish_with_opts`. The identifier is given by its bytes. -/
def finishWithOpts (w : Nat) (m : Mode) (b : Builder) (root : Nat) (ident : Option Bytes) (sizePrefixed : Bool) :
    Res Builder := do
  assertNotFinished m b
  assertNotNested m b
  let b := { b with vtables := [] }
  let toAlign := 4 + (if sizePrefixed then 4 else 0) + (if ident.isSome then 4 else 0)
  let b ← align w m b toAlign b.minAlign
  let b ← pushIdent w m b ident
  let (_, b) ← push w m b (offVal root)
  let b ← pushSizePrefix w m b sizePrefixed
  return { b with finished := true }

end Builder

/-- Execute one call; the result carries the returned offset, if the call returns one. -/
def step (w : Nat) (m : Mode) (b : Builder) : Op → Res (Option Nat × Builder)
  | .push _ x => withRet (Builder.push w m b x)
  | .pushSlot s _ x d => noRet (Builder.pushSlot w m b s x d)
  | .pushSlotAlways s _ x => noRet (Builder.pushSlotAlways w m b s x)
  | .startTable => withRet (b.startTable m)
  | .endTable t => withRet (Builder.endTable w m b t)
  | .startVector p n => noRet (Builder.startVector w m b p n)
  | .endVector n => withRet (Builder.endVector w m b n)
  | .createString s => withRet (Builder.createString w m b s)
  | .createByteString bs => withRet (Builder.createByteString w m b bs)
  | .createVectorDirect _ xs => withRet (Builder.createVectorDirect w m b xs)
  | .createVector _ xs => withRet (Builder.createVector w m b xs)
  | .createVectorOfStrings xs => withRet (Builder.createVectorOfStrings w m b xs)
  | .required t s => do
    Builder.required w m b t s
    return (none, b)
  | .finish r i sp => noRet (Builder.finishWithOpts w m b r i sp)
  | .reset => .ok (none, b.reset)

/-- Execute a list of calls, collecting the returned offsets. -/
def run (w : Nat) (m : Mode) : Builder → List Op → Res (List (Option Nat) × Builder)
  | b, [] => .ok ([], b)
  | b, op :: ops => do
    let (r, b) ← step w m b op
    let (rs, b) ← run w m b ops
    return (r :: rs, b)

end Butte.Word
