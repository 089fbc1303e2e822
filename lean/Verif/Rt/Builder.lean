import Verif.Rt.Read
/-
butte/src/builder.rs: the concrete `FlatBufferBuilder`, method by method, over the real buffer that is filled
from its end towards its start. `&mut self` methods return the new builder.
-/
namespace Butte

/-- builder.rs 32-36 `FieldLoc { off: UOffsetT, id: VOffsetT }`. -/
structure FieldLoc where
  id : Nat
  off : Nat
deriving DecidableEq, Repr

/-- primitives.rs 27-52 `FLATBUFFERS_MAX_BUFFER_SIZE` = `1 << 31`. -/
def maxBufferSize : Nat := 2 ^ 31

/-- builder.rs 42-55. -/
structure Builder where
  buf : Bytes
  head : Nat
  fieldLocs : List FieldLoc
  vtables : List Nat
  nested : Bool
  finished : Bool
  minAlign : Nat
deriving DecidableEq, Repr

/-- builder.rs 690-693 `padding_bytes`: `(!buf_size).wrapping_add(1) & scalar_size.wrapping_sub(1)`. -/
def paddingBytes (bufSize scalarSize : Nat) : Nat :=
  ((~~~ (BitVec.ofNat 64 bufSize) + 1#64) &&& (BitVec.ofNat 64 scalarSize - 1#64)).toNat

/-- builder.rs 681-687 `get_vtable_byte_len`: 4 for no fields (`field_index_to_field_offset(0)`), else the
largest slot plus 2. -/
def vtableByteLen (fls : List FieldLoc) : Nat :=
  match fls with
  | [] => 4
  | fl :: rest => rest.foldl (fun acc f => max acc f.id) fl.id + 2

/-! ### VTableWriter (vtable_writer.rs); the writer's slice is a `Bytes` value -/

namespace VTableWriter

/-- vtable_writer.rs 45-48 `write_vtable_byte_length`. -/
def writeVTableByteLength (m : Mode) (buf : Bytes) (n : Nat) : Res Bytes :=
  if 2 ≤ buf.length then do
    let buf' := splice buf 0 (leBytes 2 n)
    debugAssert m (n == buf.length)
    return buf'
  else .panic

/-- vtable_writer.rs 52-54 `write_object_inline_size`. -/
def writeObjectInlineSize (buf : Bytes) (n : Nat) : Res Bytes :=
  if 4 ≤ buf.length then .ok (splice buf 2 (leBytes 2 n)) else .panic

/-- vtable_writer.rs 61-64 `get_field_offset`. -/
def getFieldOffset (m : Mode) (buf : Bytes) (off : Nat) : Res Nat := (readNatAt m .u16 buf off).expect

/-- vtable_writer.rs 71-74 `write_field_offset`. -/
def writeFieldOffset (buf : Bytes) (off n : Nat) : Res Bytes :=
  if off + 2 ≤ buf.length then .ok (splice buf off (leBytes 2 n)) else .panic

/-- builder.rs 473-481: the loop writing every `FieldLoc` of the table at `obj`. -/
def writeFields (m : Mode) (obj : Nat) : List FieldLoc → Bytes → Res Bytes
  | [], buf => .ok buf
  | fl :: rest, buf => do
    let d ← subW 32 m obj fl.off
    if m = .debug then
      let x ← getFieldOffset m buf fl.id
      debugAssert m (x == 0)
    let buf' ← writeFieldOffset buf fl.id (d % 2 ^ 16)
    writeFields m obj rest buf'

end VTableWriter

namespace Builder

/-- builder.rs 67-89 `new_with_capacity` (`new()`, line 59, is capacity 0). -/
def newWithCapacity (size : Nat) : Res Builder := do
  assert (decide (size ≤ maxBufferSize))
  return { buf := List.replicate size 0, head := size, fieldLocs := [], vtables := [],
           nested := false, finished := false, minAlign := 0 }

/-- builder.rs 389-391 `used_space`. `head ≤ len` holds in every reachable state. -/
def usedSpace (b : Builder) : Nat := b.buf.length - b.head

/-- builder.rs 331-333 `unfinished_data`: `&self.owned_buf[self.head..]`. -/
def unfinishedData (b : Builder) : Bytes := b.buf.drop b.head

/-- builder.rs 337-340 `finished_data`. -/
def finishedData (m : Mode) (b : Builder) : Res Bytes := do
  debugAssert m b.finished
  return b.buf.drop b.head

/-- builder.rs 123-125 `collapse`. -/
def collapse (b : Builder) : Bytes × Nat := (b.buf, b.head)

/-- builder.rs 102-119 `reset`: zeroes the used part, rewinds; `field_locs` is left as it is. -/
def reset (b : Builder) : Builder :=
  { buf := b.buf.take b.head ++ List.replicate (b.buf.length - b.head) 0
    head := b.buf.length
    fieldLocs := b.fieldLocs
    vtables := []
    nested := false
    finished := false
    minAlign := 0 }

/-- builder.rs 527-558 `grow_owned_buf`. `Vec::resize` past `isize::MAX` panics. -/
def grow (m : Mode) (b : Builder) : Res Builder :=
  let oldLen := b.buf.length
  let newLen := max 1 (oldLen * 2)
  if newLen > isizeMax then .panic
  else
    let diff := newLen - oldLen
    let buf1 := b.buf ++ List.replicate diff 0
    let b1 := { b with buf := buf1, head := b.head + diff }
    if m = .debug ∧ b1.usedSpace ≠ b.usedSpace then .panic
    else if newLen = 1 then .ok b1
    else
      let middle := newLen / 2
      let left := buf1.take middle
      let right := buf1.drop middle
      -- `copy_from_slice` panics on different lengths
      if left.length ≠ right.length then .panic
      else .ok { b1 with buf := List.replicate middle 0 ++ left }

theorem grow_head {m : Mode} {b b' : Builder} (h : grow m b = .ok b') : b.head < b'.head := by
  unfold grow at h
  simp only at h
  split at h
  · cases h
  · split at h
    · cases h
    · split at h
      · cases h; simp; omega
      · split at h
        · cases h
        · cases h; simp; omega

/-- builder.rs 644-646: the growth loop of `ensure_capacity`. -/
def growLoop (m : Mode) (b : Builder) (want : Nat) : Res Builder :=
  if b.head < want then
    match _h : grow m b with
    | .ok b' => growLoop m b' want
    | .err e => .err e
    | .panic => .panic
  else .ok b
termination_by want - b.head
decreasing_by have := grow_head _h; omega

/-- builder.rs 635-648 `ensure_capacity`. -/
def ensureCapacity (m : Mode) (b : Builder) (want : Nat) : Res Builder :=
  if b.head ≥ want then .ok b
  else do
    assert (decide (want ≤ maxBufferSize))
    growLoop m b want

/-- builder.rs 628-632 `make_space`. -/
def makeSpace (m : Mode) (b : Builder) (want : Nat) : Res Builder := do
  let b ← ensureCapacity m b want
  let h ← subU m b.head want
  return { b with head := h }

/-- builder.rs 608-612 `align` (with 615-617 `track_min_align`). -/
def align (m : Mode) (b : Builder) (len alignment : Nat) : Res Builder := do
  let b := { b with minAlign := max b.minAlign alignment }
  let s ← addU m b.usedSpace len
  makeSpace m b (paddingBytes s alignment)

/-- builder.rs 620-625 `push_bytes_unprefixed`. -/
def pushBytesUnprefixed (m : Mode) (b : Builder) (x : Bytes) : Res Builder := do
  let b ← makeSpace m b x.length
  if b.head + x.length ≤ b.buf.length then return { b with buf := splice b.buf b.head x } else .panic

/-- builder.rs 132-141 `push`; returns the `WIPOffset` value `used_space() as u32`.
`split_at_mut(sz)` panics if fewer than `sz` bytes follow `head`. -/
def push (m : Mode) (b : Builder) {p : PTy} (x : PVal p) : Res (Nat × Builder) := do
  let b ← align m b p.size p.align
  let b ← makeSpace m b p.size
  if p.size ≤ b.buf.length - b.head then do
    let bs ← x.pushBytes m (b.buf.length - b.head - p.size)
    let b := { b with buf := splice b.buf b.head bs }
    return (b.usedSpace % 2 ^ 32, b)
  else .panic

/-- builder.rs 654-662 `assert_nested`. -/
def assertNested (m : Mode) (b : Builder) : Res Unit := debugAssert m b.nested
/-- builder.rs 664-666 `assert_not_nested`. -/
def assertNotNested (m : Mode) (b : Builder) : Res Unit := debugAssert m (!b.nested)
/-- builder.rs 672-674 `assert_not_finished`. -/
def assertNotFinished (m : Mode) (b : Builder) : Res Unit := debugAssert m (!b.finished)

/-- builder.rs 394-397 `track_field`. -/
def trackField (b : Builder) (slot off : Nat) : Builder :=
  { b with fieldLocs := b.fieldLocs ++ [⟨slot, off⟩] }

/-- builder.rs 158-162 `push_slot_always`. -/
def pushSlotAlways (m : Mode) (b : Builder) (slot : Nat) {p : PTy} (x : PVal p) : Res Builder := do
  assertNested m b
  let (off, b) ← push m b x
  return b.trackField slot off

/-- builder.rs 147-153 `push_slot`. -/
def pushSlot (m : Mode) (b : Builder) (slot : Nat) {p : PTy} (x default : PVal p) : Res Builder := do
  assertNested m b
  if x.eqv default then return b
  else pushSlotAlways m b slot x

/-- builder.rs 167-169 `num_written_vtables`. -/
def numWrittenVTables (b : Builder) : Nat := b.vtables.length

/-- builder.rs 177-184 `start_table`. -/
def startTable (m : Mode) (b : Builder) : Res (Nat × Builder) := do
  assertNotNested m b
  let b := { b with nested := true }
  return (b.usedSpace % 2 ^ 32, b)

/-- builder.rs 512-523 `find_duplicate_stored_vtable_revloc`: newest first (`revs` is already reversed). -/
def findDuplicate (m : Mode) (b : Builder) (needle : VTable) : List Nat → Res (Option Nat)
  | [] => .ok none
  | r :: rest => do
    let l ← subU m (b.head + b.usedSpace) r
    let same ← VTable.eqv m needle ⟨b.buf, l⟩
    if same then return some r else findDuplicate m b needle rest

/-- builder.rs 493-508, the end of `write_vtable`: store the distance to the vtable at `vtUse` in the table
at `obj` (both end-relative) and forget the field locations. -/
def patchVTable (m : Mode) (b : Builder) (vtUse obj : Nat) : Res (Nat × Builder) := do
  let n ← subU m (b.head + b.usedSpace) obj
  let saw ← (readNatAt m .u32 b.buf n).expect
  debugAssert m (saw == 0xF0F0F0F0)
  -- `vt_use as SOffsetT - obj as SOffsetT`
  let d ← subS 32 m (toSigned 32 vtUse) (toSigned 32 obj)
  if n + 4 ≤ b.buf.length then
    return (obj, { b with buf := splice b.buf n (leBytes 4 (ofSigned 32 d)), fieldLocs := [] })
  else .panic

/-- builder.rs 400-509 `write_vtable`; returns the table's end-relative position. -/
def writeVTable (m : Mode) (b : Builder) (tail : Nat) : Res (Nat × Builder) := do
  assertNested m b
  let (obj, b) ← push m b (PVal.sc (u32v 0xF0F0F0F0))
  let vtLen := vtableByteLen b.fieldLocs
  let b ← makeSpace m b vtLen
  let objSize ← subW 32 m obj tail
  debugAssert m (decide (objSize < 0x10000))
  let start := b.head
  let slice ← sliceIdx b.buf start (start + vtLen)
  let slice ← VTableWriter.writeVTableByteLength m slice (vtLen % 2 ^ 16)
  let slice ← VTableWriter.writeObjectInlineSize slice (objSize % 2 ^ 16)
  let slice ← VTableWriter.writeFields m obj b.fieldLocs slice
  let b := { b with buf := splice b.buf start slice }
  let dup ← findDuplicate m b ⟨b.buf, b.head⟩ b.vtables.reverse
  match dup with
  | some n =>
    patchVTable m { b with buf := splice b.buf start (List.replicate vtLen 0), head := b.head + vtLen } n obj
  | none =>
    let n := b.usedSpace % 2 ^ 32
    patchVTable m { b with vtables := b.vtables ++ [n] } n obj

/-- builder.rs 190-202 `end_table`. -/
def endTable (m : Mode) (b : Builder) (tail : Nat) : Res (Nat × Builder) := do
  assertNested m b
  let (o, b) ← writeVTable m b tail
  return (o, { b with nested := false, fieldLocs := [] })

/-- builder.rs 212-218 `start_vector::<T>(num_items)`. -/
def startVector (m : Mode) (b : Builder) (p : PTy) (numItems : Nat) : Res Builder := do
  assertNotNested m b
  let b := { b with nested := true }
  let n ← mulU m numItems p.size
  align m b n (max p.align 4)

/-- builder.rs 227-232 `end_vector(num_elems)`. -/
def endVector (m : Mode) (b : Builder) (numElems : Nat) : Res (Nat × Builder) := do
  assertNested m b
  let b := { b with nested := false }
  push m b (PVal.sc (u32v numElems))

/-- builder.rs 247-256 `create_byte_string`. -/
def createByteString (m : Mode) (b : Builder) (data : Bytes) : Res (Nat × Builder) := do
  assertNotNested m b
  let n ← addU m data.length 1
  let b ← align m b n 4
  let (_, b) ← push m b (PVal.sc (t := .u8) (0 : Fin 256))
  let b ← pushBytesUnprefixed m b data
  let (_, b) ← push m b (PVal.sc (u32v data.length))
  return (b.usedSpace % 2 ^ 32, b)

/-- The UTF-8 bytes of a string (`str::as_bytes`). -/
def strBytes (s : String) : Bytes := s.toByteArray.data.toList

/-- builder.rs 238-243 `create_string`. -/
def createString (m : Mode) (b : Builder) (s : String) : Res (Nat × Builder) := do
  assertNotNested m b
  createByteString m b (strBytes s)

/-- builder.rs 265-283 `create_vector_direct`: the items' memory is their little-endian bytes. -/
def createVectorDirect (m : Mode) (b : Builder) {t : STy} (items : List (SVal t)) :
    Res (Nat × Builder) := do
  assertNotNested m b
  let n ← mulU m items.length t.size
  let b ← align m b n (max t.size 4)
  let b ← pushBytesUnprefixed m b (items.map SVal.bytes).flatten
  let (_, b) ← push m b (PVal.sc (u32v items.length))
  return (b.usedSpace % 2 ^ 32, b)

/-- builder.rs 322-324: `for i in (0..len).rev() { self.push(items[i]); }` on the reversed list. -/
def pushAll (m : Mode) {p : PTy} : Builder → List (PVal p) → Res Builder
  | b, [] => .ok b
  | b, x :: xs => do
    let (_, b) ← push m b x
    pushAll m b xs

/-- builder.rs 316-326 `create_vector`. -/
def createVector (m : Mode) (b : Builder) {p : PTy} (items : List (PVal p)) : Res (Nat × Builder) := do
  let n ← mulU m items.length p.size
  let b ← align m b n (max p.align 4)
  let b ← pushAll m b items.reverse
  push m b (PVal.sc (u32v items.length))

/-- A `WIPOffset` value as a pushable value. -/
def offVal (n : Nat) : PVal .off := Fin.ofNat (2 ^ 32) n

/-- builder.rs 303-307: create the strings of the (already reversed) list, newest offset first. -/
def createStrings (m : Mode) : Builder → List String → List (PVal .off) → Res (List (PVal .off) × Builder)
  | b, [], acc => .ok (acc, b)
  | b, s :: rest, acc => do
    let (o, b) ← createString m b s
    createStrings m b rest (offVal o :: acc)

/-- builder.rs 290-309 `create_vector_of_strings`. -/
def createVectorOfStrings (m : Mode) (b : Builder) (xs : List String) : Res (Nat × Builder) := do
  assertNotNested m b
  let (offs, b) ← createStrings m b xs.reverse []
  createVector m b offs

/-- builder.rs 345-360 `required`. -/
def required (m : Mode) (b : Builder) (tab slot : Nat) : Res Unit := do
  let idx ← subU m b.usedSpace tab
  let t : Table := ⟨b.buf.drop b.head, idx⟩
  let vt ← (t.vtable m).expect
  let o ← (vt.get m slot).expect
  match o with
  | none => .panic
  | some o => assert (o != 0)

/-- builder.rs 591-594: the optional file identifier. -/
def pushIdent (m : Mode) (b : Builder) : Option Bytes → Res Builder
  | some i => do
    debugAssert m (i.length == 4)
    pushBytesUnprefixed m b i
  | none => .ok b

/-- builder.rs 598-601: the optional size prefix, `used_space() as u32` before it is pushed. -/
def pushSizePrefix (m : Mode) (b : Builder) (sizePrefixed : Bool) : Res Builder :=
  if sizePrefixed then do
    let (_, b) ← push m b (PVal.sc (u32v b.usedSpace))
    return b
  else .ok b

/-- builder.rs 562-605 `finish_with_opts`. The identifier is given by its bytes. -/
def finishWithOpts (m : Mode) (b : Builder) (root : Nat) (ident : Option Bytes) (sizePrefixed : Bool) :
    Res Builder := do
  assertNotFinished m b
  assertNotNested m b
  let b := { b with vtables := [] }
  let toAlign := 4 + (if sizePrefixed then 4 else 0) + (if ident.isSome then 4 else 0)
  let b ← align m b toAlign b.minAlign
  let b ← pushIdent m b ident
  let (_, b) ← push m b (offVal root)
  let b ← pushSizePrefix m b sizePrefixed
  return { b with finished := true }

/-- builder.rs 376-378 `finish`. -/
def finish (m : Mode) (b : Builder) (root : Nat) (ident : Option Bytes) : Res Builder :=
  finishWithOpts m b root ident false
/-- builder.rs 367-369 `finish_size_prefixed`. -/
def finishSizePrefixed (m : Mode) (b : Builder) (root : Nat) (ident : Option Bytes) : Res Builder :=
  finishWithOpts m b root ident true
/-- builder.rs 384-386 `finish_minimal`. -/
def finishMinimal (m : Mode) (b : Builder) (root : Nat) : Res Builder := finishWithOpts m b root none false

end Builder

/-! ### Call histories -/

/-- One public call on a builder, with arbitrary (possibly nonsensical) arguments. -/
inductive Op where
  | push (p : PTy) (x : PVal p)
  | pushSlot (slot : Fin 65536) (p : PTy) (x default : PVal p)
  | pushSlotAlways (slot : Fin 65536) (p : PTy) (x : PVal p)
  | startTable
  | endTable (tail : Fin (2 ^ 32))
  | startVector (p : PTy) (n : Fin (2 ^ 64))
  | endVector (n : Fin (2 ^ 64))
  | createString (s : String)
  | createByteString (bs : Bytes)
  | createVectorDirect (t : STy) (items : List (SVal t))
  | createVector (p : PTy) (items : List (PVal p))
  | createVectorOfStrings (xs : List String)
  | required (tab : Fin (2 ^ 32)) (slot : Fin 65536)
  | finish (root : Fin (2 ^ 32)) (ident : Option Bytes) (sizePrefixed : Bool)
  | reset

/-- `reset` is the only call allowed to drop data. -/
def Op.isReset : Op → Bool
  | .reset => true
  | _ => false

/-- Attach "no offset" to a call that returns `()`. -/
def noRet (r : Res Builder) : Res (Option Nat × Builder) := do
  let b ← r
  return (none, b)

/-- Attach the returned offset. -/
def withRet (r : Res (Nat × Builder)) : Res (Option Nat × Builder) := do
  let (o, b) ← r
  return (some o, b)

/-- Execute one call; the result carries the returned offset, if the call returns one. -/
def step (m : Mode) (b : Builder) : Op → Res (Option Nat × Builder)
  | .push _ x => withRet (b.push m x)
  | .pushSlot s _ x d => noRet (b.pushSlot m s x d)
  | .pushSlotAlways s _ x => noRet (b.pushSlotAlways m s x)
  | .startTable => withRet (b.startTable m)
  | .endTable t => withRet (b.endTable m t)
  | .startVector p n => noRet (b.startVector m p n)
  | .endVector n => withRet (b.endVector m n)
  | .createString s => withRet (b.createString m s)
  | .createByteString bs => withRet (b.createByteString m bs)
  | .createVectorDirect _ xs => withRet (b.createVectorDirect m xs)
  | .createVector _ xs => withRet (b.createVector m xs)
  | .createVectorOfStrings xs => withRet (b.createVectorOfStrings m xs)
  | .required t s => do
    b.required m t s
    return (none, b)
  | .finish r i sp => noRet (b.finishWithOpts m r i sp)
  | .reset => .ok (none, b.reset)

/-- Execute a list of calls, collecting the returned offsets. -/
def run (m : Mode) : Builder → List Op → Res (List (Option Nat) × Builder)
  | b, [] => .ok ([], b)
  | b, op :: ops => do
    let (r, b) ← step m b op
    let (rs, b) ← run m b ops
    return (r :: rs, b)

/-- A builder state that some history of calls on a freshly created builder leads to. -/
def Reachable (m : Mode) (b : Builder) : Prop :=
  ∃ cap b0 ops rets, Builder.newWithCapacity cap = .ok b0 ∧ run m b0 ops = .ok (rets, b)

end Butte
