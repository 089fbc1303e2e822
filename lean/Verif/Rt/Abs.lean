import Verif.Rt.Builder
/-
The specification of `FlatBufferBuilder`: a builder over the written data only, to which bytes are prepended.
There is no capacity, no head and no growth here. `Verif/Rt/Refine.lean` proves that the concrete builder of
`Verif/Rt/Builder.lean` refines it.
-/
namespace Butte

/-- Abstract builder state: `data` is what `unfinished_data()` returns. -/
structure ABuilder where
  data : Bytes
  fieldLocs : List FieldLoc
  vtables : List Nat
  nested : Bool
  finished : Bool
  minAlign : Nat

namespace ABuilder

/-- A fresh builder. -/
def init : ABuilder := ⟨[], [], [], false, false, 0⟩

/-- Prepend bytes to the data. -/
def prepend (a : ABuilder) (bs : Bytes) : ABuilder := { a with data := bs ++ a.data }

/-- Specification of `align` (builder.rs 608-612): zero padding is prepended. -/
def align (m : Mode) (a : ABuilder) (len alignment : Nat) : Res ABuilder := do
  let s ← addU m a.data.length len
  return { a with minAlign := max a.minAlign alignment,
                  data := List.replicate (paddingBytes s alignment) 0 ++ a.data }

/-- Specification of `push` (builder.rs 132-141). -/
def push (m : Mode) (a : ABuilder) {p : PTy} (x : PVal p) : Res (Nat × ABuilder) := do
  let a ← align m a p.size p.align
  let bs ← x.pushBytes m a.data.length
  let a := a.prepend bs
  return (a.data.length % 2 ^ 32, a)

/-- Specification of `push_slot_always` (builder.rs 158-162). -/
def pushSlotAlways (m : Mode) (a : ABuilder) (slot : Nat) {p : PTy} (x : PVal p) : Res ABuilder := do
  debugAssert m a.nested
  let (off, a) ← push m a x
  return { a with fieldLocs := a.fieldLocs ++ [⟨slot, off⟩] }

/-- Specification of `push_slot` (builder.rs 147-153). -/
def pushSlot (m : Mode) (a : ABuilder) (slot : Nat) {p : PTy} (x default : PVal p) : Res ABuilder := do
  debugAssert m a.nested
  if x.eqv default then return a
  else pushSlotAlways m a slot x

/-- Specification of `start_table` (builder.rs 177-184). -/
def startTable (m : Mode) (a : ABuilder) : Res (Nat × ABuilder) := do
  debugAssert m (!a.nested)
  return (a.data.length % 2 ^ 32, { a with nested := true })

/-- Specification of `find_duplicate_stored_vtable_revloc` (builder.rs 512-523). -/
def findDuplicate (m : Mode) (data : Bytes) : List Nat → Res (Option Nat)
  | [] => .ok none
  | r :: rest => do
    let same ← VTable.eqv m ⟨data, 0⟩ ⟨data, data.length - r⟩
    if same then return some r else findDuplicate m data rest

/-- The vtable bytes for a table at end-relative position `obj` whose data ends at `tail`
(builder.rs 452-482). -/
def vtableBytes (m : Mode) (fls : List FieldLoc) (obj tail : Nat) : Res Bytes := do
  let vtLen := vtableByteLen fls
  let objSize ← subW 32 m obj tail
  debugAssert m (decide (objSize < 0x10000))
  let slice ← VTableWriter.writeVTableByteLength m (List.replicate vtLen 0) (vtLen % 2 ^ 16)
  let slice ← VTableWriter.writeObjectInlineSize slice (objSize % 2 ^ 16)
  VTableWriter.writeFields m obj fls slice

/-- Write the soffset of the table at end-relative position `obj` (builder.rs 493-503). -/
def patch (m : Mode) (data : Bytes) (vtUse obj : Nat) : Res Bytes := do
  let n := data.length - obj
  let saw ← (readNatAt m .u32 data n).expect
  debugAssert m (saw == 0xF0F0F0F0)
  let d ← subS 32 m (toSigned 32 vtUse) (toSigned 32 obj)
  return splice data n (leBytes 4 (ofSigned 32 d))

/-- Specification of `write_vtable` (builder.rs 400-509). -/
def writeVTable (m : Mode) (a : ABuilder) (tail : Nat) : Res (Nat × ABuilder) := do
  debugAssert m a.nested
  let (obj, a) ← push m a (PVal.sc (u32v 0xF0F0F0F0))
  let vt ← vtableBytes m a.fieldLocs obj tail
  let dup ← findDuplicate m (vt ++ a.data) a.vtables.reverse
  match dup with
  | some n => do
    let d ← patch m a.data n obj
    return (obj, { a with data := d, fieldLocs := [] })
  | none => do
    let n := (vt ++ a.data).length % 2 ^ 32
    let d ← patch m (vt ++ a.data) n obj
    return (obj, { a with data := d, vtables := a.vtables ++ [n], fieldLocs := [] })

/-- Specification of `end_table` (builder.rs 190-202). -/
def endTable (m : Mode) (a : ABuilder) (tail : Nat) : Res (Nat × ABuilder) := do
  debugAssert m a.nested
  let (o, a) ← writeVTable m a tail
  return (o, { a with nested := false, fieldLocs := [] })

/-- Specification of `start_vector` (builder.rs 212-218). -/
def startVector (m : Mode) (a : ABuilder) (p : PTy) (numItems : Nat) : Res ABuilder := do
  debugAssert m (!a.nested)
  let n ← mulU m numItems p.size
  align m { a with nested := true } n (max p.align 4)

/-- Specification of `end_vector` (builder.rs 227-232). -/
def endVector (m : Mode) (a : ABuilder) (numElems : Nat) : Res (Nat × ABuilder) := do
  debugAssert m a.nested
  push m { a with nested := false } (PVal.sc (u32v numElems))

/-- Specification of `create_byte_string` (builder.rs 247-256). -/
def createByteString (m : Mode) (a : ABuilder) (bs : Bytes) : Res (Nat × ABuilder) := do
  debugAssert m (!a.nested)
  let n ← addU m bs.length 1
  let a ← align m a n 4
  let (_, a) ← push m a (PVal.sc (t := .u8) (0 : Fin 256))
  push m (a.prepend bs) (PVal.sc (u32v bs.length))

/-- Specification of `create_string` (builder.rs 238-243). -/
def createString (m : Mode) (a : ABuilder) (s : String) : Res (Nat × ABuilder) := do
  debugAssert m (!a.nested)
  createByteString m a (Builder.strBytes s)

/-- Specification of `create_vector_direct` (builder.rs 265-283). -/
def createVectorDirect (m : Mode) (a : ABuilder) {t : STy} (items : List (SVal t)) :
    Res (Nat × ABuilder) := do
  debugAssert m (!a.nested)
  let n ← mulU m items.length t.size
  let a ← align m a n (max t.size 4)
  push m (a.prepend (items.map SVal.bytes).flatten) (PVal.sc (u32v items.length))

/-- Specification of the push loop of `create_vector` (builder.rs 322-324). -/
def pushAll (m : Mode) {p : PTy} : ABuilder → List (PVal p) → Res ABuilder
  | a, [] => .ok a
  | a, x :: xs => do
    let (_, a) ← push m a x
    pushAll m a xs

/-- Specification of `create_vector` (builder.rs 316-326). -/
def createVector (m : Mode) (a : ABuilder) {p : PTy} (items : List (PVal p)) :
    Res (Nat × ABuilder) := do
  let n ← mulU m items.length p.size
  let a ← align m a n (max p.align 4)
  let a ← pushAll m a items.reverse
  push m a (PVal.sc (u32v items.length))

/-- Specification of the string loop of `create_vector_of_strings` (builder.rs 303-307). -/
def createStrings (m : Mode) : ABuilder → List String → List (PVal .off) → Res (List (PVal .off) × ABuilder)
  | a, [], acc => .ok (acc, a)
  | a, s :: rest, acc => do
    let (o, a) ← createString m a s
    createStrings m a rest (Builder.offVal o :: acc)

/-- Specification of `create_vector_of_strings` (builder.rs 290-309). -/
def createVectorOfStrings (m : Mode) (a : ABuilder) (xs : List String) : Res (Nat × ABuilder) := do
  debugAssert m (!a.nested)
  let (offs, a) ← createStrings m a xs.reverse []
  createVector m a offs

/-- Specification of `required` (builder.rs 345-360). -/
def required (m : Mode) (a : ABuilder) (tab slot : Nat) : Res Unit := do
  let idx ← subU m a.data.length tab
  let t : Table := ⟨a.data, idx⟩
  let vt ← (t.vtable m).expect
  let o ← (vt.get m slot).expect
  match o with
  | none => .panic
  | some o => assert (o != 0)

/-- Specification of the file identifier push (builder.rs 591-594). -/
def pushIdent (m : Mode) (a : ABuilder) : Option Bytes → Res ABuilder
  | some i => do
    debugAssert m (i.length == 4)
    return a.prepend i
  | none => .ok a

/-- Specification of the size prefix push (builder.rs 598-601). -/
def pushSizePrefix (m : Mode) (a : ABuilder) (sizePrefixed : Bool) : Res ABuilder :=
  if sizePrefixed then do
    let (_, a) ← push m a (PVal.sc (u32v a.data.length))
    return a
  else .ok a

/-- Specification of `finish_with_opts` (builder.rs 562-605). -/
def finishWithOpts (m : Mode) (a : ABuilder) (root : Nat) (ident : Option Bytes) (sizePrefixed : Bool) :
    Res ABuilder := do
  debugAssert m (!a.finished)
  debugAssert m (!a.nested)
  let toAlign := 4 + (if sizePrefixed then 4 else 0) + (if ident.isSome then 4 else 0)
  let a ← align m { a with vtables := [] } toAlign a.minAlign
  let a ← pushIdent m a ident
  let (_, a) ← push m a (Builder.offVal root)
  let a ← pushSizePrefix m a sizePrefixed
  return { a with finished := true }

/-- Specification of `reset` (builder.rs 102-119). -/
def reset (a : ABuilder) : ABuilder := { init with fieldLocs := a.fieldLocs }

end ABuilder

/-- Attach "no offset". -/
def noRetA (r : Res ABuilder) : Res (Option Nat × ABuilder) := do
  let b ← r
  return (none, b)

/-- Attach the returned offset. -/
def withRetA (r : Res (Nat × ABuilder)) : Res (Option Nat × ABuilder) := do
  let (o, b) ← r
  return (some o, b)

/-- One call on the abstract builder. -/
def stepA (m : Mode) (a : ABuilder) : Op → Res (Option Nat × ABuilder)
  | .push _ x => withRetA (a.push m x)
  | .pushSlot s _ x d => noRetA (a.pushSlot m s x d)
  | .pushSlotAlways s _ x => noRetA (a.pushSlotAlways m s x)
  | .startTable => withRetA (a.startTable m)
  | .endTable t => withRetA (a.endTable m t)
  | .startVector p n => noRetA (a.startVector m p n)
  | .endVector n => withRetA (a.endVector m n)
  | .createString s => withRetA (a.createString m s)
  | .createByteString bs => withRetA (a.createByteString m bs)
  | .createVectorDirect _ xs => withRetA (a.createVectorDirect m xs)
  | .createVector _ xs => withRetA (a.createVector m xs)
  | .createVectorOfStrings xs => withRetA (a.createVectorOfStrings m xs)
  | .required t s => do
    a.required m t s
    return (none, a)
  | .finish r i sp => noRetA (a.finishWithOpts m r i sp)
  | .reset => .ok (none, a.reset)

/-- A list of calls on the abstract builder. -/
def runA (m : Mode) : ABuilder → List Op → Res (List (Option Nat) × ABuilder)
  | a, [] => .ok ([], a)
  | a, op :: ops => do
    let (r, a) ← stepA m a op
    let (rs, a) ← runA m a ops
    return (r :: rs, a)

end Butte
