import Verif.Mem.WordBuildRun
/-
With 64 bits the builder of `Mem/WordBuild` is that of `Rt/Builder`.
-/
namespace Butte.Word

theorem readNatAt_64 (m : Mode) (t : STy) (s : Bytes) (l : Nat) : (readNatAt 64 m t s l).res = Butte.readNatAt m t s l :=
  Mem.readNatAt_res m t s l

theorem writeFields_64 (m : Mode) (obj : Nat) : ∀ (fls : List FieldLoc) (buf : Bytes),
    writeFields 64 m obj fls buf = VTableWriter.writeFields m obj fls buf
  | [], _ => rfl
  | fl :: rest, buf => by
    have e : getFieldOffset 64 m buf fl.id = VTableWriter.getFieldOffset m buf fl.id := by
      unfold getFieldOffset VTableWriter.getFieldOffset
      rw [readNatAt_64]
    unfold writeFields VTableWriter.writeFields
    simp only [e, writeFields_64 m obj rest]

namespace Builder

theorem grow_64 (m : Mode) (b : Butte.Builder) : grow 64 m b = b.grow m := rfl

theorem growLoop_64 (m : Mode) (n : Nat) (b : Butte.Builder) : growLoop 64 m b n = b.growLoop m n := by
  rw [growLoop_step, growLoop_stepW, grow_64]
  split
  · next h =>
    refine bind_congr fun b1 h1 => ?_
    have := Butte.Builder.grow_head h1
    exact growLoop_64 m n b1
  · rfl
termination_by n - b.head

theorem makeSpace_64 (m : Mode) (b : Butte.Builder) (n : Nat) : makeSpace 64 m b n = b.makeSpace m n := by
  unfold makeSpace ensureCapacity Butte.Builder.makeSpace Butte.Builder.ensureCapacity
  rw [growLoop_64]

theorem align_64 (m : Mode) (b : Butte.Builder) (n a : Nat) : align 64 m b n a = b.align m n a := by
  unfold align Butte.Builder.align
  simp only [makeSpace_64]
  rfl

theorem pushBytesUnprefixed_64 (m : Mode) (b : Butte.Builder) (x : Bytes) : pushBytesUnprefixed 64 m b x = b.pushBytesUnprefixed m x := by
  unfold pushBytesUnprefixed Butte.Builder.pushBytesUnprefixed
  rw [makeSpace_64]

theorem pushBytes_64 (m : Mode) {p : PTy} (v : PVal p) (n : Nat) : pushBytes 64 m v n = v.pushBytes m n := by
  cases p <;> rfl

theorem push_64 (m : Mode) (b : Butte.Builder) {p : PTy} (x : PVal p) : push 64 m b x = b.push m x := by
  unfold push Butte.Builder.push
  simp only [align_64, makeSpace_64, pushBytes_64]

theorem pushSlotAlways_64 (m : Mode) (b : Butte.Builder) (s : Nat) {p : PTy} (x : PVal p) :
    pushSlotAlways 64 m b s x = b.pushSlotAlways m s x := by
  unfold pushSlotAlways Butte.Builder.pushSlotAlways
  simp only [push_64]

theorem pushSlot_64 (m : Mode) (b : Butte.Builder) (s : Nat) {p : PTy} (x d : PVal p) :
    pushSlot 64 m b s x d = b.pushSlot m s x d := by
  unfold pushSlot Butte.Builder.pushSlot
  simp only [pushSlotAlways_64]

theorem findDuplicate_64 (m : Mode) (b : Butte.Builder) (v : Butte.VTable) : ∀ rs : List Nat,
    findDuplicate 64 m b v rs = b.findDuplicate m v rs
  | [] => rfl
  | r :: rs => by
    unfold findDuplicate Butte.Builder.findDuplicate
    have e : ∀ v' : Butte.VTable, (VTable.eqv 64 m v v').res = v.eqv m v' := Mem.VTable.eqv_res m v
    simp only [e, findDuplicate_64 m b v rs]

theorem patchVTable_64 (m : Mode) (b : Butte.Builder) (vt obj : Nat) : patchVTable 64 m b vt obj = b.patchVTable m vt obj := by
  unfold patchVTable Butte.Builder.patchVTable
  simp only [readNatAt_64]

theorem writeVTable_64 (m : Mode) (b : Butte.Builder) (tail : Nat) : writeVTable 64 m b tail = b.writeVTable m tail := by
  unfold writeVTable Butte.Builder.writeVTable
  simp only [push_64, makeSpace_64, writeFields_64, findDuplicate_64, patchVTable_64]
  rfl

theorem endTable_64 (m : Mode) (b : Butte.Builder) (tail : Nat) : endTable 64 m b tail = b.endTable m tail := by
  unfold endTable Butte.Builder.endTable
  rw [writeVTable_64]

theorem startVector_64 (m : Mode) (b : Butte.Builder) (p : PTy) (n : Nat) : startVector 64 m b p n = b.startVector m p n := by
  unfold startVector Butte.Builder.startVector
  simp only [align_64]

theorem endVector_64 (m : Mode) (b : Butte.Builder) (n : Nat) : endVector 64 m b n = b.endVector m n := by
  unfold endVector Butte.Builder.endVector
  simp only [push_64]

theorem createByteString_64 (m : Mode) (b : Butte.Builder) (x : Bytes) : createByteString 64 m b x = b.createByteString m x := by
  unfold createByteString Butte.Builder.createByteString
  simp only [align_64, push_64, pushBytesUnprefixed_64]

theorem createString_64 (m : Mode) (b : Butte.Builder) (s : String) : createString 64 m b s = b.createString m s := by
  unfold createString Butte.Builder.createString
  simp only [createByteString_64]

theorem createVectorDirect_64 (m : Mode) (b : Butte.Builder) {t : STy} (xs : List (SVal t)) :
    createVectorDirect 64 m b xs = b.createVectorDirect m xs := by
  unfold createVectorDirect Butte.Builder.createVectorDirect
  simp only [align_64, push_64, pushBytesUnprefixed_64]

theorem pushAll_64 (m : Mode) {p : PTy} : ∀ (xs : List (PVal p)) (b : Butte.Builder), pushAll 64 m b xs = b.pushAll m xs
  | [], _ => rfl
  | x :: xs, b => by
    unfold pushAll Butte.Builder.pushAll
    simp only [push_64, pushAll_64 m xs]

theorem createVector_64 (m : Mode) (b : Butte.Builder) {p : PTy} (xs : List (PVal p)) :
    createVector 64 m b xs = b.createVector m xs := by
  unfold createVector Butte.Builder.createVector
  simp only [align_64, push_64, pushAll_64]

theorem createStrings_64 (m : Mode) : ∀ (xs : List String) (b : Butte.Builder) (acc : List (PVal .off)),
    createStrings 64 m b xs acc = b.createStrings m xs acc
  | [], _, _ => rfl
  | s :: xs, b, acc => by
    unfold createStrings Butte.Builder.createStrings
    simp only [createString_64, createStrings_64 m xs]

theorem createVectorOfStrings_64 (m : Mode) (b : Butte.Builder) (xs : List String) :
    createVectorOfStrings 64 m b xs = b.createVectorOfStrings m xs := by
  unfold createVectorOfStrings Butte.Builder.createVectorOfStrings
  simp only [createStrings_64, createVector_64]

theorem required_64 (m : Mode) (b : Butte.Builder) (t s : Nat) : required 64 m b t s = b.required m t s := by
  unfold required Butte.Builder.required
  simp only [vtable_64, get_64]
  rfl

theorem finish_64 (m : Mode) (b : Butte.Builder) (r : Nat) (i : Option Bytes) (sp : Bool) :
    finishWithOpts 64 m b r i sp = b.finishWithOpts m r i sp := by
  have e1 : ∀ b : Butte.Builder, pushIdent 64 m b i = b.pushIdent m i := by
    intro b
    cases i with
    | none => rfl
    | some i => unfold pushIdent Butte.Builder.pushIdent; simp only [pushBytesUnprefixed_64]
  have e2 : ∀ b : Butte.Builder, pushSizePrefix 64 m b sp = b.pushSizePrefix m sp := by
    intro b
    unfold pushSizePrefix Butte.Builder.pushSizePrefix
    simp only [push_64]
  unfold finishWithOpts Butte.Builder.finishWithOpts
  simp only [align_64, push_64, e1, e2]

end Builder

open Builder in
theorem step_64 (m : Mode) (b : Butte.Builder) (op : Op) : step 64 m b op = Butte.step m b op := by
  cases op <;> unfold step Butte.step <;> dsimp only
  case push => rw [push_64]
  case pushSlot => rw [pushSlot_64]
  case pushSlotAlways => rw [pushSlotAlways_64]
  case endTable => rw [endTable_64]
  case startVector => rw [startVector_64]
  case endVector => rw [endVector_64]
  case createString => rw [createString_64]
  case createByteString => rw [createByteString_64]
  case createVectorDirect => rw [createVectorDirect_64]
  case createVector => rw [createVector_64]
  case createVectorOfStrings => rw [createVectorOfStrings_64]
  case required => rw [required_64]
  case finish => rw [finish_64]

theorem run_64 (m : Mode) : ∀ (ops : List Op) (b : Butte.Builder), run 64 m b ops = Butte.run m b ops
  | [], _ => rfl
  | op :: ops, b => by
    unfold run Butte.run
    simp only [step_64, run_64 m ops]

end Butte.Word
