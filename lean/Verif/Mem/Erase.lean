import Verif.Mem.Model
import Mathlib.Logic.Basic
/-
Recording accesses does not change results.
-/
namespace Butte.Mem

@[simp] theorem bind_res (x : Tr α) (f : α → Tr β) : (x >>= f).res = x.res >>= fun a => (f a).res := by
  show (Tr.bind x f).res = _
  unfold Tr.bind
  cases x.res <;> rfl

@[simp] theorem pure_res (a : α) : (pure a : Tr α).res = .ok a := rfl
@[simp] theorem lift_res (r : Res α) : (Tr.lift r).res = r := rfl
@[simp] theorem liftM_res (r : Res α) : (liftM r : Tr α).res = r := rfl
@[simp] theorem monadLift_res (r : Res α) : (MonadLift.monadLift r : Tr α).res = r := rfl
@[simp] theorem touch_res (a : Access) : (Tr.touch a).res = .ok () := rfl
@[simp] theorem onRes_res (g : Res α → Res β) (x : Tr α) : (Tr.onRes g x).res = g x.res := rfl
@[simp] theorem within_res (mem : Bytes) (s : Nat) (x : Tr α) : (Tr.within mem s x).res = x.res := rfl
@[simp] theorem ite_res (c : Prop) [Decidable c] (x y : Tr α) : (if c then x else y).res = if c then x.res else y.res := by
  split <;> rfl

@[simp] theorem emplaceScalar_res {t : STy} (s : Bytes) (x : SVal t) : (emplaceScalar s x).res = Butte.emplaceScalar s x := by
  simp [emplaceScalar, Butte.emplaceScalar]

@[simp] theorem readScalarAs_res (A t : STy) (s : Bytes) : (readScalarAs A t s).res = Butte.readScalar t s := by
  simp [readScalarAs, Butte.readScalar]

@[simp] theorem readScalar_res (t : STy) (s : Bytes) : (readScalar t s).res = Butte.readScalar t s := by simp [readScalar]

@[simp] theorem readScalarAtAs_res (m : Mode) (A t : STy) (s : Bytes) (loc : Nat) :
    (readScalarAtAs m A t s loc).res = Butte.readScalarAt m t s loc := by
  simp [readScalarAtAs, Butte.readScalarAt]

@[simp] theorem readScalarAt_res (m : Mode) (t : STy) (s : Bytes) (loc : Nat) :
    (readScalarAt m t s loc).res = Butte.readScalarAt m t s loc := by simp [readScalarAt]

@[simp] theorem readNatAt_res (m : Mode) (t : STy) (s : Bytes) (loc : Nat) :
    (readNatAt m t s loc).res = Butte.readNatAt m t s loc := by simp [readNatAt, Butte.readNatAt]

/-! ### Reading -/

namespace VTable

@[simp] theorem numBytes_res (m : Mode) (v : VTable) : (numBytes m v).res = v.numBytes m := by
  simp [numBytes, Butte.VTable.numBytes]
@[simp] theorem numFields_res (m : Mode) (v : VTable) : (numFields m v).res = v.numFields m := by
  simp [numFields, Butte.VTable.numFields]
@[simp] theorem objectInlineNumBytes_res (m : Mode) (v : VTable) :
    (objectInlineNumBytes m v).res = v.objectInlineNumBytes m := by
  simp [objectInlineNumBytes, Butte.VTable.objectInlineNumBytes]
@[simp] theorem getField_res (m : Mode) (v : VTable) (i : Nat) : (getField m v i).res = v.getField m i := by
  simp [getField, Butte.VTable.getField]
@[simp] theorem get_res (m : Mode) (v : VTable) (i : Nat) : (get m v i).res = v.get m i := by
  simp [get, Butte.VTable.get]
@[simp] theorem asBytes_res (m : Mode) (v : VTable) : (asBytes m v).res = v.asBytes m := by
  simp [asBytes, Butte.VTable.asBytes]
@[simp] theorem eqv_res (m : Mode) (v w : VTable) : (eqv m v w).res = v.eqv m w := by
  unfold eqv Butte.VTable.eqv
  rw [← asBytes_res, ← asBytes_res]
  dsimp only
  cases (asBytes m v).res <;> cases (asBytes m w).res <;> rfl

end VTable

@[simp] theorem followStr_res (m : Mode) (buf : Bytes) (loc : Nat) : (followStr m buf loc).res = Butte.followStr m buf loc := by
  unfold followStr Butte.followStr
  simp only [bind_res, readNatAt_res, liftM_res, ite_res, lift_res, monadLift_res]
  refine bind_congr fun len => bind_congr fun a => bind_congr fun e => ?_
  split
  · rfl
  · cases buf[e]? with
    | none => rfl
    | some z =>
      simp only [bind_res, lift_res, Res.ok_bind, ite_res, liftM_res, monadLift_res]
      split
      · rfl
      · refine bind_congr fun s => ?_
        cases String.fromUTF8? (ByteArray.mk s.toArray) <;> rfl

@[simp] theorem followSlice_res (m : Mode) (t : STy) (buf : Bytes) (loc : Nat) :
    (followSlice m t buf loc).res = Butte.followSlice m t buf loc := by
  simp [followSlice, Butte.followSlice]

@[simp] theorem follow_res (m : Mode) (f : FTy) (buf : Bytes) (loc : Nat) : (follow m f buf loc).res = f.follow m buf loc := by
  induction f generalizing loc with
  | scalar t => exact readScalarAtAs_res ..
  | str => exact followStr_res ..
  | slice t => exact followSlice_res ..
  | vector e _ => rfl
  | table => rfl
  | vtable => rfl
  | fileId => simp only [follow, FTy.follow, bind_res, liftM_res, monadLift_res]; rfl
  | enum t vals => simp only [follow, FTy.follow, bind_res, liftM_res, monadLift_res, readScalarAt_res]; rfl
  | fwdU t ih | fwdV t ih | backS t ih | skipSize t ih | skipRoot t ih | skipFileId t ih =>
    simp only [follow, FTy.follow, ih, bind_res, liftM_res, monadLift_res, within_res, readScalar_res]
    rfl

namespace Table

@[simp] theorem getRoot_res (m : Mode) (buf : Bytes) : (getRoot m buf).res = Butte.Table.getRoot m buf := by
  unfold getRoot Butte.Table.getRoot; exact follow_res ..
@[simp] theorem getSizePrefixedRoot_res (m : Mode) (buf : Bytes) :
    (getSizePrefixedRoot m buf).res = Butte.Table.getSizePrefixedRoot m buf := by
  unfold getSizePrefixedRoot Butte.Table.getSizePrefixedRoot; exact follow_res ..
@[simp] theorem vtable_res (m : Mode) (t : Table) : (vtable m t).res = t.vtable m := by
  unfold vtable Butte.Table.vtable; exact follow_res ..
@[simp] theorem get_res (m : Mode) (t : Table) (f : FTy) (slot : Nat) (d : Option f.Inner) :
    (get m t f slot d).res = t.get m f slot d := by
  unfold get Butte.Table.get
  simp only [bind_res, vtable_res]
  refine bind_congr fun vt => ?_
  rw [VTable.get_res]
  refine bind_congr fun vo => ?_
  cases vo with
  | none => rfl
  | some o => simp

end Table

@[simp] theorem bufferHasIdentifier_res (m : Mode) (data ident : Bytes) (sp : Bool) :
    (bufferHasIdentifier m data ident sp).res = Butte.bufferHasIdentifier m data ident sp := by
  unfold bufferHasIdentifier Butte.bufferHasIdentifier
  simp only [bind_res, liftM_res, monadLift_res]
  refine bind_congr fun _ => ?_
  cases sp
  · have h : (follow m (.skipRoot .fileId) data 0 : Tr Bytes).res = (FTy.follow m (.skipRoot .fileId) data 0 : Res Bytes) :=
      follow_res ..
    exact (bind_res ..).trans (congrArg (fun r : Res Bytes => r >>= fun got => Res.ok (ident == got)) h)
  · have h : (follow m (.skipSize (.skipRoot .fileId)) data 0 : Tr Bytes).res =
        (FTy.follow m (.skipSize (.skipRoot .fileId)) data 0 : Res Bytes) := follow_res ..
    exact (bind_res ..).trans (congrArg (fun r : Res Bytes => r >>= fun got => Res.ok (ident == got)) h)

namespace Vec

@[simp] theorem len_res (m : Mode) {e : FTy} (v : Vec e) : (len m v).res = v.len m := by simp [len, Butte.Vec.len]
@[simp] theorem isEmpty_res (m : Mode) {e : FTy} (v : Vec e) : (isEmpty m v).res = v.isEmpty m := by
  simp [isEmpty, Butte.Vec.isEmpty]
@[simp] theorem get_res (m : Mode) {e : FTy} (v : Vec e) (i : Nat) : (get m v i).res = v.get m i := by
  cases m <;> simp [get, Butte.Vec.get]
@[simp] theorem safeSlice_res (m : Mode) {t : STy} (v : Vec (.scalar t)) : (safeSlice m v).res = v.safeSlice m := by
  simp [safeSlice, Butte.Vec.safeSlice]
@[simp] theorem iter_res (m : Mode) {e : FTy} (v : Vec e) : (iter m v).res = v.iter m := by simp [iter, Butte.Vec.iter]

end Vec

namespace VIter

@[simp] theorem next_res (m : Mode) {e : FTy} (it : VIter e) : (next m it).res = it.next m := by
  simp [next, Butte.VIter.next]
@[simp] theorem nth_res (m : Mode) {e : FTy} (it : VIter e) (n : Nat) : (nth m it n).res = it.nth m n := by
  simp [nth, Butte.VIter.nth]
@[simp] theorem nextBack_res (m : Mode) {e : FTy} (it : VIter e) : (nextBack m it).res = it.nextBack m := by
  simp [nextBack, Butte.VIter.nextBack]
@[simp] theorem nthBack_res (m : Mode) {e : FTy} (it : VIter e) (n : Nat) : (nthBack m it n).res = it.nthBack m n := by
  simp [nthBack, Butte.VIter.nthBack]

end VIter

/-! ### Accessors -/

section
open Gen

@[simp] theorem tagOf_res (m : Mode) (t : Butte.Table) (fs : List GField) (name : Str) :
    (tagOf m t fs name).res = Gen.tagOf m t fs name := by
  unfold tagOf Gen.tagOf
  generalize fs.find? _ = o
  rcases o with _ | ⟨n, slot, k, req⟩
  · rfl
  · cases k with
    | enum ty vals d =>
      simp only [bind_res, liftM_res, monadLift_res]
      exact congrArg (fun r : Res (Option Nat) => r >>= okOr n req) (Table.get_res ..)
    | _ => rfl

theorem fetch_res (m : Mode) (t : Butte.Table) (slot : Nat) (tag : Tr (Option Nat)) (k : Kind) :
    (fetch m t slot tag k).res = k.fetch m t slot tag.res := by
  cases k with
  | scalar ty d => exact Table.get_res ..
  | enum ty vals d => exact Table.get_res ..
  | ref f => exact Table.get_res ..
  | union vs =>
    simp only [fetch, Kind.fetch, bind_res]
    refine bind_congr fun o => ?_
    rcases o with _ | _ | i
    · rfl
    · rfl
    · dsimp only
      split
      · simp
      · rfl

@[simp] theorem accessor_res (m : Mode) (t : Butte.Table) (fs : List GField) (f : GField) :
    (accessor m t fs f).res = Gen.accessor m t fs f := by
  simp [accessor, Gen.accessor, fetch_res]

theorem mapAll_res {α β : Type} (f : α → Tr β) : ∀ xs : List α, (mapAll f xs).res = Gen.mapAll (fun x => (f x).res) xs
  | [] => rfl
  | x :: xs => by simp [mapAll, Gen.mapAll, mapAll_res f xs]

theorem readKind_res (rd : Ir.Ty → (f : FTy) → f.Inner → Tr Val) (ty : Ir.Ty) (k : Kind) (x : k.Inner) :
    (readKind rd ty k x).res = Gen.readKind (fun ty f x => (rd ty f x).res) ty k x := by
  cases k with
  | scalar t d => rfl
  | enum t vs d => rfl
  | ref f => rfl
  | union vs =>
    obtain ⟨i, x⟩ := x
    cases ty with
    | union id en uvs =>
      simp only [readKind, Gen.readKind]
      cases uvs[i.val]? with
      | none => rfl
      | some u => simp
    | _ => rfl

theorem readField_res (rd : Ir.Ty → (f : FTy) → f.Inner → Tr Val) (ty : Ir.Ty) (k : Kind) (r : Tr (Option k.Inner)) :
    (readField rd ty k r).res = Gen.readField (fun ty f x => (rd ty f x).res) ty k r.res := by
  simp only [readField, Gen.readField, bind_res]
  refine bind_congr fun o => ?_
  cases o with
  | none => rfl
  | some y => simp [readKind_res]

@[simp] theorem readVal_res (gm m : Mode) (S : Tables) (n : Nat) (ty : Ir.Ty) (f : FTy) (x : f.Inner) :
    (readVal gm m S n ty f x).res = Gen.readVal gm m S n ty f x := by
  induction n generalizing ty f x with
  | zero => simp only [readVal, Gen.readVal, lift_res]
  | succ n ih =>
    cases ty with
    | builtin b => cases f <;> first | rfl | simp only [readVal, Gen.readVal, lift_res]
    | enum id vs b => cases f <;> first | rfl | simp only [readVal, Gen.readVal, lift_res]
    | string =>
      cases f with
      | fwdU f => cases f <;> first | rfl | simp only [readVal, Gen.readVal, lift_res]
      | _ => simp only [readVal, Gen.readVal, lift_res]
    | array t =>
      cases f with
      | fwdU f =>
        cases f with
        | vector e =>
          have h1 := Vec.len_res m (x : Vec e)
          have h2 := fun i => Vec.get_res m (x : Vec e) i
          simp only [readVal, Gen.readVal, mapAll_res, ih, bind_res, h1, h2]
          rfl
        | _ => simp only [readVal, Gen.readVal, lift_res]
      | _ => simp only [readVal, Gen.readVal, lift_res]
    | table q =>
      cases f with
      | fwdU f =>
        cases f with
        | table =>
          simp only [readVal, Gen.readVal]
          cases S q with
          | none => rfl
          | some t =>
            dsimp only
            cases compileTable gm t with
            | none => rfl
            | some gs =>
              simp only [bind_res, mapAll_res, pure_res, Res.pure_eq]
              refine congrArg (fun F => Gen.mapAll F (List.finRange gs.length) >>= fun fs => Res.ok (Val.table fs))
                (funext fun i => ?_)
              cases t.fields[i.val]? with
              | none => rfl
              | some g =>
                have h1 := accessor_res m (x : Butte.Table) gs (gs.get i)
                simp only [readField_res, h1, ih]
        | _ => simp only [readVal, Gen.readVal, lift_res]
      | _ => simp only [readVal, Gen.readVal, lift_res]
    | _ => cases f <;> simp only [readVal, Gen.readVal, lift_res]

end

/-! ### The builder -/

namespace VTableWriter

@[simp] theorem writeVTableByteLength_res (m : Mode) (buf : Bytes) (n : Nat) :
    (writeVTableByteLength m buf n).res = Butte.VTableWriter.writeVTableByteLength m buf n := by
  simp [writeVTableByteLength, Butte.VTableWriter.writeVTableByteLength]
@[simp] theorem writeObjectInlineSize_res (buf : Bytes) (n : Nat) :
    (writeObjectInlineSize buf n).res = Butte.VTableWriter.writeObjectInlineSize buf n := by
  simp [writeObjectInlineSize, Butte.VTableWriter.writeObjectInlineSize]
@[simp] theorem getFieldOffset_res (m : Mode) (buf : Bytes) (off : Nat) :
    (getFieldOffset m buf off).res = Butte.VTableWriter.getFieldOffset m buf off := by
  simp [getFieldOffset, Butte.VTableWriter.getFieldOffset]
@[simp] theorem writeFieldOffset_res (buf : Bytes) (off n : Nat) :
    (writeFieldOffset buf off n).res = Butte.VTableWriter.writeFieldOffset buf off n := by
  simp [writeFieldOffset, Butte.VTableWriter.writeFieldOffset]
@[simp] theorem writeFields_res (m : Mode) (obj : Nat) (fls : List FieldLoc) (buf : Bytes) :
    (writeFields m obj fls buf).res = Butte.VTableWriter.writeFields m obj fls buf := by
  induction fls generalizing buf with
  | nil => rfl
  | cons f fs ih => cases m <;> simp [writeFields, Butte.VTableWriter.writeFields, ih]

end VTableWriter

namespace Builder

@[simp] theorem reset_res (b : Builder) : (reset b).res = .ok b.reset := rfl

@[simp] theorem growLoop_res (m : Mode) (b : Builder) (want : Nat) : (growLoop m b want).res = b.growLoop m want := by
  fun_induction Butte.Builder.growLoop m b want with
  | case1 b h b' e ih =>
    unfold growLoop
    rw [if_pos h]
    split
    · next x hx => rw [grow_res, e] at hx; cases hx; exact ih
    · next x hx => rw [grow_res, e] at hx; cases hx
    · next hx => rw [grow_res, e] at hx; cases hx
  | case2 b h x e =>
    unfold growLoop
    rw [if_pos h]
    split
    · next x hx => rw [grow_res, e] at hx; cases hx
    · next x hx => rw [grow_res, e] at hx; cases hx; rfl
    · next hx => rw [grow_res, e] at hx; cases hx
  | case3 b h e =>
    unfold growLoop
    rw [if_pos h]
    split
    · next x hx => rw [grow_res, e] at hx; cases hx
    · next x hx => rw [grow_res, e] at hx; cases hx
    · rfl
  | case4 b h =>
    unfold growLoop
    rw [if_neg h]; rfl

@[simp] theorem ensureCapacity_res (m : Mode) (b : Builder) (want : Nat) :
    (ensureCapacity m b want).res = b.ensureCapacity m want := by
  simp [ensureCapacity, Butte.Builder.ensureCapacity]
@[simp] theorem makeSpace_res (m : Mode) (b : Builder) (want : Nat) : (makeSpace m b want).res = b.makeSpace m want := by
  simp [makeSpace, Butte.Builder.makeSpace]
@[simp] theorem align_res (m : Mode) (b : Builder) (len a : Nat) : (align m b len a).res = b.align m len a := by
  simp [align, Butte.Builder.align]
@[simp] theorem pushBytesUnprefixed_res (m : Mode) (b : Builder) (x : Bytes) :
    (pushBytesUnprefixed m b x).res = b.pushBytesUnprefixed m x := by
  simp [pushBytesUnprefixed, Butte.Builder.pushBytesUnprefixed]
@[simp] theorem push_res (m : Mode) (b : Builder) {p : PTy} (x : PVal p) : (push m b x).res = b.push m x := by
  simp [push, Butte.Builder.push]
@[simp] theorem pushSlotAlways_res (m : Mode) (b : Builder) (slot : Nat) {p : PTy} (x : PVal p) :
    (pushSlotAlways m b slot x).res = b.pushSlotAlways m slot x := by
  simp [pushSlotAlways, Butte.Builder.pushSlotAlways]
@[simp] theorem pushSlot_res (m : Mode) (b : Builder) (slot : Nat) {p : PTy} (x d : PVal p) :
    (pushSlot m b slot x d).res = b.pushSlot m slot x d := by
  simp [pushSlot, Butte.Builder.pushSlot]
@[simp] theorem findDuplicate_res (m : Mode) (b : Builder) (v : VTable) (rs : List Nat) :
    (findDuplicate m b v rs).res = b.findDuplicate m v rs := by
  induction rs with
  | nil => rfl
  | cons r rs ih => simp [findDuplicate, Butte.Builder.findDuplicate, ih]
@[simp] theorem patchVTable_res (m : Mode) (b : Builder) (vt obj : Nat) :
    (patchVTable m b vt obj).res = b.patchVTable m vt obj := by
  simp [patchVTable, Butte.Builder.patchVTable]
@[simp] theorem writeVTable_res (m : Mode) (b : Builder) (tail : Nat) : (writeVTable m b tail).res = b.writeVTable m tail := by
  unfold writeVTable Butte.Builder.writeVTable
  simp only [bind_res, liftM_res, push_res, makeSpace_res, within_res, VTableWriter.writeVTableByteLength_res,
    VTableWriter.writeObjectInlineSize_res, VTableWriter.writeFields_res, findDuplicate_res, monadLift_res]
  refine bind_congr fun _ => bind_congr fun x => bind_congr fun b => bind_congr fun o => bind_congr fun _ =>
    bind_congr fun s => bind_congr fun s1 => bind_congr fun s2 => bind_congr fun s3 => bind_congr fun d => ?_
  cases d <;> simp
@[simp] theorem endTable_res (m : Mode) (b : Builder) (tail : Nat) : (endTable m b tail).res = b.endTable m tail := by
  simp [endTable, Butte.Builder.endTable]
@[simp] theorem startVector_res (m : Mode) (b : Builder) (p : PTy) (n : Nat) :
    (startVector m b p n).res = b.startVector m p n := by
  simp [startVector, Butte.Builder.startVector]
@[simp] theorem endVector_res (m : Mode) (b : Builder) (n : Nat) : (endVector m b n).res = b.endVector m n := by
  simp [endVector, Butte.Builder.endVector]
@[simp] theorem createByteString_res (m : Mode) (b : Builder) (bs : Bytes) :
    (createByteString m b bs).res = b.createByteString m bs := by
  simp [createByteString, Butte.Builder.createByteString]
@[simp] theorem createString_res (m : Mode) (b : Builder) (s : String) : (createString m b s).res = b.createString m s := by
  simp [createString, Butte.Builder.createString]
@[simp] theorem createVectorDirect_res (m : Mode) (b : Builder) {t : STy} (xs : List (SVal t)) :
    (createVectorDirect m b xs).res = b.createVectorDirect m xs := by
  simp [createVectorDirect, Butte.Builder.createVectorDirect]
@[simp] theorem pushAll_res (m : Mode) {p : PTy} (b : Builder) (xs : List (PVal p)) :
    (pushAll m b xs).res = Butte.Builder.pushAll m b xs := by
  induction xs generalizing b with
  | nil => rfl
  | cons x xs ih => simp [pushAll, Butte.Builder.pushAll, ih]
@[simp] theorem createVector_res (m : Mode) (b : Builder) {p : PTy} (xs : List (PVal p)) :
    (createVector m b xs).res = b.createVector m xs := by
  simp [createVector, Butte.Builder.createVector]
@[simp] theorem createStrings_res (m : Mode) (b : Builder) (xs : List String) (acc : List (PVal .off)) :
    (createStrings m b xs acc).res = Butte.Builder.createStrings m b xs acc := by
  induction xs generalizing b acc with
  | nil => rfl
  | cons x xs ih => simp [createStrings, Butte.Builder.createStrings, ih]
@[simp] theorem createVectorOfStrings_res (m : Mode) (b : Builder) (xs : List String) :
    (createVectorOfStrings m b xs).res = b.createVectorOfStrings m xs := by
  simp [createVectorOfStrings, Butte.Builder.createVectorOfStrings]
@[simp] theorem required_res (m : Mode) (b : Builder) (t s : Nat) : (required m b t s).res = b.required m t s := by
  unfold required Butte.Builder.required
  simp only [bind_res, liftM_res, onRes_res, within_res, Table.vtable_res, VTable.get_res, monadLift_res]
  refine bind_congr fun _ => bind_congr fun _ => bind_congr fun o => ?_
  cases o <;> rfl
@[simp] theorem pushIdent_res (m : Mode) (b : Builder) (i : Option Bytes) : (pushIdent m b i).res = b.pushIdent m i := by
  cases i <;> simp [pushIdent, Butte.Builder.pushIdent]
@[simp] theorem pushSizePrefix_res (m : Mode) (b : Builder) (sp : Bool) :
    (pushSizePrefix m b sp).res = b.pushSizePrefix m sp := by
  simp [pushSizePrefix, Butte.Builder.pushSizePrefix]
@[simp] theorem finishWithOpts_res (m : Mode) (b : Builder) (r : Nat) (i : Option Bytes) (sp : Bool) :
    (finishWithOpts m b r i sp).res = b.finishWithOpts m r i sp := by
  simp [finishWithOpts, Butte.Builder.finishWithOpts]

end Builder

@[simp] theorem noRet_res (r : Tr Builder) : (noRet r).res = Butte.noRet r.res := by simp [noRet, Butte.noRet]
@[simp] theorem withRet_res (r : Tr (Nat × Builder)) : (withRet r).res = Butte.withRet r.res := by simp [withRet, Butte.withRet]

@[simp] theorem step_res (m : Mode) (b : Builder) (op : Op) : (step m b op).res = Butte.step m b op := by
  cases op <;> simp [step, Butte.step, Butte.noRet]

@[simp] theorem run_res (m : Mode) (b : Builder) (ops : List Op) : (run m b ops).res = Butte.run m b ops := by
  induction ops generalizing b with
  | nil => rfl
  | cons op ops ih => simp [run, Butte.run, ih]

end Butte.Mem
