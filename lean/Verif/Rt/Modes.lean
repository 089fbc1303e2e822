import Verif.Rt.Builder
import Verif.Rt.ReadLemmas
/-
Debug and release builds: a debug build panics, or does the same.
-/
namespace Butte

/-- The first outcome is a panic or the second one. -/
def Res.Le {α : Type} (a b : Res α) : Prop := a = .panic ∨ a = b

namespace Res.Le

variable {α β : Type}

theorem refl (a : Res α) : a.Le a := .inr rfl

theorem of_eq {a b : Res α} (h : a = b) : a.Le b := .inr h

theorem panic (a : Res α) : Res.Le .panic a := .inl rfl

theorem eq {a b : Res α} (h : a.Le b) (hn : a ≠ .panic) : b = a := by
  rcases h with h | h
  · exact absurd h hn
  · exact h.symm

theorem ok {a b : Res α} {x : α} (h : a.Le b) (hx : a = .ok x) : b = .ok x := by rw [h.eq (by rw [hx]; simp), hx]

theorem bind {a b : Res α} {f g : α → Res β} (h : a.Le b) (hf : ∀ x, a = .ok x → (f x).Le (g x)) : (a >>= f).Le (b >>= g) := by
  rcases h with rfl | rfl
  · exact .inl rfl
  · cases a with
    | ok x => exact hf x rfl
    | err e => exact .inr rfl
    | panic => exact .inl rfl

theorem bind' {a b : Res α} {f g : α → Res β} (h : a.Le b) (hf : ∀ x, (f x).Le (g x)) : (a >>= f).Le (b >>= g) :=
  bind h fun x _ => hf x

theorem ite {c : Prop} [Decidable c] {a b a' b' : Res α} (h : a.Le a') (h' : b.Le b') : (if c then a else b).Le (if c then a' else b') := by
  split
  · exact h
  · exact h'

theorem dite {c : Prop} [Decidable c] {a a' : c → Res α} {b b' : ¬ c → Res α} (h : ∀ x, (a x).Le (a' x)) (h' : ∀ x, (b x).Le (b' x)) :
    (if x : c then a x else b x).Le (if x : c then a' x else b' x) := by
  split
  · exact h _
  · exact h' _

theorem expect {a b : Res α} (h : a.Le b) : a.expect.Le b.expect := by
  rcases h with rfl | rfl
  · exact .inl rfl
  · exact .inr rfl

theorem unwrapOr {a b : Res α} (d : α) (h : a.Le b) : (a.unwrapOr d).Le (b.unwrapOr d) := by
  rcases h with rfl | rfl
  · exact .inl rfl
  · exact .inr rfl

end Res.Le

open Res (Le)

theorem debugAssert_le (c : Bool) : (debugAssert .debug c).Le (debugAssert .release c) := by
  cases c
  · exact .inl rfl
  · exact .inr rfl

theorem addW_le (w a b : Nat) : (addW w .debug a b).Le (addW w .release a b) := by
  unfold addW
  exact .ite (.refl _) (.panic _)

theorem subW_le (w a b : Nat) : (subW w .debug a b).Le (subW w .release a b) := by
  unfold subW
  exact .ite (.refl _) (.panic _)

theorem mulW_le (w a b : Nat) : (mulW w .debug a b).Le (mulW w .release a b) := by
  unfold mulW
  exact .ite (.refl _) (.panic _)

theorem subS_le (w : Nat) (a b : Int) : (subS w .debug a b).Le (subS w .release a b) := by
  unfold subS
  exact .ite (.refl _) (.panic _)

theorem readScalarAt_le (t : STy) (s : Bytes) (l : Nat) : (readScalarAt .debug t s l).Le (readScalarAt .release t s l) :=
  .bind' (addW_le _ _ _) fun _ => .refl _

theorem readNatAt_le (t : STy) (s : Bytes) (l : Nat) : (readNatAt .debug t s l).Le (readNatAt .release t s l) :=
  .bind' (readScalarAt_le _ _ _) fun _ => .refl _

theorem pushBytes_le {p : PTy} (x : PVal p) (n : Nat) : (x.pushBytes .debug n).Le (x.pushBytes .release n) := by
  cases p with
  | sc t => exact .refl _
  | off => exact .bind' (addW_le _ _ _) fun _ => .bind' (subW_le _ _ _) fun _ => .refl _

/-! ### Reading -/

namespace VTable

theorem numFields_le (v : VTable) : (v.numFields .debug).Le (v.numFields .release) :=
  .bind' (readNatAt_le _ _ _) fun _ => subW_le _ _ _

theorem objectInlineNumBytes_le (v : VTable) : (v.objectInlineNumBytes .debug).Le (v.objectInlineNumBytes .release) :=
  .bind' (addW_le _ _ _) fun _ => readNatAt_le _ _ _

theorem getField_le (v : VTable) (i : Nat) : (v.getField .debug i).Le (v.getField .release i) :=
  .bind' v.numFields_le fun _ => .ite (.refl _) <| .bind' (addW_le _ _ _) fun _ => .bind' (addW_le _ _ _) fun _ =>
    .bind' (mulW_le _ _ _) fun _ => .bind' (addW_le _ _ _) fun _ => .bind' (readNatAt_le _ _ _) fun _ => .refl _

theorem get_le (v : VTable) (i : Nat) : (v.get .debug i).Le (v.get .release i) :=
  .bind' (readNatAt_le _ _ _) fun _ => .ite (.refl _) <| .bind' (addW_le _ _ _) fun _ =>
    .bind' (readNatAt_le _ _ _) fun _ => .refl _

theorem asBytes_le (v : VTable) : (v.asBytes .debug).Le (v.asBytes .release) :=
  .bind' (readNatAt_le _ _ _) fun _ => .bind' (addW_le _ _ _) fun _ => .refl _

theorem eqv_le (v w : VTable) : (v.eqv .debug w).Le (v.eqv .release w) := by
  unfold eqv
  rcases v.asBytes_le with h | h
  · rw [h]; exact .panic _
  · rw [h]
    rcases w.asBytes_le with h' | h'
    · rw [h']
      left
      cases v.asBytes .release <;> rfl
    · rw [h']; exact .refl _

end VTable

theorem fieldIndexToFieldOffset_le (i : Nat) : (fieldIndexToFieldOffset .debug i).Le (fieldIndexToFieldOffset .release i) :=
  .bind' (addW_le _ _ _) fun _ => mulW_le _ _ _

theorem fieldOffsetToFieldIndex_le (i : Nat) : (fieldOffsetToFieldIndex .debug i).Le (fieldOffsetToFieldIndex .release i) :=
  .bind' (debugAssert_le _) fun _ => subW_le _ _ _

theorem followStr_le (s : Bytes) (l : Nat) : (followStr .debug s l).Le (followStr .release s l) :=
  .bind' (readNatAt_le _ _ _) fun _ => .bind' (addW_le _ _ _) fun _ => .bind' (addW_le _ _ _) fun _ => .refl _

theorem followSlice_le (t : STy) (s : Bytes) (l : Nat) : (followSlice .debug t s l).Le (followSlice .release t s l) :=
  .bind' (debugAssert_le _) fun _ => .bind' (readNatAt_le _ _ _) fun _ => .bind' (addW_le _ _ _) fun _ => .bind' (mulW_le _ _ _) fun _ =>
    .bind' (addW_le _ _ _) fun _ => .refl _

theorem follow_le : ∀ (f : FTy) (s : Bytes) (l : Nat), (f.follow .debug s l).Le (f.follow .release s l)
  | .scalar _, _, _ => readScalarAt_le _ _ _
  | .str, _, _ => followStr_le _ _
  | .slice _, _, _ => followSlice_le _ _ _
  | .vector _, _, _ => .refl _
  | .table, _, _ => .refl _
  | .vtable, _, _ => .refl _
  | .fileId, _, _ => .bind' (addW_le _ _ _) fun _ => .refl _
  | .fwdU t, _, _ => .bind' (addW_le _ _ _) fun _ => .bind' (.refl _) fun _ => .bind' (.refl _) fun _ => .bind' (addW_le _ _ _) fun _ =>
    follow_le t _ _
  | .fwdV t, _, _ => .bind' (addW_le _ _ _) fun _ => .bind' (.refl _) fun _ => .bind' (.refl _) fun _ => .bind' (addW_le _ _ _) fun _ =>
    follow_le t _ _
  | .backS t, _, _ => .bind' (addW_le _ _ _) fun _ => .bind' (.refl _) fun _ => .bind' (.refl _) fun _ => .bind' (subS_le _ _ _) fun _ =>
    follow_le t _ _
  | .skipSize t, _, _ => .bind' (addW_le _ _ _) fun _ => follow_le t _ _
  | .skipRoot t, _, _ => .bind' (addW_le _ _ _) fun _ => follow_le t _ _
  | .skipFileId t, _, _ => .bind' (addW_le _ _ _) fun _ => follow_le t _ _
  | .enum _ _, _, _ => .bind' (readScalarAt_le _ _ _) fun _ => .refl _

theorem tableGet_le (t : Table) (f : FTy) (slot : Nat) (d : Option f.Inner) : (t.get .debug f slot d).Le (t.get .release f slot d) := by
  refine .bind' (follow_le _ _ _) fun vt => .bind' (vt.get_le _) fun vo => ?_
  cases vo with
  | none => exact .refl _
  | some o => exact .ite (.refl _) (.bind' (addW_le _ _ _) fun _ => .bind' (follow_le _ _ _) fun _ => .refl _)

theorem bufferHasIdentifier_le (d i : Bytes) (p : Bool) : (bufferHasIdentifier .debug d i p).Le (bufferHasIdentifier .release d i p) := by
  refine .bind' (.refl _) fun _ => ?_
  exact .ite (.bind' (follow_le _ _ _) fun _ => .refl _) (.bind' (follow_le _ _ _) fun _ => .refl _)

variable {e : FTy}

theorem isEmpty_le (v : Vec e) : (v.isEmpty .debug).Le (v.isEmpty .release) := .bind' (readNatAt_le _ _ _) fun _ => .refl _

/-- With a length that can be read. -/
theorem vecGet_le (v : Vec e) (i : Nat) {n : Nat} (hn : v.len .debug = .ok n) : (v.get .debug i).Le (v.get .release i) := by
  have h : (do
      debugAssert .debug (0 < e.size)
      let a ← addU .debug v.loc 4
      let b ← mulU .debug e.size i
      let l ← addU .debug a b
      e.follow .debug v.buf l).Le (v.get .release i) :=
    .bind' (debugAssert_le _) fun _ => .bind' (addW_le _ _ _) fun _ => .bind' (mulW_le _ _ _) fun _ => .bind' (addW_le _ _ _) fun _ =>
      follow_le _ _ _
  unfold Vec.get at h ⊢
  unfold Vec.len at hn
  simp only [if_true, hn, Res.ok_bind, Res.pure_eq] at h ⊢
  by_cases hi : i < n
  · simpa [debugAssert, hi] using h
  · left
    simp [debugAssert, hi]

theorem iterNew_le (v : Vec e) (n : Nat) : (VIter.new .debug v n).Le (VIter.new .release v n) := .bind' (addW_le _ _ _) fun _ => .refl _

theorem vecIter_le (v : Vec e) : (v.iter .debug).Le (v.iter .release) :=
  .bind' (.unwrapOr _ (readNatAt_le _ _ _)) fun _ => iterNew_le _ _

theorem item_le {a b : Res e.Inner} (h : a.Le b) : (VIter.item a).Le (VIter.item b) := by
  rcases h with rfl | rfl
  · exact .inl rfl
  · exact .inr rfl

theorem next_le (it : VIter e) : (it.next .debug).Le (it.next .release) :=
  .bind' (debugAssert_le _) fun _ => .ite (.refl _) (.bind' (item_le (follow_le _ _ _)) fun _ => .bind' (addW_le _ _ _) fun _ => .refl _)

theorem nth_le (it : VIter e) (n : Nat) : (it.nth .debug n).Le (it.nth .release n) :=
  .bind' (debugAssert_le _) fun _ => .bind' (mulW_le _ _ _) fun _ => next_le _

theorem nextBack_le (it : VIter e) : (it.nextBack .debug).Le (it.nextBack .release) :=
  .bind' (debugAssert_le _) fun _ => .ite (.refl _) (.bind' (mulW_le _ _ _) fun _ => .bind' (addW_le _ _ _) fun _ =>
    .bind' (item_le (follow_le _ _ _)) fun _ => .refl _)

theorem nthBack_le (it : VIter e) (n : Nat) : (it.nthBack .debug n).Le (it.nthBack .release n) := nextBack_le _

/-! ### Building -/

theorem writeVTableByteLength_le (s : Bytes) (n : Nat) :
    (VTableWriter.writeVTableByteLength .debug s n).Le (VTableWriter.writeVTableByteLength .release s n) :=
  .ite (.bind' (debugAssert_le _) fun _ => .refl _) (.refl _)

theorem writeFields_le (obj : Nat) : ∀ (fls : List FieldLoc) (s : Bytes),
    (VTableWriter.writeFields .debug obj fls s).Le (VTableWriter.writeFields .release obj fls s)
  | [], s => .refl _
  | fl :: fls, s => by
    unfold VTableWriter.writeFields
    refine .bind' (subW_le _ _ _) fun d => ?_
    simp only [if_true, reduceCtorEq, if_false]
    have h : (VTableWriter.writeFieldOffset s fl.id (d % 2 ^ 16) >>= VTableWriter.writeFields .debug obj fls).Le
        (VTableWriter.writeFieldOffset s fl.id (d % 2 ^ 16) >>= VTableWriter.writeFields .release obj fls) :=
      .bind' (.refl _) fun _ => writeFields_le obj fls _
    unfold VTableWriter.getFieldOffset
    cases readNatAt .debug .u16 s fl.id with
    | panic => exact .inl rfl
    | err e => exact .inl rfl
    | ok x =>
      simp only [Res.expect, Res.ok_bind]
      cases x == 0
      · exact .inl rfl
      · exact h

namespace Builder

theorem finishedData_le (b : Builder) : (b.finishedData .debug).Le (b.finishedData .release) := .bind' (debugAssert_le _) fun _ => .refl _

theorem grow_le (b : Builder) : (b.grow .debug).Le (b.grow .release) := by
  unfold grow
  simp only [true_and, reduceCtorEq, false_and, if_false]
  refine .ite (.refl _) ?_
  split
  · exact .panic _
  · exact .refl _

theorem growLoop_le (b : Builder) (want : Nat) : (b.growLoop .debug want).Le (b.growLoop .release want) := by
  induction h : want - b.head using Nat.strongRecOn generalizing b with
  | _ k ih =>
    rw [growLoop.eq_1 .debug, growLoop.eq_1 .release]
    by_cases hw : b.head < want
    case neg => rw [if_neg hw, if_neg hw]; exact .refl _
    rw [if_pos hw, if_pos hw]
    rcases b.grow_le with hg | hg
    · left
      split <;> simp_all
    · cases hr : b.grow .release with
      | ok b' =>
        have hd : b.grow .debug = .ok b' := by rw [hg, hr]
        have hh := grow_head hr
        split <;> rename_i h1 <;> rw [hd] at h1 <;> cases h1
        exact ih _ (by omega) b' rfl
      | err x =>
        have hd : b.grow .debug = .err x := by rw [hg, hr]
        right
        split <;> rename_i h1 <;> rw [hd] at h1 <;> cases h1
        rfl
      | panic =>
        have hd : b.grow .debug = .panic := by rw [hg, hr]
        left
        split <;> rename_i h1 <;> rw [hd] at h1 <;> cases h1

theorem ensureCapacity_le (b : Builder) (want : Nat) : (b.ensureCapacity .debug want).Le (b.ensureCapacity .release want) :=
  .ite (.refl _) (.bind' (.refl _) fun _ => growLoop_le _ _)

theorem makeSpace_le (b : Builder) (want : Nat) : (b.makeSpace .debug want).Le (b.makeSpace .release want) :=
  .bind' (ensureCapacity_le _ _) fun _ => .bind' (subW_le _ _ _) fun _ => .refl _

theorem align_le (b : Builder) (l a : Nat) : (b.align .debug l a).Le (b.align .release l a) :=
  .bind' (addW_le _ _ _) fun _ => makeSpace_le _ _

theorem pushBytesUnprefixed_le (b : Builder) (x : Bytes) : (b.pushBytesUnprefixed .debug x).Le (b.pushBytesUnprefixed .release x) :=
  .bind' (makeSpace_le _ _) fun _ => .refl _

theorem push_le (b : Builder) {p : PTy} (x : PVal p) : (b.push .debug x).Le (b.push .release x) :=
  .bind' (align_le _ _ _) fun _ => .bind' (makeSpace_le _ _) fun _ => .ite (.bind' (pushBytes_le _ _) fun _ => .refl _) (.refl _)

theorem pushSlotAlways_le (b : Builder) (s : Nat) {p : PTy} (x : PVal p) : (b.pushSlotAlways .debug s x).Le (b.pushSlotAlways .release s x) :=
  .bind' (debugAssert_le _) fun _ => .bind' (push_le _ _) fun _ => .refl _

theorem pushSlot_le (b : Builder) (s : Nat) {p : PTy} (x d : PVal p) : (b.pushSlot .debug s x d).Le (b.pushSlot .release s x d) :=
  .bind' (debugAssert_le _) fun _ => .ite (.refl _) (pushSlotAlways_le _ _ _)

theorem startTable_le (b : Builder) : (b.startTable .debug).Le (b.startTable .release) := .bind' (debugAssert_le _) fun _ => .refl _

theorem findDuplicate_le (b : Builder) (v : VTable) : ∀ l, (b.findDuplicate .debug v l).Le (b.findDuplicate .release v l)
  | [] => .refl _
  | _ :: l => .bind' (subW_le _ _ _) fun _ => .bind' (VTable.eqv_le _ _) fun _ => .ite (.refl _) (findDuplicate_le b v l)

theorem patchVTable_le (b : Builder) (u o : Nat) : (b.patchVTable .debug u o).Le (b.patchVTable .release u o) :=
  .bind' (subW_le _ _ _) fun _ => .bind' (.expect (readNatAt_le _ _ _)) fun _ => .bind' (debugAssert_le _) fun _ =>
    .bind' (subS_le _ _ _) fun _ => .refl _

theorem writeVTable_le (b : Builder) (t : Nat) : (b.writeVTable .debug t).Le (b.writeVTable .release t) := by
  refine .bind' (debugAssert_le _) fun _ => .bind' (push_le _ _) fun _ => .bind' (makeSpace_le _ _) fun _ => .bind' (subW_le _ _ _) fun _ =>
    .bind' (debugAssert_le _) fun _ => .bind' (.refl _) fun _ => .bind' (writeVTableByteLength_le _ _) fun _ => .bind' (.refl _) fun _ =>
    .bind' (writeFields_le _ _ _) fun _ => .bind' (findDuplicate_le _ _ _) fun d => ?_
  cases d with
  | none => exact patchVTable_le _ _ _
  | some n => exact patchVTable_le _ _ _

theorem endTable_le (b : Builder) (t : Nat) : (b.endTable .debug t).Le (b.endTable .release t) :=
  .bind' (debugAssert_le _) fun _ => .bind' (writeVTable_le _ _) fun _ => .refl _

theorem startVector_le (b : Builder) (p : PTy) (n : Nat) : (b.startVector .debug p n).Le (b.startVector .release p n) :=
  .bind' (debugAssert_le _) fun _ => .bind' (mulW_le _ _ _) fun _ => align_le _ _ _

theorem endVector_le (b : Builder) (n : Nat) : (b.endVector .debug n).Le (b.endVector .release n) :=
  .bind' (debugAssert_le _) fun _ => push_le _ _

theorem createByteString_le (b : Builder) (d : Bytes) : (b.createByteString .debug d).Le (b.createByteString .release d) :=
  .bind' (debugAssert_le _) fun _ => .bind' (addW_le _ _ _) fun _ => .bind' (align_le _ _ _) fun _ => .bind' (push_le _ _) fun _ =>
    .bind' (pushBytesUnprefixed_le _ _) fun _ => .bind' (push_le _ _) fun _ => .refl _

theorem createString_le (b : Builder) (s : String) : (b.createString .debug s).Le (b.createString .release s) :=
  .bind' (debugAssert_le _) fun _ => createByteString_le _ _

theorem createVectorDirect_le (b : Builder) {t : STy} (xs : List (SVal t)) :
    (b.createVectorDirect .debug xs).Le (b.createVectorDirect .release xs) :=
  .bind' (debugAssert_le _) fun _ => .bind' (mulW_le _ _ _) fun _ => .bind' (align_le _ _ _) fun _ =>
    .bind' (pushBytesUnprefixed_le _ _) fun _ => .bind' (push_le _ _) fun _ => .refl _

theorem pushAll_le {p : PTy} : ∀ (b : Builder) (xs : List (PVal p)), (b.pushAll .debug xs).Le (b.pushAll .release xs)
  | _, [] => .refl _
  | _, _ :: xs => .bind' (push_le _ _) fun _ => pushAll_le _ xs

theorem createVector_le (b : Builder) {p : PTy} (xs : List (PVal p)) : (b.createVector .debug xs).Le (b.createVector .release xs) :=
  .bind' (mulW_le _ _ _) fun _ => .bind' (align_le _ _ _) fun _ => .bind' (pushAll_le _ _) fun _ => push_le _ _

theorem createStrings_le : ∀ (b : Builder) (xs : List String) (acc : List (PVal .off)),
    (b.createStrings .debug xs acc).Le (b.createStrings .release xs acc)
  | _, [], _ => .refl _
  | _, _ :: xs, _ => .bind' (createString_le _ _) fun _ => createStrings_le _ xs _

theorem createVectorOfStrings_le (b : Builder) (xs : List String) : (b.createVectorOfStrings .debug xs).Le (b.createVectorOfStrings .release xs) :=
  .bind' (debugAssert_le _) fun _ => .bind' (createStrings_le _ _ _) fun _ => createVector_le _ _

theorem required_le (b : Builder) (t s : Nat) : (b.required .debug t s).Le (b.required .release t s) :=
  .bind' (subW_le _ _ _) fun _ => .bind' (.expect (follow_le _ _ _)) fun _ => .bind' (.expect (VTable.get_le _ _)) fun _ => .refl _

theorem finishWithOpts_le (b : Builder) (r : Nat) (i : Option Bytes) (s : Bool) :
    (b.finishWithOpts .debug r i s).Le (b.finishWithOpts .release r i s) := by
  refine .bind' (debugAssert_le _) fun _ => .bind' (debugAssert_le _) fun _ => .bind' (align_le _ _ _) fun _ => .bind' ?_ fun _ =>
    .bind' (push_le _ _) fun _ => .bind' (.ite (.bind' (push_le _ _) fun _ => .refl _) (.refl _)) fun _ => .refl _
  cases i with
  | none => exact .refl _
  | some i => exact .bind' (debugAssert_le _) fun _ => pushBytesUnprefixed_le _ _

end Builder

open Builder

theorem withRet_le {a b : Res (Nat × Builder)} (h : a.Le b) : (withRet a).Le (withRet b) := .bind' h fun _ => .refl _

theorem noRet_le {a b : Res Builder} (h : a.Le b) : (noRet a).Le (noRet b) := .bind' h fun _ => .refl _

theorem step_le (b : Builder) : ∀ op, (step .debug b op).Le (step .release b op)
  | .push _ _ => withRet_le (push_le _ _)
  | .pushSlot _ _ _ _ => noRet_le (pushSlot_le _ _ _ _)
  | .pushSlotAlways _ _ _ => noRet_le (pushSlotAlways_le _ _ _)
  | .startTable => withRet_le (startTable_le _)
  | .endTable _ => withRet_le (endTable_le _ _)
  | .startVector _ _ => noRet_le (startVector_le _ _ _)
  | .endVector _ => withRet_le (endVector_le _ _)
  | .createString _ => withRet_le (createString_le _ _)
  | .createByteString _ => withRet_le (createByteString_le _ _)
  | .createVectorDirect _ _ => withRet_le (createVectorDirect_le _ _)
  | .createVector _ _ => withRet_le (createVector_le _ _)
  | .createVectorOfStrings _ => withRet_le (createVectorOfStrings_le _ _)
  | .required _ _ => .bind' (required_le _ _ _) fun _ => .refl _
  | .finish _ _ _ => noRet_le (finishWithOpts_le _ _ _ _)
  | .reset => .refl _

theorem run_le : ∀ (b : Builder) (ops : List Op), (run .debug b ops).Le (run .release b ops)
  | _, [] => .refl _
  | b, op :: ops => .bind' (step_le b op) fun _ => .bind' (run_le _ ops) fun _ => .refl _

end Butte
