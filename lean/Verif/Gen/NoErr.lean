import Verif.Gen.Run
/-
The builder either succeeds or panics: it never returns an error.
-/
namespace Butte

/-- The call succeeded or panicked. -/
structure Res.NoErr {α : Type} (r : Res α) : Prop where
  ne : ∀ e, r ≠ .err e

namespace Res.NoErr
variable {α β : Type}

theorem ok (a : α) : (Res.ok a).NoErr := ⟨by intro e h; cases h⟩
theorem panic : (Res.panic : Res α).NoErr := ⟨by intro e h; cases h⟩
theorem expect (r : Res α) : r.expect.NoErr := ⟨by cases r <;> (intro e h; cases h)⟩

theorem bind {r : Res α} {f : α → Res β} (h : r.NoErr) (hf : ∀ a, (f a).NoErr) : (r >>= f).NoErr := by
  cases r with
  | ok a => exact hf a
  | err e => exact absurd rfl (h.ne e)
  | panic => exact panic

theorem debugAssert (m : Mode) (c : Bool) : (Butte.debugAssert m c).NoErr := by
  unfold Butte.debugAssert
  split
  · exact panic
  · exact ok _

theorem assert (c : Bool) : (Butte.assert c).NoErr := by
  unfold Butte.assert
  split
  · exact ok _
  · exact panic

theorem addW (w : Nat) (m : Mode) (a b : Nat) : (Butte.addW w m a b).NoErr := by
  unfold Butte.addW
  split
  · exact ok _
  · split
    · exact panic
    · exact ok _

theorem subW (w : Nat) (m : Mode) (a b : Nat) : (Butte.subW w m a b).NoErr := by
  unfold Butte.subW
  split
  · exact ok _
  · split
    · exact panic
    · exact ok _

theorem subS (w : Nat) (m : Mode) (a b : Int) : (Butte.subS w m a b).NoErr := by
  unfold Butte.subS
  split
  · exact ok _
  · split
    · exact panic
    · exact ok _

end Res.NoErr

namespace Builder
open Res

theorem grow_noErr (m : Mode) (b : Builder) : (grow m b).NoErr := by
  unfold grow
  simp only
  split
  · exact .panic
  · split
    · exact .panic
    · split
      · exact .ok _
      · split
        · exact .panic
        · exact .ok _

theorem growLoop_noErr (m : Mode) (b : Builder) (want : Nat) : (growLoop m b want).NoErr := by
  induction b using growLoop.induct m want with
  | case1 b h b' hg ih =>
    rw [growLoop, if_pos h]
    split
    · rename_i h'; rw [hg] at h'; cases h'; exact ih
    · rename_i h'; rw [hg] at h'; cases h'
    · exact .panic
  | case2 b h e hg => exact absurd hg ((grow_noErr m b).ne e)
  | case3 b h hg =>
    rw [growLoop, if_pos h]
    split
    · rename_i h'; rw [hg] at h'; cases h'
    · rename_i h'; rw [hg] at h'; cases h'
    · exact .panic
  | case4 b h => rw [growLoop, if_neg h]; exact .ok _

theorem makeSpace_noErr (m : Mode) (b : Builder) (want : Nat) : (makeSpace m b want).NoErr := by
  refine NoErr.bind ?_ fun b => NoErr.bind (.subW ..) fun _ => .ok _
  unfold ensureCapacity
  split
  · exact .ok _
  · exact NoErr.bind (.assert _) fun _ => growLoop_noErr ..

theorem align_noErr (m : Mode) (b : Builder) (l a : Nat) : (align m b l a).NoErr :=
  NoErr.bind (.addW ..) fun _ => makeSpace_noErr ..

theorem pushBytes_noErr (m : Mode) {p : PTy} (x : PVal p) (n : Nat) : (x.pushBytes m n).NoErr := by
  unfold PVal.pushBytes
  split
  · exact .ok _
  · exact NoErr.bind (.addW ..) fun _ => NoErr.bind (.subW ..) fun _ => .ok _

theorem push_noErr (m : Mode) (b : Builder) {p : PTy} (x : PVal p) : (push m b x).NoErr := by
  refine NoErr.bind (align_noErr ..) fun b => NoErr.bind (makeSpace_noErr ..) fun b => ?_
  split
  · exact NoErr.bind (pushBytes_noErr ..) fun _ => .ok _
  · exact .panic

theorem pushSlotAlways_noErr (m : Mode) (b : Builder) (slot : Nat) {p : PTy} (x : PVal p) : (pushSlotAlways m b slot x).NoErr :=
  NoErr.bind (.debugAssert ..) fun _ => NoErr.bind (push_noErr ..) fun _ => .ok _

theorem pushSlot_noErr (m : Mode) (b : Builder) (slot : Nat) {p : PTy} (x d : PVal p) : (pushSlot m b slot x d).NoErr := by
  refine NoErr.bind (.debugAssert ..) fun _ => ?_
  split
  · exact .ok _
  · exact pushSlotAlways_noErr ..

theorem startTable_noErr (m : Mode) (b : Builder) : (startTable m b).NoErr := NoErr.bind (.debugAssert ..) fun _ => .ok _

theorem eqv_noErr (m : Mode) (v w : VTable) : (VTable.eqv m v w).NoErr := by
  unfold VTable.eqv
  split <;> first | exact .panic | exact .ok _

theorem findDuplicate_noErr (m : Mode) (b : Builder) (v : VTable) (rs : List Nat) : (findDuplicate m b v rs).NoErr := by
  induction rs with
  | nil => exact .ok _
  | cons r rs ih =>
    refine NoErr.bind (.subW ..) fun _ => NoErr.bind (eqv_noErr ..) fun c => ?_
    split
    · exact .ok _
    · exact ih

theorem patchVTable_noErr (m : Mode) (b : Builder) (v o : Nat) : (patchVTable m b v o).NoErr := by
  refine NoErr.bind (.subW ..) fun _ => NoErr.bind (.expect _) fun _ => NoErr.bind (.debugAssert ..) fun _ =>
    NoErr.bind (.subS ..) fun _ => ?_
  split
  · exact .ok _
  · exact .panic

theorem writeFields_noErr (m : Mode) (o : Nat) (fl : List FieldLoc) (buf : Bytes) : (VTableWriter.writeFields m o fl buf).NoErr := by
  induction fl generalizing buf with
  | nil => exact .ok _
  | cons f fl ih =>
    have hw : ∀ a b c, (VTableWriter.writeFieldOffset a b c).NoErr := by
      intro a b c
      unfold VTableWriter.writeFieldOffset
      split
      · exact .ok _
      · exact .panic
    refine NoErr.bind (.subW ..) fun _ => ?_
    split
    · exact NoErr.bind (.expect _) fun _ => NoErr.bind (.debugAssert ..) fun _ => NoErr.bind (hw ..) fun _ => ih _
    · exact NoErr.bind (hw ..) fun _ => ih _

theorem endTable_noErr (m : Mode) (b : Builder) (s : Nat) : (endTable m b s).NoErr := by
  refine NoErr.bind (.debugAssert ..) fun _ => NoErr.bind ?_ fun _ => .ok _
  refine NoErr.bind (.debugAssert ..) fun _ => NoErr.bind (push_noErr ..) fun _ => NoErr.bind (makeSpace_noErr ..) fun _ =>
    NoErr.bind (.subW ..) fun _ => NoErr.bind (.debugAssert ..) fun _ => NoErr.bind (.expect _) fun _ => NoErr.bind ?_ fun _ =>
    NoErr.bind ?_ fun _ => NoErr.bind (writeFields_noErr ..) fun _ => NoErr.bind (findDuplicate_noErr ..) fun d => ?_
  · unfold VTableWriter.writeVTableByteLength
    split
    · exact NoErr.bind (.debugAssert ..) fun _ => .ok _
    · exact .panic
  · unfold VTableWriter.writeObjectInlineSize
    split
    · exact .ok _
    · exact .panic
  · cases d <;> exact patchVTable_noErr ..

theorem required_noErr (m : Mode) (b : Builder) (o s : Nat) : (required m b o s).NoErr := by
  refine NoErr.bind (.subW ..) fun _ => NoErr.bind (.expect _) fun _ => NoErr.bind (.expect _) fun x => ?_
  split
  · exact .panic
  · exact .assert _

end Builder

namespace Gen
open Res

theorem addField_noErr (m : Mode) (b : Builder) (slot : Nat) (k : Kind) (req : Bool) (a : k.Arg req) :
    (addField m b slot k req a).NoErr := by
  unfold addField
  split <;> first | exact .ok _ | exact Builder.pushSlotAlways_noErr .. | exact Builder.pushSlot_noErr ..

theorem addFields_noErr (m : Mode) (b : Builder) (gs : List GField) (args : Args gs) : (addFields m b gs args).NoErr := by
  induction gs generalizing b with
  | nil => exact .ok _
  | cons g gs ih => exact NoErr.bind (addField_noErr ..) fun b => ih b _

theorem checkRequired_noErr (m : Mode) (b : Builder) (o : Nat) (gs : List GField) : (checkRequired m b o gs).NoErr := by
  induction gs with
  | nil => exact .ok _
  | cons g gs ih =>
    unfold checkRequired
    split
    · exact NoErr.bind (Builder.required_noErr ..) fun _ => ih
    · exact ih

/-- `create` returns an offset or panics. -/
theorem create_noErr (m : Mode) (b : Builder) (gs : List GField) (args : Args gs) : (create m b gs args).NoErr :=
  NoErr.bind (Builder.startTable_noErr ..) fun _ => NoErr.bind (addFields_noErr ..) fun _ =>
    NoErr.bind (Builder.endTable_noErr ..) fun _ => NoErr.bind (checkRequired_noErr ..) fun _ => .ok _

end Gen
end Butte
