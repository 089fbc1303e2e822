import Verif.Rt.Read
/-
Reading from bytes that have been cut off: how each outcome compares with that on the whole bytes. Nothing here models code.
-/
namespace Butte

/-- What was read from some bytes, as it is when `more` comes after them: the same location in the longer buffer. -/
def FTy.grow (more : Bytes) : (f : FTy) → f.Inner → f.Inner
  | .scalar _, x => x
  | .str, x => x
  | .slice _, x => x
  | .vector e, v => (⟨Vec.buf (e := e) v ++ more, Vec.loc (e := e) v⟩ : Vec e)
  | .table, t => (⟨Table.buf t ++ more, Table.loc t⟩ : Table)
  | .vtable, v => (⟨VTable.buf v ++ more, VTable.loc v⟩ : VTable)
  | .fileId, x => x
  | .fwdU t, x | .fwdV t, x | .backS t, x | .skipSize t, x | .skipRoot t, x | .skipFileId t, x => t.grow more x
  | .enum _ _, x => x

/-- The first outcome is that the bytes are too short, or the second is the same for what `R` relates. -/
inductive Cut {α β : Type} (R : α → β → Prop) : Res α → Res β → Prop
  | short (r : Res β) : Cut R (.err .outOfBounds) r
  | ok {a : α} {b : β} (h : R a b) : Cut R (.ok a) (.ok b)
  | err (e : Error) : Cut R (.err e) (.err e)
  | panic : Cut R .panic .panic

namespace Cut

theorem bind {α β γ δ : Type} {R : α → β → Prop} {Q : γ → δ → Prop} {r : Res α} {r' : Res β} {f : α → Res γ} {f' : β → Res δ}
    (h : Cut R r r') (hf : ∀ a b, R a b → Cut Q (f a) (f' b)) : Cut Q (r >>= f) (r' >>= f') := by
  cases h with
  | short r => exact .short _
  | ok h => exact hf _ _ h
  | err e => exact .err e
  | panic => exact .panic

theorem refl {α : Type} (r : Res α) : Cut Eq r r := by
  cases r with
  | ok a => exact .ok rfl
  | err e => exact .err e
  | panic => exact .panic

theorem bindEq {α γ δ : Type} {Q : γ → δ → Prop} {r : Res α} {f : α → Res γ} {f' : α → Res δ}
    (hf : ∀ a, Cut Q (f a) (f' a)) : Cut Q (r >>= f) (r >>= f') :=
  bind (refl r) fun a _ h => h ▸ hf a

theorem bindSame {α γ δ : Type} {Q : γ → δ → Prop} {r r' : Res α} {f : α → Res γ} {f' : α → Res δ}
    (h : Cut Eq r r') (hf : ∀ a, Cut Q (f a) (f' a)) : Cut Q (r >>= f) (r' >>= f') :=
  bind h fun a _ h => h ▸ hf a

theorem same {α : Type} {r r' : Res α} (h : Cut Eq r r') : r = .err .outOfBounds ∨ r' = r := by
  cases h with
  | short r => exact .inl rfl
  | ok h => exact .inr (by rw [h])
  | err e => exact .inr rfl
  | panic => exact .inr rfl

theorem mapped {α β : Type} {g : α → β} {r : Res α} {r' : Res β} (h : Cut (fun a b => b = g a) r r') :
    r = .err .outOfBounds ∨ r' = r >>= fun a => .ok (g a) := by
  cases h with
  | short r => exact .inl rfl
  | ok h => exact .inr (by rw [h]; rfl)
  | err e => exact .inr rfl
  | panic => exact .inr rfl

end Cut

theorem sliceGet_cut (buf more : Bytes) (a b : Nat) : Cut Eq (sliceGet buf a b) (sliceGet (buf ++ more) a b) := by
  unfold sliceGet
  by_cases h : a ≤ b ∧ b ≤ buf.length
  · rw [if_pos h, if_pos ⟨h.1, by rw [List.length_append]; omega⟩]
    refine .ok ?_
    rw [List.drop_append_of_le_length (by omega), List.take_append_of_le_length (by rw [List.length_drop]; omega)]
  · rw [if_neg h]
    exact .short _

theorem readScalarAt_cut (m : Mode) (t : STy) (buf more : Bytes) (loc : Nat) :
    Cut Eq (readScalarAt m t buf loc) (readScalarAt m t (buf ++ more) loc) :=
  .bindEq fun _ => .bindSame (sliceGet_cut ..) fun _ => .refl _

theorem readNatAt_cut (m : Mode) (t : STy) (buf more : Bytes) (loc : Nat) :
    Cut Eq (readNatAt m t buf loc) (readNatAt m t (buf ++ more) loc) :=
  .bindSame (readScalarAt_cut ..) fun _ => .refl _

theorem followStr_cut (m : Mode) (buf more : Bytes) (loc : Nat) : Cut Eq (followStr m buf loc) (followStr m (buf ++ more) loc) := by
  unfold followStr
  refine .bindSame (readNatAt_cut ..) fun len => .bindEq fun a => .bindEq fun e => ?_
  by_cases h : e ≥ buf.length
  · rw [if_pos h]
    exact .short _
  · rw [if_neg h, if_neg (by rw [List.length_append]; omega), List.getElem?_append_left (by omega)]
    cases buf[e]? with
    | none => exact .panic
    | some z =>
      change Cut Eq (if z ≠ 0 then _ else _) (if z ≠ 0 then _ else _)
      split
      · exact .refl _
      have : sliceIdx (buf ++ more) a e = sliceIdx buf a e := by
        unfold sliceIdx sliceGet
        by_cases ha : a ≤ e
        · rw [if_pos ⟨ha, by rw [List.length_append]; omega⟩, if_pos ⟨ha, by omega⟩,
            List.drop_append_of_le_length (by omega), List.take_append_of_le_length (by rw [List.length_drop]; omega)]
        · rw [if_neg (fun h => ha h.1), if_neg (fun h => ha h.1)]
      rw [this]
      exact .bindEq fun _ => .refl _

theorem followSlice_cut (m : Mode) (t : STy) (buf more : Bytes) (loc : Nat) :
    Cut Eq (followSlice m t buf loc) (followSlice m t (buf ++ more) loc) :=
  .bindEq fun _ => .bindSame (readNatAt_cut ..) fun _ => .bindEq fun _ => .bindEq fun _ => .bindEq fun _ =>
    .bindSame (sliceGet_cut ..) fun _ => .refl _

theorem Cut.of_eq {α : Type} {r r' : Res α} (h : Cut Eq r r') : Cut (fun a b => b = a) r r' := by
  cases h with
  | short r => exact .short _
  | ok h => exact .ok h.symm
  | err e => exact .err e
  | panic => exact .panic

theorem follow_cut (m : Mode) (more : Bytes) : ∀ (f : FTy) (buf : Bytes) (loc : Nat),
    Cut (fun a b => b = f.grow more a) (f.follow m buf loc) (f.follow m (buf ++ more) loc)
  | .scalar t, buf, loc => (readScalarAt_cut m t buf more loc).of_eq
  | .str, buf, loc => (followStr_cut m buf more loc).of_eq
  | .slice t, buf, loc => (followSlice_cut m t buf more loc).of_eq
  | .vector _, _, _ => .ok rfl
  | .table, _, _ => .ok rfl
  | .vtable, _, _ => .ok rfl
  | .fileId, _, _ => .bindEq fun _ => (sliceGet_cut ..).of_eq
  | .fwdU t, buf, _ => .bindEq fun _ => .bindSame (sliceGet_cut ..) fun _ => .bindEq fun _ => .bindEq fun l => follow_cut m more t buf l
  | .fwdV t, buf, _ => .bindEq fun _ => .bindSame (sliceGet_cut ..) fun _ => .bindEq fun _ => .bindEq fun l => follow_cut m more t buf l
  | .backS t, buf, _ => .bindEq fun _ => .bindSame (sliceGet_cut ..) fun _ => .bindEq fun _ => .bindEq fun _ => follow_cut m more t buf _
  | .skipSize t, buf, _ => .bindEq fun l => follow_cut m more t buf l
  | .skipRoot t, buf, _ => .bindEq fun l => follow_cut m more t buf l
  | .skipFileId t, buf, _ => .bindEq fun l => follow_cut m more t buf l
  | .enum t _, buf, loc => .bindSame (readScalarAt_cut m t buf more loc) fun _ => (Cut.refl _).of_eq

/-! ### Tables and vtables -/

/-- The same vtable in a longer buffer. -/
def VTable.grow (more : Bytes) (v : VTable) : VTable := ⟨v.buf ++ more, v.loc⟩

/-- The same table in a longer buffer. -/
def Table.grow (more : Bytes) (t : Table) : Table := ⟨t.buf ++ more, t.loc⟩

/-- The same vector in a longer buffer. -/
def Vec.grow (more : Bytes) {e : FTy} (v : Vec e) : Vec e := ⟨v.buf ++ more, v.loc⟩

theorem VTable.numBytes_cut (m : Mode) (more : Bytes) (v : VTable) : Cut Eq (v.numBytes m) ((v.grow more).numBytes m) :=
  readNatAt_cut ..

theorem VTable.numFields_cut (m : Mode) (more : Bytes) (v : VTable) : Cut Eq (v.numFields m) ((v.grow more).numFields m) :=
  .bindSame (VTable.numBytes_cut ..) fun _ => .refl _

theorem VTable.objectInlineNumBytes_cut (m : Mode) (more : Bytes) (v : VTable) :
    Cut Eq (v.objectInlineNumBytes m) ((v.grow more).objectInlineNumBytes m) :=
  .bindEq fun _ => readNatAt_cut ..

theorem VTable.getField_cut (m : Mode) (more : Bytes) (v : VTable) (i : Nat) :
    Cut Eq (v.getField m i) ((v.grow more).getField m i) := by
  refine .bindSame (VTable.numFields_cut ..) fun n => ?_
  split
  · exact .refl _
  · exact .bindEq fun _ => .bindEq fun _ => .bindEq fun _ => .bindEq fun _ => .bindSame (readNatAt_cut ..) fun _ => .refl _

theorem VTable.get_cut (m : Mode) (more : Bytes) (v : VTable) (i : Nat) : Cut Eq (v.get m i) ((v.grow more).get m i) := by
  refine .bindSame (VTable.numBytes_cut ..) fun n => ?_
  split
  · exact .refl _
  · exact .bindEq fun _ => .bindSame (readNatAt_cut ..) fun _ => .refl _

theorem VTable.asBytes_cut (m : Mode) (more : Bytes) (v : VTable) : Cut Eq (v.asBytes m) ((v.grow more).asBytes m) :=
  .bindSame (VTable.numBytes_cut ..) fun _ => .bindEq fun _ => sliceGet_cut ..

theorem Table.get_cut (m : Mode) (more : Bytes) (t : Table) (f : FTy) (slot : Nat) (d : Option f.Inner) :
    Cut (fun a b => b = a.map (f.grow more)) (t.get m f slot d) ((t.grow more).get m f slot (d.map (f.grow more))) := by
  refine .bind (follow_cut m more (.backS .vtable) t.buf t.loc) fun vt vt' hv => ?_
  subst hv
  refine .bindSame (VTable.get_cut m more vt slot) fun vo => ?_
  cases vo with
  | none => exact .ok rfl
  | some o =>
    dsimp only
    split
    · exact .ok rfl
    · exact .bindEq fun l => .bind (follow_cut m more f t.buf l) fun a b h => .ok (by rw [h]; rfl)

theorem bufferHasIdentifier_cut (m : Mode) (data more ident : Bytes) (sp : Bool) :
    Cut Eq (bufferHasIdentifier m data ident sp) (bufferHasIdentifier m (data ++ more) ident sp) := by
  refine .bindEq fun _ => ?_
  cases sp with
  | true => exact .bind (follow_cut m more (.skipSize (.skipRoot .fileId)) data 0) fun a b h => by rw [h]; exact .refl _
  | false => exact .bind (follow_cut m more (.skipRoot .fileId) data 0) fun a b h => by rw [h]; exact .refl _

/-! ### Vectors -/

theorem Vec.len_cut (m : Mode) (more : Bytes) {e : FTy} (v : Vec e) : Cut Eq (v.len m) ((v.grow more).len m) := readNatAt_cut ..

theorem Vec.get_cut (m : Mode) (more : Bytes) {e : FTy} (v : Vec e) (i : Nat) :
    Cut (fun a b => b = e.grow more a) (v.get m i) ((v.grow more).get m i) := by
  have hend : Cut (fun a b => b = e.grow more a)
      (do debugAssert m (0 < e.size)
          let a ← addU m v.loc 4
          let b ← mulU m e.size i
          let l ← addU m a b
          e.follow m v.buf l : Res e.Inner)
      (do debugAssert m (0 < e.size)
          let a ← addU m v.loc 4
          let b ← mulU m e.size i
          let l ← addU m a b
          e.follow m (v.buf ++ more) l : Res e.Inner) :=
    .bindEq fun _ => .bindEq fun _ => .bindEq fun _ => .bindEq fun l => follow_cut m more e v.buf l
  cases m with
  | debug => exact .bindSame (readNatAt_cut ..) fun _ => .bindEq fun _ => hend
  | release => exact hend

theorem Vec.safeSlice_cut (m : Mode) (more : Bytes) {t : STy} (v : Vec (.scalar t)) :
    Cut Eq (v.safeSlice m) ((v.grow more).safeSlice m) := followSlice_cut ..

/-! ### Iterators -/

/-- The same iterator over a longer buffer. -/
def VIter.grow (more : Bytes) {e : FTy} (it : VIter e) : VIter e := ⟨it.buf ++ more, it.loc, it.remaining⟩

/-- An item read from bytes that were cut off and the item read from the whole: the first is an error because of the missing bytes, or
both are the same. -/
def CutItem (more : Bytes) {e : FTy} (x y : Except Error e.Inner) : Prop :=
  x = .error .outOfBounds ∨ y = x.map (e.grow more)

theorem follow_item (m : Mode) (more : Bytes) {e : FTy} (buf : Bytes) (loc : Nat) :
    (VIter.item (e.follow m (buf ++ more) loc) = .panic) ∨ ∃ x y, VIter.item (e.follow m buf loc) = .ok x ∧
      VIter.item (e.follow m (buf ++ more) loc) = .ok y ∧ CutItem more x y := by
  have h := follow_cut m more e buf loc
  generalize e.follow m buf loc = r at h
  generalize e.follow m (buf ++ more) loc = r' at h
  cases h with
  | short =>
    cases r' with
    | ok a => exact .inr ⟨_, _, rfl, rfl, .inl rfl⟩
    | err e => exact .inr ⟨_, _, rfl, rfl, .inl rfl⟩
    | panic => exact .inl rfl
  | ok h => exact .inr ⟨_, _, rfl, rfl, .inr (by rw [h]; rfl)⟩
  | err e => exact .inr ⟨_, _, rfl, rfl, .inr rfl⟩
  | panic => exact .inl rfl

end Butte
