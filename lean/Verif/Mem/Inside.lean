import Verif.Mem.Logic
/-
Readers: whatever the bytes, every access is inside the buffer.
-/
namespace Butte.Mem

/-- Nothing in the type is read as a `bool` (primitives.rs 334-340 reads `bool` fields as `u8`). -/
def NoBool : FTy → Prop
  | .scalar _ | .str | .table | .vtable | .fileId => True
  | .slice t | .enum t _ => t ≠ .bool
  | .vector e => NoBool e
  | .fwdU t | .fwdV t | .backS t | .skipSize t | .skipRoot t | .skipFileId t => NoBool t

/-- The access is inside and, if `B`, reads a value of its type. -/
def InV (B : Prop) (a : Access) : Prop := a.Inside ∧ (B → a.Valid)

theorem InV.read {B : Prop} {t : STy} {loc : Nat} {s : Bytes} (ht : B → t ≠ .bool) (h : loc + t.size ≤ s.length) :
    InV B ⟨false, t, 1, loc, s⟩ := by
  refine ⟨?_, fun hb _ e => absurd e (ht hb)⟩
  simpa [Access.Inside] using h

theorem InV.write {B : Prop} {t : STy} {n loc : Nat} {s : Bytes} (h : loc + n * t.size ≤ s.length) :
    InV B ⟨true, t, n, loc, s⟩ := ⟨h, fun _ e => nomatch e⟩

theorem readNat_in {B : Prop} {m : Mode} {t : STy} {s : Bytes} {loc : Nat} (ht : t ≠ .bool) :
    All (InV B) (readNatAt m t s loc) := readNatAt_all (InV.read fun _ => ht)

theorem numBytes_in {B : Prop} {m : Mode} (v : VTable) : All (InV B) (VTable.numBytes m v) := readNat_in nofun

theorem numFields_in {B : Prop} {m : Mode} (v : VTable) : All (InV B) (VTable.numFields m v) :=
  All.bind (numBytes_in v) fun _ _ => All.liftM _

theorem objectInlineNumBytes_in {B : Prop} {m : Mode} (v : VTable) : All (InV B) (VTable.objectInlineNumBytes m v) :=
  All.bind_liftM fun _ _ => readNat_in nofun

theorem getField_in {B : Prop} {m : Mode} (v : VTable) (i : Nat) : All (InV B) (VTable.getField m v i) := by
  unfold VTable.getField
  refine All.bind (numFields_in v) fun _ _ => All.ite (fun _ => All.pure _) fun _ => ?_
  refine All.bind_liftM fun _ _ => All.bind_liftM fun _ _ => All.bind_liftM fun _ _ => All.bind_liftM fun _ _ => ?_
  exact All.bind (readNat_in nofun) fun _ _ => All.pure _

theorem vtGet_in {B : Prop} {m : Mode} (v : VTable) (i : Nat) : All (InV B) (VTable.get m v i) := by
  unfold VTable.get
  refine All.bind (numBytes_in v) fun _ _ => All.ite (fun _ => All.pure _) fun _ => All.bind_liftM fun _ _ => ?_
  exact All.bind (readNat_in nofun) fun _ _ => All.pure _

theorem asBytes_in {B : Prop} {m : Mode} (v : VTable) : All (InV B) (VTable.asBytes m v) :=
  All.bind (numBytes_in v) fun _ _ => All.bind_liftM fun _ _ => All.liftM _

theorem eqv_all {P : Access → Prop} {m : Mode} {v w : VTable} (hv : All P (VTable.asBytes m v))
    (hw : All P (VTable.asBytes m w)) : All P (VTable.eqv m v w) := by
  unfold VTable.eqv
  dsimp only
  split
  · exact hv
  · intro a ha
    rcases List.mem_append.mp ha with ha | ha
    · exact hv a ha
    · exact hw a ha

theorem eqv_in {B : Prop} {m : Mode} (v w : VTable) : All (InV B) (VTable.eqv m v w) :=
  eqv_all (asBytes_in v) (asBytes_in w)

theorem followStr_all {P : Access → Prop} {m : Mode} {buf : Bytes} {loc : Nat}
    (h : loc + 4 ≤ buf.length → P ⟨false, .u32, 1, loc, buf⟩) : All P (followStr m buf loc) := by
  unfold followStr
  refine All.bind (readNatAt_all h) fun _ _ => All.bind_liftM fun _ _ => All.bind_liftM fun _ _ => ?_
  refine All.ite (fun _ => All.lift _) fun _ => ?_
  dsimp only
  split
  · refine All.bind_lift fun _ _ => All.ite (fun _ => All.lift _) fun _ => All.bind_liftM fun _ _ => ?_
    split
    · exact All.pure _
    · exact All.lift _
  · exact All.bind_lift nofun

/-- `from_raw_parts` covers what the length says, and all of it is there. -/
theorem followSlice_all {P : Access → Prop} {m : Mode} {t : STy} {buf : Bytes} {loc : Nat} (hv : Bytes.Valid buf)
    (h : loc + 4 ≤ buf.length → P ⟨false, .u32, 1, loc, buf⟩)
    (h' : ∀ len, Butte.readNatAt m .u32 buf loc = .ok len → loc + 4 + len * t.size ≤ buf.length →
      P ⟨false, t, len, loc + 4, buf⟩) : All P (followSlice m t buf loc) := by
  unfold followSlice
  refine All.bind_liftM fun _ _ => ?_
  refine Does.all (Q := fun _ => True) (Does.bind (readNatAt_does h) fun len el ⟨hl, hc⟩ => ?_)
  refine ⟨?_, fun _ _ => trivial⟩
  refine All.bind_liftM fun a ha => All.bind_liftM fun n hn => All.bind_liftM fun e he => All.bind_liftM fun data hd => ?_
  have hsz : t.size ≤ 8 := by cases t <;> decide
  have hlt := isizeMax_lt
  have hc' : len < 2 ^ 32 := hc
  have hv' : buf.length ≤ isizeMax := hv
  simp only [STy.size] at hl
  rw [addU_ok (by omega)] at ha
  cases ha
  have hm : len * t.size ≤ len * 8 := Nat.mul_le_mul_left _ hsz
  rw [mulU_ok (by omega)] at hn
  cases hn
  rw [addU_ok (by omega)] at he
  cases he
  obtain ⟨_, h2, _, _⟩ := sliceGet_len hd
  exact All.bind (All.touch (h' len (by simpa using el) h2)) fun _ _ => All.pure _

theorem readAs_ne (t : STy) : readAs t ≠ .bool := by cases t <;> decide
theorem readAs_size (t : STy) : (readAs t).size = t.size := by cases t <;> rfl

theorem follow_in {B : Prop} {m : Mode} {buf : Bytes} (hv : Bytes.Valid buf) : ∀ (f : FTy) (loc : Nat),
    (B → NoBool f) → All (InV B) (follow m f buf loc)
  | .scalar t, loc, _ => (readScalarAtAs_does fun h => InV.read (fun _ => readAs_ne t) (by rw [readAs_size]; exact h)).all
  | .str, loc, _ => followStr_all (InV.read (t := .u32) fun _ => nofun)
  | .slice t, loc, hb => followSlice_all hv (InV.read (t := .u32) fun _ => nofun) fun len _ h => ⟨h, fun b _ e => absurd e (hb b)⟩
  | .vector e, loc, _ => All.pure _
  | .table, loc, _ => All.pure _
  | .vtable, loc, _ => All.pure _
  | .fileId, loc, _ => All.bind_liftM fun _ _ => All.liftM _
  | .fwdU t, loc, hb => slice_does (by rfl) (InV.read nofun) fun _ _ _ =>
    All.bind_liftM fun _ _ => follow_in hv t _ hb
  | .fwdV t, loc, hb => slice_does (by rfl) (InV.read nofun) fun _ _ _ =>
    All.bind_liftM fun _ _ => follow_in hv t _ hb
  | .backS t, loc, hb => slice_does (by rfl) (InV.read nofun) fun _ _ _ =>
    All.bind_liftM fun _ _ => follow_in hv t _ hb
  | .skipSize t, loc, hb => All.bind_liftM fun _ _ => follow_in hv t _ hb
  | .skipRoot t, loc, hb => All.bind_liftM fun _ _ => follow_in hv t _ hb
  | .skipFileId t, loc, hb => All.bind_liftM fun _ _ => follow_in hv t _ hb
  | .enum t vals, loc, hb => All.bind (readScalarAt_does (InV.read hb)).all fun _ _ => All.liftM _

theorem get_in {B : Prop} {m : Mode} {t : Butte.Table} (hv : Bytes.Valid t.buf) (f : FTy) (slot : Nat) (d : Option f.Inner)
    (hb : B → NoBool f) : All (InV B) (Table.get m t f slot d) := by
  unfold Table.get
  refine All.bind (follow_in hv (.backS .vtable) _ fun _ => trivial) fun vt _ => All.bind (vtGet_in _ _) fun o _ => ?_
  split
  · exact All.ite (fun _ => All.pure _) fun _ => All.bind_liftM fun _ _ =>
      All.bind (follow_in hv f _ hb) fun _ _ => All.pure _
  · exact All.pure _

theorem vecLen_in {B : Prop} {m : Mode} {e : FTy} (v : Vec e) : All (InV B) (Vec.len m v) := readNat_in nofun

theorem vecGet_in {B : Prop} {m : Mode} {e : FTy} {v : Vec e} (hv : Bytes.Valid v.buf) (i : Nat) (hb : B → NoBool e) :
    All (InV B) (Vec.get m v i) := by
  unfold Vec.get
  have tail : All (InV B) (do
      let _ ← (liftM (debugAssert m (decide (0 < e.size))) : Tr Unit)
      let a ← (liftM (addU m v.loc 4) : Tr Nat)
      let b ← (liftM (mulU m e.size i) : Tr Nat)
      let l ← (liftM (addU m a b) : Tr Nat)
      follow m e v.buf l) :=
    All.bind_liftM fun _ _ => All.bind_liftM fun _ _ => All.bind_liftM fun _ _ => All.bind_liftM fun _ _ =>
      follow_in hv e _ hb
  refine All.ite (fun _ => ?_) fun _ => tail
  exact All.bind (readNat_in nofun) fun _ _ => All.bind_liftM fun _ _ => tail

theorem iter_in {B : Prop} {m : Mode} {e : FTy} (v : Vec e) : All (InV B) (Vec.iter m v) :=
  All.bind (vecLen_in v).onRes fun _ _ => All.liftM _

theorem next_in {B : Prop} {m : Mode} {e : FTy} {it : VIter e} (hv : Bytes.Valid it.buf) (hb : B → NoBool e) :
    All (InV B) (VIter.next m it) := by
  unfold VIter.next
  refine All.bind_liftM fun _ _ => All.ite (fun _ => All.pure _) fun _ => ?_
  exact All.bind (follow_in hv e _ hb).onRes fun _ _ => All.bind_liftM fun _ _ => All.pure _

theorem nth_in {B : Prop} {m : Mode} {e : FTy} {it : VIter e} (hv : Bytes.Valid it.buf) (n : Nat) (hb : B → NoBool e) :
    All (InV B) (VIter.nth m it n) := by
  unfold VIter.nth
  refine All.bind_liftM fun _ _ => All.bind_liftM fun _ _ => ?_
  refine next_in (it := { it with remaining := _, loc := _ }) hv hb

theorem nextBack_in {B : Prop} {m : Mode} {e : FTy} {it : VIter e} (hv : Bytes.Valid it.buf) (hb : B → NoBool e) :
    All (InV B) (VIter.nextBack m it) := by
  unfold VIter.nextBack
  refine All.bind_liftM fun _ _ => All.ite (fun _ => All.pure _) fun _ => ?_
  refine All.bind_liftM fun _ _ => All.bind_liftM fun _ _ => ?_
  exact All.bind (follow_in hv e _ hb).onRes fun _ _ => All.pure _

/-! ### Generated accessors -/

/-- As `NoBool`, for a field. -/
def NoBoolKind : Gen.Kind → Prop
  | .scalar _ _ => True
  | .enum t _ _ => t ≠ .bool
  | .ref f => NoBool f
  | .union vs => ∀ f ∈ vs, NoBool f

open Gen in
theorem fetch_in {B : Prop} {m : Mode} {t : Butte.Table} (hv : Bytes.Valid t.buf) (slot : Nat) (tag : Tr (Option Nat))
    (ht : All (InV B) tag) (k : Kind) (hb : B → NoBoolKind k) : All (InV B) (fetch m t slot tag k) := by
  cases k with
  | scalar ty d => exact get_in hv _ _ _ fun _ => trivial
  | enum ty vals d => exact get_in hv _ _ _ hb
  | ref f => exact get_in hv _ _ _ hb
  | union vs =>
    unfold fetch
    refine All.bind ht fun o _ => ?_
    split
    · exact All.pure _
    · exact All.pure _
    · split
      · refine All.bind (get_in hv _ _ _ fun b => hb b _ (List.getElem_mem _)) fun _ _ => All.pure _
      · exact All.lift _

open Gen in
theorem tagOf_in {B : Prop} {m : Mode} {t : Butte.Table} (hv : Bytes.Valid t.buf) (fs : List GField) (name : Str)
    (hb : B → ∀ g ∈ fs, NoBoolKind g.kind) : All (InV B) (tagOf m t fs name) := by
  unfold tagOf
  cases h : fs.find? (fun g => g.name == name ++ c!"_type") with
  | none => exact All.lift _
  | some g =>
    obtain ⟨n, slot, k, req⟩ := g
    cases k with
    | enum ty vals d =>
      exact All.bind (get_in hv _ _ _ fun b => hb b _ (List.mem_of_find?_eq_some h)) fun _ _ => All.liftM _
    | _ => exact All.lift _

open Gen in
theorem accessor_in {B : Prop} {m : Mode} {t : Butte.Table} (hv : Bytes.Valid t.buf) (fs : List GField) (f : GField)
    (hb : B → NoBoolKind f.kind ∧ ∀ g ∈ fs, NoBoolKind g.kind) : All (InV B) (accessor m t fs f) := by
  unfold accessor
  refine All.bind (fetch_in hv _ _ (tagOf_in hv fs _ fun b => (hb b).2) _ fun b => (hb b).1) fun _ _ => All.liftM _

end Butte.Mem
