import Verif.Mem.Word
import Verif.Mem.Graph
/-
Reading with pointers of `w` bits: what is accessed.
-/
namespace Butte.Word
open Mem

variable {P : Access → Prop}

/-- With 64 bits it is the model of `Mem/Model`. -/
theorem wordSize_64 (e : FTy) : wordSize 64 e = e.size := by cases e <;> rfl

theorem follow_64 (m : Mode) (buf : Bytes) : ∀ (f : FTy) (loc : Nat), follow 64 m f buf loc = Mem.follow m f buf loc
  | .scalar t, loc | .str, loc | .slice t, loc | .vector e, loc | .table, loc | .vtable, loc | .fileId, loc
  | .enum t vals, loc => rfl
  | .fwdU t, loc | .fwdV t, loc | .backS t, loc | .skipSize t, loc | .skipRoot t, loc | .skipFileId t, loc => by
    unfold follow Mem.follow
    simp only [follow_64 m buf t]
    rfl

theorem tableGet_64 (m : Mode) (t : Butte.Table) (f : FTy) (slot : Nat) (d : Option f.Inner) :
    Table.get 64 m t f slot d = Mem.Table.get m t f slot d := by
  unfold Table.get Mem.Table.get
  simp only [follow_64]
  rfl

theorem vecGet_64 (m : Mode) {e : FTy} (v : Vec e) (i : Nat) : Vec.get 64 m v i = Mem.Vec.get m v i := by
  unfold Vec.get Mem.Vec.get
  simp only [follow_64, wordSize_64]
  rfl

theorem vecLen_64 (m : Mode) {e : FTy} (v : Vec e) : Vec.len 64 m v = Mem.Vec.len m v := rfl

theorem next_64 (m : Mode) {e : FTy} (it : VIter e) : VIter.next 64 m it = Mem.VIter.next m it := by
  unfold VIter.next Mem.VIter.next
  simp only [follow_64, wordSize_64]

theorem nth_64 (m : Mode) {e : FTy} (it : VIter e) (n : Nat) : VIter.nth 64 m it n = Mem.VIter.nth m it n := by
  unfold VIter.nth Mem.VIter.nth
  simp only [next_64, wordSize_64]

theorem nextBack_64 (m : Mode) {e : FTy} (it : VIter e) : VIter.nextBack 64 m it = Mem.VIter.nextBack m it := by
  unfold VIter.nextBack Mem.VIter.nextBack
  simp only [follow_64, wordSize_64]

open Gen in
theorem fetch_64 (m : Mode) (t : Butte.Table) (slot : Nat) (tag : Tr (Option Nat)) (k : Kind) :
    fetch 64 m t slot tag k = Mem.fetch m t slot tag k := by
  cases k with
  | union vs =>
    unfold fetch Mem.fetch
    simp only [tableGet_64]
    rfl
  | _ =>
    unfold fetch Mem.fetch
    simp only [tableGet_64]
    try rfl

open Gen in
theorem accessor_64 (m : Mode) (t : Butte.Table) (fs : List GField) (f : GField) :
    accessor 64 m t fs f = Mem.accessor m t fs f := by
  unfold accessor Mem.accessor
  have : tagOf 64 m t fs f.name = Mem.tagOf m t fs f.name := by
    unfold tagOf Mem.tagOf
    simp only [tableGet_64]
    rfl
  simp only [fetch_64, this]

open Gen in
theorem readVal_64 (gm m : Mode) (S : Tables) : ∀ (n : Nat) (ty : Ir.Ty) (f : FTy) (x : f.Inner),
    readVal 64 gm m S n ty f x = Mem.readVal gm m S n ty f x := by
  intro n
  induction n with
  | zero => intro ty f x; unfold readVal Mem.readVal; rfl
  | succ n ih =>
    have ih : readVal 64 gm m S n = Mem.readVal gm m S n := by funext ty f x; exact ih ty f x
    intro ty f x
    cases ty with
    | builtin b => cases f <;> rfl
    | enum id vs b => cases f <;> rfl
    | string =>
      cases f with
      | fwdU f => cases f <;> rfl
      | _ => rfl
    | array t =>
      cases f with
      | fwdU f =>
        cases f with
        | vector e => change Vec e at x; simp only [readVal, Mem.readVal, ih, vecGet_64, vecLen_64]
        | _ => rfl
      | _ => rfl
    | table q =>
      cases f with
      | fwdU f =>
        cases f with
        | table => change Butte.Table at x; simp only [readVal, Mem.readVal, ih, accessor_64]; rfl
        | _ => rfl
      | _ => rfl
    | _ => cases f <;> rfl

/-! ### Inside -/

/-- A checked sum that is not below its first summand did not wrap around. -/
theorem addW_le {w : Nat} {m : Mode} {a b c : Nat} (h : addW w m a b = .ok c) (hle : a ≤ c) (hb : b < 2 ^ w) : c = a + b := by
  unfold addW at h
  split at h
  · cases h; rfl
  · cases m with
    | debug => cases h
    | release =>
      cases h
      exfalso
      rename_i hn
      have hlt := Nat.mod_lt (a + b) (Nat.lt_of_le_of_lt (Nat.zero_le _) hb)
      by_cases ha : a < 2 ^ w
      · have : (a + b) % 2 ^ w = a + b - 2 ^ w := by
          rw [Nat.mod_eq_sub_mod (by omega), Nat.mod_eq_of_lt (by omega)]
        omega
      · omega

theorem le_pow {w : Nat} (h : 32 ≤ w) : 2 ^ 32 ≤ 2 ^ w := Nat.pow_le_pow_right (by decide) h

theorem size_ltW {w : Nat} (h : 32 ≤ w) (t : STy) : t.size < 2 ^ w :=
  Nat.lt_of_lt_of_le (by cases t <;> decide) (le_pow h)

theorem readScalarAtAs_does {w : Nat} (hw : 32 ≤ w) {m : Mode} {A t : STy} {s : Bytes} {loc : Nat}
    (h : loc + t.size ≤ s.length → P ⟨false, A, 1, loc, s⟩) :
    Does P (readScalarAtAs w m A t s loc) (fun _ => loc + t.size ≤ s.length) := by
  unfold readScalarAtAs
  refine Does.bind (Does.liftM fun _ e => e) fun e _ he => ?_
  refine Does.bind (Does.liftM fun _ e => e) fun bs _ hbs => ?_
  obtain ⟨h1, h2, _, _⟩ := sliceGet_len hbs
  have := addW_le he h1 (size_ltW hw t)
  subst this
  refine ⟨All.within (readScalarAs_all fun _ => ?_), fun _ _ => h2⟩
  exact h h2

theorem readNatAt_does {w : Nat} (hw : 32 ≤ w) {m : Mode} {t : STy} {s : Bytes} {loc : Nat}
    (h : loc + t.size ≤ s.length → P ⟨false, t, 1, loc, s⟩) :
    Does P (readNatAt w m t s loc) (fun n => loc + t.size ≤ s.length ∧ n < t.card) := by
  unfold readNatAt
  refine Does.bind (readScalarAtAs_does hw h) fun v _ hv => Does.pure ⟨hv, v.isLt⟩

theorem readNatAt_all {w : Nat} (hw : 32 ≤ w) {m : Mode} {t : STy} {s : Bytes} {loc : Nat}
    (h : loc + t.size ≤ s.length → P ⟨false, t, 1, loc, s⟩) : All P (readNatAt w m t s loc) := (readNatAt_does hw h).all

/-- `read_scalar` on a slice of `size` bytes. -/
theorem slice_does {w : Nat} (hw : 32 ≤ w) {m : Mode} {t : STy} {buf : Bytes} {loc : Nat} {β : Type} {f : SVal t → Tr β} {k : Nat}
    (hk : k = t.size) (h : loc + t.size ≤ buf.length → P ⟨false, t, 1, loc, buf⟩) (hf : ∀ v, All P (f v)) :
    All P (do
      let e ← (liftM (addW w m loc k) : Tr Nat)
      let slice ← (liftM (sliceGet buf loc e) : Tr Bytes)
      let off ← Tr.within buf loc (Mem.readScalar t slice)
      f off) := by
  subst hk
  refine All.bind_liftM fun e he => All.bind_liftM fun bs hbs => ?_
  obtain ⟨h1, h2, _, _⟩ := sliceGet_len hbs
  have := addW_le he h1 (size_ltW hw t)
  subst this
  exact All.bind (All.within (readScalarAs_all fun _ => h h2)) fun v _ => hf v

/-- No slice in the type whose length in bytes can wrap around. -/
def NoWide (w : Nat) (m : Mode) (buf : Bytes) : FTy → Prop
  | .scalar _ | .str | .table | .vtable | .fileId | .enum _ _ | .vector _ => True
  | .slice t => buf.length < 2 ^ (w - 1) ∧ (m = .debug ∨ t.size = 1 ∨ 35 ≤ w)
  | .fwdU t | .fwdV t | .backS t | .skipSize t | .skipRoot t | .skipFileId t => NoWide w m buf t


theorem readNat_in {w : Nat} (hw : 32 ≤ w) {B : Prop} {m : Mode} {t : STy} {s : Bytes} {loc : Nat} (ht : t ≠ .bool) :
    All (InV B) (readNatAt w m t s loc) := readNatAt_all hw (InV.read fun _ => ht)

theorem numBytes_in {w : Nat} (hw : 32 ≤ w) {B : Prop} {m : Mode} (v : VTable) : All (InV B) (VTable.numBytes w m v) :=
  readNat_in hw nofun

theorem numFields_in {w : Nat} (hw : 32 ≤ w) {B : Prop} {m : Mode} (v : VTable) : All (InV B) (VTable.numFields w m v) :=
  All.bind (numBytes_in hw v) fun _ _ => All.liftM _

theorem objectInlineNumBytes_in {w : Nat} (hw : 32 ≤ w) {B : Prop} {m : Mode} (v : VTable) :
    All (InV B) (VTable.objectInlineNumBytes w m v) :=
  All.bind_liftM fun _ _ => readNat_in hw nofun

theorem getField_in {w : Nat} (hw : 32 ≤ w) {B : Prop} {m : Mode} (v : VTable) (i : Nat) : All (InV B) (VTable.getField w m v i) := by
  unfold VTable.getField
  refine All.bind (numFields_in hw v) fun _ _ => All.ite (fun _ => All.pure _) fun _ => ?_
  refine All.bind_liftM fun _ _ => All.bind_liftM fun _ _ => All.bind_liftM fun _ _ => All.bind_liftM fun _ _ => ?_
  exact All.bind (readNat_in hw nofun) fun _ _ => All.pure _

theorem vtGet_in {w : Nat} (hw : 32 ≤ w) {B : Prop} {m : Mode} (v : VTable) (i : Nat) : All (InV B) (VTable.get w m v i) := by
  unfold VTable.get
  refine All.bind (numBytes_in hw v) fun _ _ => All.ite (fun _ => All.pure _) fun _ => All.bind_liftM fun _ _ => ?_
  exact All.bind (readNat_in hw nofun) fun _ _ => All.pure _

theorem asBytes_in {w : Nat} (hw : 32 ≤ w) {B : Prop} {m : Mode} (v : VTable) : All (InV B) (VTable.asBytes w m v) :=
  All.bind (numBytes_in hw v) fun _ _ => All.bind_liftM fun _ _ => All.liftM _

theorem eqv_in {w : Nat} (hw : 32 ≤ w) {B : Prop} {m : Mode} (v v' : VTable) : All (InV B) (VTable.eqv w m v v') := by
  unfold VTable.eqv
  dsimp only
  split
  · exact asBytes_in hw v
  · intro a ha
    rcases List.mem_append.mp ha with ha | ha
    · exact asBytes_in hw v a ha
    · exact asBytes_in hw v' a ha

theorem followStr_all {w : Nat} (hw : 32 ≤ w) {m : Mode} {buf : Bytes} {loc : Nat}
    (h : loc + 4 ≤ buf.length → P ⟨false, .u32, 1, loc, buf⟩) : All P (followStr w m buf loc) := by
  unfold followStr
  refine All.bind (readNatAt_all hw h) fun _ _ => All.bind_liftM fun _ _ => All.bind_liftM fun _ _ => ?_
  refine All.ite (fun _ => All.lift _) fun _ => ?_
  dsimp only
  split
  · refine All.bind_lift fun _ _ => All.ite (fun _ => All.lift _) fun _ => All.bind_liftM fun _ _ => ?_
    split
    · exact All.pure _
    · exact All.lift _
  · exact All.bind_lift nofun

/-- What `from_raw_parts` covers is there, unless its length in bytes wrapped around. -/
theorem followSlice_all {w : Nat} (hw : 32 ≤ w) {m : Mode} {t : STy} {buf : Bytes} {loc : Nat} (hv : buf.length < 2 ^ (w - 1))
    (ht : m = .debug ∨ t.size = 1 ∨ 35 ≤ w)
    (h : loc + 4 ≤ buf.length → P ⟨false, .u32, 1, loc, buf⟩)
    (h' : ∀ len, loc + 4 + len * t.size ≤ buf.length → P ⟨false, t, len, loc + 4, buf⟩) : All P (followSlice w m t buf loc) := by
  have hd : 2 ^ w = 2 * 2 ^ (w - 1) := by
    obtain ⟨k, rfl⟩ : ∃ k, w = k + 1 := ⟨w - 1, by omega⟩
    rw [Nat.pow_succ, Nat.mul_comm]; rfl
  have h31 : 2 ^ 31 ≤ 2 ^ (w - 1) := Nat.pow_le_pow_right (by decide) (by omega)
  unfold followSlice
  refine All.bind_liftM fun _ _ => ?_
  refine Does.all (Q := fun _ => True) (Does.bind (readNatAt_does hw h) fun len el ⟨hl, hc⟩ => ?_)
  refine ⟨?_, fun _ _ => trivial⟩
  refine All.bind_liftM fun a ha => All.bind_liftM fun n hn => All.bind_liftM fun e he => All.bind_liftM fun data hd' => ?_
  have hsz : t.size ≤ 8 := by cases t <;> decide
  have hc' : len < 2 ^ 32 := hc
  simp only [STy.size] at hl
  rw [addW_ok (by omega)] at ha
  cases ha
  have hn' : n = len * t.size ∧ n < 2 ^ w := by
    by_cases hlt : len * t.size < 2 ^ w
    · rw [mulW_ok hlt] at hn
      cases hn
      exact ⟨rfl, hlt⟩
    · rcases ht with rfl | ht | ht
      · unfold mulW at hn
        rw [if_neg hlt] at hn
        cases hn
      · rw [ht] at hlt; omega
      · have : 2 ^ 35 ≤ 2 ^ w := Nat.pow_le_pow_right (by decide) ht
        have : len * t.size ≤ len * 8 := Nat.mul_le_mul_left _ hsz
        omega
  obtain ⟨rfl, hlt⟩ := hn'
  obtain ⟨h1, h2, _, _⟩ := sliceGet_len hd'
  have := addW_le he h1 hlt
  subst this
  exact All.bind (All.touch (h' len h2)) fun _ _ => All.pure _

theorem follow_in {w : Nat} (hw : 32 ≤ w) {B : Prop} {m : Mode} {buf : Bytes} :
    ∀ (f : FTy) (loc : Nat), NoWide w m buf f → (B → NoBool f) → All (InV B) (follow w m f buf loc)
  | .scalar t, loc, _, _ =>
    (readScalarAtAs_does hw fun h => InV.read (fun _ => readAs_ne t) (by rw [readAs_size]; exact h)).all
  | .str, loc, _, _ => followStr_all hw (InV.read (t := .u32) fun _ => nofun)
  | .slice t, loc, ht, hb => followSlice_all hw ht.1 ht.2 (InV.read (t := .u32) fun _ => nofun) fun len h =>
    ⟨h, fun b _ e => absurd e (hb b)⟩
  | .vector e, loc, _, _ => All.pure _
  | .table, loc, _, _ => All.pure _
  | .vtable, loc, _, _ => All.pure _
  | .fileId, loc, _, _ => All.bind_liftM fun _ _ => All.liftM _
  | .fwdU t, loc, ht, hb => slice_does hw (by rfl) (InV.read nofun) fun _ =>
    All.bind_liftM fun _ _ => follow_in hw t _ ht hb
  | .fwdV t, loc, ht, hb => slice_does hw (by rfl) (InV.read nofun) fun _ =>
    All.bind_liftM fun _ _ => follow_in hw t _ ht hb
  | .backS t, loc, ht, hb => slice_does hw (by rfl) (InV.read nofun) fun _ =>
    All.bind_liftM fun _ _ => follow_in hw t _ ht hb
  | .skipSize t, loc, ht, hb => All.bind_liftM fun _ _ => follow_in hw t _ ht hb
  | .skipRoot t, loc, ht, hb => All.bind_liftM fun _ _ => follow_in hw t _ ht hb
  | .skipFileId t, loc, ht, hb => All.bind_liftM fun _ _ => follow_in hw t _ ht hb
  | .enum t vals, loc, _, hb => All.bind (readScalarAtAs_does hw (InV.read hb)).all fun _ _ => All.liftM _

theorem get_in {w : Nat} (hw : 32 ≤ w) {B : Prop} {m : Mode} {t : Butte.Table} (f : FTy)
    (slot : Nat) (d : Option f.Inner) (ht : NoWide w m t.buf f) (hb : B → NoBool f) : All (InV B) (Table.get w m t f slot d) := by
  unfold Table.get
  refine All.bind (follow_in hw (.backS .vtable) _ trivial fun _ => trivial) fun vt _ => All.bind (vtGet_in hw _ _) fun o _ => ?_
  split
  · exact All.ite (fun _ => All.pure _) fun _ => All.bind_liftM fun _ _ =>
      All.bind (follow_in hw f _ ht hb) fun _ _ => All.pure _
  · exact All.pure _

theorem vecLen_in {w : Nat} (hw : 32 ≤ w) {B : Prop} {m : Mode} {e : FTy} (v : Vec e) : All (InV B) (Vec.len w m v) :=
  readNat_in hw nofun

theorem vecGet_in {w : Nat} (hw : 32 ≤ w) {B : Prop} {m : Mode} {e : FTy} {v : Vec e} (i : Nat)
    (ht : NoWide w m v.buf e) (hb : B → NoBool e) : All (InV B) (Vec.get w m v i) := by
  unfold Vec.get
  have tail : All (InV B) (do
      let _ ← (liftM (debugAssert m (decide (0 < wordSize w e))) : Tr Unit)
      let a ← (liftM (addW w m v.loc 4) : Tr Nat)
      let b ← (liftM (mulW w m (wordSize w e) i) : Tr Nat)
      let l ← (liftM (addW w m a b) : Tr Nat)
      follow w m e v.buf l) :=
    All.bind_liftM fun _ _ => All.bind_liftM fun _ _ => All.bind_liftM fun _ _ => All.bind_liftM fun _ _ =>
      follow_in hw e _ ht hb
  refine All.ite (fun _ => ?_) fun _ => tail
  exact All.bind (readNat_in hw nofun) fun _ _ => All.bind_liftM fun _ _ => tail

theorem iter_in {w : Nat} (hw : 32 ≤ w) {B : Prop} {m : Mode} {e : FTy} (v : Vec e) : All (InV B) (Vec.iter w m v) :=
  All.bind (vecLen_in hw v).onRes fun _ _ => All.liftM _

theorem next_in {w : Nat} (hw : 32 ≤ w) {B : Prop} {m : Mode} {e : FTy} {it : VIter e}
    (ht : NoWide w m it.buf e) (hb : B → NoBool e) : All (InV B) (VIter.next w m it) := by
  unfold VIter.next
  refine All.bind_liftM fun _ _ => All.ite (fun _ => All.pure _) fun _ => ?_
  exact All.bind (follow_in hw e _ ht hb).onRes fun _ _ => All.bind_liftM fun _ _ => All.pure _

theorem nth_in {w : Nat} (hw : 32 ≤ w) {B : Prop} {m : Mode} {e : FTy} {it : VIter e} (n : Nat)
    (ht : NoWide w m it.buf e) (hb : B → NoBool e) : All (InV B) (VIter.nth w m it n) := by
  unfold VIter.nth
  refine All.bind_liftM fun _ _ => All.bind_liftM fun _ _ => ?_
  exact next_in hw (it := { it with remaining := _, loc := _ }) ht hb

theorem nextBack_in {w : Nat} (hw : 32 ≤ w) {B : Prop} {m : Mode} {e : FTy} {it : VIter e}
    (ht : NoWide w m it.buf e) (hb : B → NoBool e) : All (InV B) (VIter.nextBack w m it) := by
  unfold VIter.nextBack
  refine All.bind_liftM fun _ _ => All.ite (fun _ => All.pure _) fun _ => ?_
  refine All.bind_liftM fun _ _ => All.bind_liftM fun _ _ => ?_
  exact All.bind (follow_in hw e _ ht hb).onRes fun _ _ => All.pure _

/-! ### Generated accessors -/

/-- No slices at all: the types that generated code reads. -/
def NoSlice : FTy → Prop
  | .scalar _ | .str | .table | .vtable | .fileId | .enum _ _ => True
  | .slice _ => False
  | .vector e => NoSlice e
  | .fwdU t | .fwdV t | .backS t | .skipSize t | .skipRoot t | .skipFileId t => NoSlice t

theorem NoSlice.noWide {w : Nat} {m : Mode} {buf : Bytes} : ∀ {f : FTy}, NoSlice f → NoWide w m buf f
  | .scalar _, _ | .str, _ | .table, _ | .vtable, _ | .fileId, _ | .enum _ _, _ | .vector _, _ => trivial
  | .slice _, h => h.elim
  | .fwdU t, h | .fwdV t, h | .backS t, h | .skipSize t, h | .skipRoot t, h | .skipFileId t, h => NoSlice.noWide (f := t) h

/-- As `NoSlice`, for a field. -/
def NoSliceKind : Gen.Kind → Prop
  | .scalar _ _ | .enum _ _ _ => True
  | .ref f => NoSlice f
  | .union vs => ∀ f ∈ vs, NoSlice f

open Gen in
theorem fetch_in {w : Nat} (hw : 32 ≤ w) {B : Prop} {m : Mode} {t : Butte.Table} (slot : Nat) (tag : Tr (Option Nat))
    (ht : All (InV B) tag) (k : Kind) (hs : NoSliceKind k) (hb : B → NoBoolKind k) : All (InV B) (fetch w m t slot tag k) := by
  cases k with
  | scalar ty d => exact get_in hw _ _ _ trivial fun _ => trivial
  | enum ty vals d => exact get_in hw _ _ _ trivial hb
  | ref f => exact get_in hw _ _ _ (NoSlice.noWide (f := .fwdU f) hs) hb
  | union vs =>
    unfold fetch
    refine All.bind ht fun o _ => ?_
    split
    · exact All.pure _
    · exact All.pure _
    · split
      · refine All.bind (get_in hw _ _ _ (hs _ (List.getElem_mem _)).noWide fun b => hb b _ (List.getElem_mem _)) fun _ _ => All.pure _
      · exact All.lift _

open Gen in
theorem tagOf_in {w : Nat} (hw : 32 ≤ w) {B : Prop} {m : Mode} {t : Butte.Table} (fs : List GField) (name : Str)
    (hb : B → ∀ g ∈ fs, NoBoolKind g.kind) : All (InV B) (tagOf w m t fs name) := by
  unfold tagOf
  cases h : fs.find? (fun g => g.name == name ++ c!"_type") with
  | none => exact All.lift _
  | some g =>
    obtain ⟨n, slot, k, req⟩ := g
    cases k with
    | enum ty vals d =>
      exact All.bind (get_in hw _ _ _ trivial fun b => hb b _ (List.mem_of_find?_eq_some h)) fun _ _ => All.liftM _
    | _ => exact All.lift _

open Gen in
theorem accessor_in {w : Nat} (hw : 32 ≤ w) {B : Prop} {m : Mode} {t : Butte.Table} (fs : List GField) (f : GField)
    (hs : NoSliceKind f.kind) (hb : B → NoBoolKind f.kind ∧ ∀ g ∈ fs, NoBoolKind g.kind) : All (InV B) (accessor w m t fs f) := by
  unfold accessor
  exact All.bind (fetch_in hw _ _ (tagOf_in hw fs _ fun b => (hb b).2) _ hs fun b => (hb b).1) fun _ _ => All.liftM _

open Gen in
theorem followTy_noSlice : ∀ {ty : Ir.Ty} {f : FTy}, followTy ty = some f → NoSlice f
  | .builtin b, f, h => by cases h; trivial
  | .string, f, h => by cases h; trivial
  | .array t, f, h => by
    simp only [followTy, Option.bind_eq_bind, Option.bind_eq_some_iff] at h
    obtain ⟨e, h1, h⟩ := h
    cases h
    show NoSlice e
    exact followTy_noSlice h1
  | .table _, f, h => by cases h; trivial
  | .struct .., f, h => by cases h
  | .enum _ vs b, f, h => by
    simp only [followTy, Option.bind_eq_bind, Option.bind_eq_some_iff] at h
    obtain ⟨e, h1, h⟩ := h
    cases h
    trivial
  | .union .., f, h => by cases h

open Gen in
theorem kindOf_ref {ty : Ir.Ty} {d : Option Ast.DefaultValue} {f : FTy} (h : kindOf ty d = some (.ref f)) :
    followTy ty = some (.fwdU f) := by
  unfold kindOf at h
  split at h
  all_goals first
    | (cases h; done)
    | (cases h; rfl)
    | skip
  · simp only [Option.bind_eq_bind, Option.bind_eq_some_iff] at h
    obtain ⟨_, _, h⟩ := h
    cases h
  · simp only [Option.bind_eq_bind, Option.bind_eq_some_iff] at h
    obtain ⟨_, _, h⟩ := h
    split at h
    · cases h
    · simp only [Option.bind_eq_some_iff] at h
      obtain ⟨_, _, h⟩ := h
      split at h <;> cases h
  · simp only [Option.bind_eq_bind, Option.bind_eq_some_iff] at h
    obtain ⟨e, h1, h⟩ := h
    cases h
    simp only [followTy, h1, Option.bind_eq_bind, Option.bind_some]
    rfl
  · split at h
    · simp only [Option.map_eq_some_iff] at h
      obtain ⟨_, _, h⟩ := h
      cases h
    · cases h

open Gen in
theorem kindOf_noSlice {ty : Ir.Ty} {d : Option Ast.DefaultValue} {k : Kind} (h : kindOf ty d = some k) : NoSliceKind k := by
  cases k with
  | scalar t d => trivial
  | enum t vals d' => trivial
  | ref f => exact followTy_noSlice (f := .fwdU f) (kindOf_ref h)
  | union vs =>
    obtain ⟨_, _, uvs, _, _, hm⟩ := kindOf_union h
    intro f hf
    obtain ⟨j, hj, rfl⟩ := List.mem_iff_getElem.mp hf
    obtain ⟨u, _, h2⟩ := mapM_getElem hm j hj
    exact followTy_noSlice h2

open Gen in
theorem compile_noSlice {gm : Mode} {t : Ir.Table} {gs : List GField} (h : compileTable gm t = some gs) :
    ∀ g ∈ gs, NoSliceKind g.kind := by
  intro g hg
  obtain ⟨j, hj, rfl⟩ := List.mem_iff_getElem.mp hg
  have := List.forall₂_iff_get.mp (compileFields_spec (compileTable_fields h))
  exact kindOf_noSlice (this.2 j (by omega) hj).kind

open Gen in
/-- Nothing but vectors and tables reads from memory. -/
theorem readVal_other {w : Nat} {gm m : Mode} {S : Tables} {n : Nat} {ty : Ir.Ty} {f : FTy} {x : f.Inner}
    (hv : ∀ t e (h : f = .fwdU (.vector e)), ty = .array t →
      All P (readVal w gm m S (n + 1) (.array t) (.fwdU (.vector e)) (h ▸ x)))
    (ht : ∀ q (h : f = .fwdU .table), ty = .table q → All P (readVal w gm m S (n + 1) (.table q) (.fwdU .table) (h ▸ x))) :
    All P (readVal w gm m S (n + 1) ty f x) := by
  cases ty with
  | builtin b => cases f <;> first | (simp only [readVal]; exact All.lift _) | exact All.pure _
  | enum id vs b => cases f <;> first | (simp only [readVal]; exact All.lift _) | exact All.pure _
  | string =>
    cases f with
    | fwdU f => cases f <;> first | (simp only [readVal]; exact All.lift _) | exact All.pure _
    | _ => simp only [readVal]; exact All.lift _
  | array t =>
    cases f with
    | fwdU f =>
      cases f with
      | vector e => exact hv t e rfl rfl
      | _ => simp only [readVal]; exact All.lift _
    | _ => simp only [readVal]; exact All.lift _
  | table q =>
    cases f with
    | fwdU f =>
      cases f with
      | table => exact ht q rfl rfl
      | _ => simp only [readVal]; exact All.lift _
    | _ => simp only [readVal]; exact All.lift _
  | _ => cases f <;> (simp only [readVal]; exact All.lift _)

open Gen in
theorem readVal_in {w : Nat} (hw : 32 ≤ w) {B : Prop} {gm m : Mode} {S : Tables} : ∀ (n : Nat) (ty : Ir.Ty) (f : FTy)
    (x : f.Inner), NoSlice f → NoBool f → All (InV B) (readVal w gm m S n ty f x) := by
  intro n
  induction n with
  | zero => intro ty f x _ _; exact All.lift _
  | succ n ih =>
    intro ty f x hs hb
    refine readVal_other (fun t e he hty => ?_) fun q he hty => ?_
    · subst he
      simp only [readVal]
      refine All.bind (vecLen_in hw _) fun len _ => All.bind (mapAll_all fun i _ => ?_) fun _ _ => All.pure _
      exact All.bind (vecGet_in hw _ (NoSlice.noWide (f := e) hs) fun _ => hb) fun y _ => ih _ _ _ hs hb
    · subst he
      simp only [readVal]
      cases hq : S q with
      | none => exact All.lift _
      | some t =>
        dsimp only
        cases hc : compileTable gm t with
        | none => exact All.lift _
        | some gs =>
          dsimp only
          refine All.bind (mapAll_all fun i _ => ?_) fun _ _ => All.pure _
          cases hf : t.fields[i.val]? with
          | none => exact All.lift _
          | some f =>
            have hnb := compile_noBool hc
            have hns := compile_noSlice hc
            have hk := hnb _ (List.getElem_mem i.isLt)
            have hk' := hns _ (List.getElem_mem i.isLt)
            dsimp only
            refine readField_all (accessor_in hw _ _ hk' fun _ => ⟨hk, hnb⟩) fun y hy => ?_
            clear hy
            change NoBoolKind (gs.get i).kind at hk
            change NoSliceKind (gs.get i).kind at hk'
            generalize (gs.get i).kind = k at *
            refine readKind_all (fun f h => ?_) fun vs h id en uvs u _ _ => ?_
            · subst h
              exact ih _ _ _ hk' hk
            · subst h
              obtain ⟨j, z⟩ := y
              exact ih _ _ _ (hk' _ (List.getElem_mem _)) (hk _ (List.getElem_mem _))

end Butte.Word
