import Verif.Rt.ReadLemmas
import Verif.Rt.Sample
/-
Properties C01–C04 and C30–C32: scalars, strings and safety of reading untrusted bytes.
-/
namespace Butte

/-! ### C01 -/

/-- **C01** `emplace_scalar(&mut buf[pos..], x)` succeeds when there is room; it stores the little-endian bytes
of `x` at `pos`, changes nothing else, and both `read_scalar` and `read_scalar_at` give `x` back. -/
theorem C01_scalar_round_trip (m : Mode) (t : STy) (x : SVal t) (buf : Bytes) (pos : Nat) (hv : buf.Valid)
    (h : pos + t.size ≤ buf.length) :
    ∃ s, emplaceScalar (buf.drop pos) x = .ok s ∧
      readScalar t s = .ok x ∧
      readScalarAt m t (buf.take pos ++ s) pos = .ok x ∧
      (buf.take pos ++ s).length = buf.length ∧
      (∀ i, i < t.size → (buf.take pos ++ s)[pos + i]? = some (UInt8.ofNat (x.val / 256 ^ i))) ∧
      (∀ i, i < pos ∨ pos + t.size ≤ i → (buf.take pos ++ s)[i]? = buf[i]?) := by
  have hlen : (buf.drop pos).length = buf.length - pos := by simp
  have hb := SVal.bytes_length x
  refine ⟨splice (buf.drop pos) 0 x.bytes, ?_, ?_, ?_, ?_, ?_, ?_⟩
  · unfold emplaceScalar; rw [if_pos (by omega)]
  · unfold readScalar splice
    rw [if_pos (by simp)]
    rw [ofBytes_take]
    simp only [List.take_zero, List.nil_append]
    rw [← ofBytes_take, List.take_left' hb, SVal.ofBytes_bytes]
  · have hl : (buf.take pos ++ splice (buf.drop pos) 0 x.bytes).length = buf.length := by
      rw [List.length_append, splice_length _ _ _ (by omega)]; simp; omega
    rw [readScalarAt_eq m t _ pos (by unfold Bytes.Valid at *; omega) (by
      have hi : isizeMax = 2 ^ 63 - 1 := rfl
      unfold Bytes.Valid at hv; omega)]
    rw [if_pos (by omega), List.drop_left' (by simp; omega)]
    unfold splice
    simp only [List.take_zero, List.nil_append]
    rw [← ofBytes_take, List.take_left' hb, SVal.ofBytes_bytes]
  · rw [List.length_append, splice_length _ _ _ (by omega)]; simp; omega
  · intro i hi
    have hp : (buf.take pos).length = pos := by simp; omega
    rw [List.getElem?_append_right (by omega), hp]
    unfold splice
    simp only [List.take_zero, List.nil_append]
    rw [List.getElem?_append_left (by omega)]
    have e : pos + i - pos = i := by omega
    rw [e]
    exact leBytes_getElem? _ _ _ hi
  · intro i hi
    have hp : (buf.take pos).length = pos := by simp; omega
    rcases hi with hi | hi
    · rw [List.getElem?_append_left (by omega), List.getElem?_take_of_lt hi]
    · rw [List.getElem?_append_right (by omega), hp]
      unfold splice
      simp only [List.take_zero, List.nil_append]
      rw [List.getElem?_append_right (by omega), hb, List.getElem?_drop, List.getElem?_drop]
      congr 1; omega

/-- Concrete case: -0.0 as `f64` in the middle of a buffer. -/
example : ∃ (buf : Bytes) (x : SVal .f64), buf.Valid ∧ 1 + STy.size .f64 ≤ buf.length ∧ x.val = 2 ^ 63 :=
  ⟨List.replicate 10 7, (⟨2 ^ 63, by decide⟩ : Fin (2 ^ 64)), by decide, by decide, rfl⟩

/-- **C01** for bytes of any origin: a read inside the buffer gives the value whose little-endian bytes are
there, and for `bool` it gives `true` exactly for the non-zero bytes. -/
theorem C01_read_value (m : Mode) (t : STy) (buf : Bytes) (pos : Nat) (hv : buf.Valid)
    (h : pos + t.size ≤ buf.length) :
    ∃ x : SVal t, readScalarAt m t buf pos = .ok x ∧
      (t ≠ .bool → ∀ i, i < t.size → buf[pos + i]? = some (UInt8.ofNat (x.val / 256 ^ i))) ∧
      (t = .bool → x.val = if buf[pos]? = some 0 then 0 else 1) := by
  have hi : isizeMax = 2 ^ 63 - 1 := rfl
  have hp : pos < 2 ^ 64 := by unfold Bytes.Valid at hv; omega
  refine ⟨_, (readScalarAt_eq m t buf pos hv hp).trans (if_pos h), ?_, ?_⟩
  · intro ht i hlt
    have hl : ((buf.drop pos).take t.size).length = t.size := by simp; omega
    have hb : (SVal.ofBytes t ((buf.drop pos).take t.size)).bytes = (buf.drop pos).take t.size :=
      SVal.bytes_ofBytes ht _ hl
    rw [ofBytes_take] at hb
    have hg := leBytes_getElem? t.size (SVal.ofBytes t (buf.drop pos)).val i hlt
    rw [← hg]
    change _ = (SVal.bytes _)[i]?
    rw [hb, List.getElem?_take_of_lt hlt, List.getElem?_drop]
  · intro ht
    subst ht
    have h1 : STy.size .bool = 1 := rfl
    obtain ⟨c, r, hd⟩ : ∃ c r, buf.drop pos = c :: r := by
      cases hd : buf.drop pos with
      | nil => have := congrArg List.length hd; simp at this; omega
      | cons c r => exact ⟨c, r, rfl⟩
    have hg : buf[pos]? = some c := by
      have : (buf.drop pos)[0]? = some c := by rw [hd]; rfl
      rw [List.getElem?_drop] at this; exact this
    rw [hg, hd]
    unfold SVal.ofBytes
    simp only [h1, List.take_succ_cons, List.take_zero, leNat, if_true]
    by_cases hc : c = 0
    · subst hc; rfl
    · have : c.toNat ≠ 0 := by
        intro h0; apply hc; exact UInt8.toNat_inj.mp h0
      rw [if_neg (by omega), if_neg (by simpa using hc)]; rfl

/-- Concrete case: the byte 2 read as `bool`. -/
example : ∃ buf : Bytes, buf.Valid ∧ 1 + STy.size .bool ≤ buf.length ∧ buf[1]? = some 2 :=
  ⟨[0, 2, 0], by decide, by decide, rfl⟩

/-! ### C02 -/

/-- **C02** `read_scalar_at` is `Ok` exactly when the bytes are there, `Err(OutOfBounds)` otherwise, and
panics only in a debug build when `loc + size_of::<T>()` overflows `usize`. -/
theorem C02_bounds_checked (m : Mode) (t : STy) (buf : Bytes) (loc : Nat) (hv : buf.Valid) (hl : loc < 2 ^ 64) :
    ((∃ v, readScalarAt m t buf loc = .ok v) ↔ loc + t.size ≤ buf.length) ∧
    (readScalarAt m t buf loc = .panic ↔ m = .debug ∧ 2 ^ 64 ≤ loc + t.size) ∧
    (readScalarAt m t buf loc = .err .outOfBounds ↔
      buf.length < loc + t.size ∧ ¬ (m = .debug ∧ 2 ^ 64 ≤ loc + t.size)) ∧
    (∀ e, readScalarAt m t buf loc = .err e → e = .outOfBounds) := by
  rw [readScalarAt_eq m t buf loc hv hl]
  have hi : isizeMax = 2 ^ 63 - 1 := rfl
  unfold Bytes.Valid at hv
  by_cases h : loc + t.size ≤ buf.length
  · simp [h]; omega
  · simp only [if_neg h]
    by_cases h2 : m = .debug ∧ 2 ^ 64 ≤ loc + t.size
    · simp [h2]; omega
    · simp only [if_neg h2]
      refine ⟨by simp [h], by simp only [reduceCtorEq, false_iff]; exact h2, ?_, ?_⟩
      · simp only [true_iff]; exact ⟨by omega, h2⟩
      · intro e he; cases he; rfl

/-! ### C03 -/

/-- **C03** In a release build no read of any buffer panics: following any type at any location, reading any
slot of any table with any type, the root accessors, vector length, elements, iteration and slices, the
identifier test, and the vtable accessors. -/
theorem C03_readers_never_panic (buf : Bytes) (hv : buf.Valid) :
    (∀ (f : FTy) loc, f.follow .release buf loc ≠ .panic) ∧
    (∀ (f : FTy) loc slot d, Table.get .release ⟨buf, loc⟩ f slot d ≠ .panic) ∧
    (Table.getRoot .release buf ≠ .panic ∧ Table.getSizePrefixedRoot .release buf ≠ .panic) ∧
    (∀ (e : FTy) loc idx, Vec.len .release (⟨buf, loc⟩ : Vec e) ≠ .panic ∧
      Vec.isEmpty .release (⟨buf, loc⟩ : Vec e) ≠ .panic ∧
      Vec.get .release (⟨buf, loc⟩ : Vec e) idx ≠ .panic ∧ Vec.iter .release (⟨buf, loc⟩ : Vec e) ≠ .panic) ∧
    (∀ (t : STy) loc, Vec.safeSlice .release (⟨buf, loc⟩ : Vec (.scalar t)) ≠ .panic) ∧
    (∀ ident sp, ident.length = 4 → bufferHasIdentifier .release buf ident sp ≠ .panic) ∧
    (∀ loc s, VTable.get .release ⟨buf, loc⟩ s ≠ .panic ∧ VTable.getField .release ⟨buf, loc⟩ s ≠ .panic ∧
      VTable.numFields .release ⟨buf, loc⟩ ≠ .panic ∧ VTable.objectInlineNumBytes .release ⟨buf, loc⟩ ≠ .panic ∧
      VTable.asBytes .release ⟨buf, loc⟩ ≠ .panic) := by
  refine ⟨fun f loc => follow_noPanic f buf loc hv, fun f loc slot d => tableGet_noPanic _ f slot d hv,
    ⟨follow_noPanic _ _ _ hv, follow_noPanic _ _ _ hv⟩, fun e loc idx => ⟨readNatAt_noPanic _ _ _, ?_, ?_, ?_⟩,
    fun t loc => followSlice_noPanic _ _ _, ?_, fun loc s => ⟨vtget_noPanic _ _, ?_, ?_, ?_, ?_⟩⟩
  · unfold Vec.isEmpty
    exact NoPanic.bind (readNatAt_noPanic _ _ _) fun _ _ => by simp [Res.NoPanic]
  · unfold Vec.get
    simp only [reduceCtorEq, if_false, debugAssert_release, Res.pure_eq, Res.ok_bind]
    exact NoPanic.bind (addU_noPanic _ _) fun _ _ => NoPanic.bind (mulU_noPanic _ _) fun _ _ =>
      NoPanic.bind (addU_noPanic _ _) fun _ _ => follow_noPanic _ _ _ hv
  · unfold Vec.iter VIter.new Vec.len
    refine NoPanic.bind ?_ fun _ _ => NoPanic.bind (addU_noPanic _ _) fun _ _ => by simp [Res.NoPanic]
    have := readNatAt_noPanic .u32 buf loc
    unfold Res.NoPanic at *
    cases h : readNatAt .release .u32 buf loc <;> simp_all [Res.unwrapOr]
  · intro ident sp hi
    unfold bufferHasIdentifier assert
    simp only [hi, beq_self_eq_true, if_true, Res.ok_bind]
    cases sp
    · exact NoPanic.bind (follow_noPanic _ _ _ hv) fun _ _ => by simp [Res.NoPanic]
    · exact NoPanic.bind (follow_noPanic _ _ _ hv) fun _ _ => by simp [Res.NoPanic]
  · unfold VTable.getField VTable.numFields VTable.numBytes
    refine NoPanic.bind (NoPanic.bind (readNatAt_noPanic _ _ _) fun _ _ => subU_noPanic _ _) fun n _ => ?_
    split
    · simp [Res.NoPanic]
    · exact NoPanic.bind (addU_noPanic _ _) fun _ _ => NoPanic.bind (addU_noPanic _ _) fun _ _ =>
        NoPanic.bind (mulU_noPanic _ _) fun _ _ => NoPanic.bind (addU_noPanic _ _) fun _ _ =>
        NoPanic.bind (readNatAt_noPanic _ _ _) fun _ _ => by simp [Res.NoPanic]
  · unfold VTable.numFields VTable.numBytes
    exact NoPanic.bind (readNatAt_noPanic _ _ _) fun _ _ => subU_noPanic _ _
  · unfold VTable.objectInlineNumBytes
    exact NoPanic.bind (addU_noPanic _ _) fun _ _ => readNatAt_noPanic _ _ _
  · unfold VTable.asBytes VTable.numBytes
    exact NoPanic.bind (readNatAt_noPanic _ _ _) fun _ _ => NoPanic.bind (addU_noPanic _ _) fun _ _ =>
      sliceGet_noPanic _ _ _

/-- The restriction of **C03** to release builds is needed: in a debug build a root offset followed by a
table whose vtable distance is `i32::MIN` makes the reader panic. -/
theorem C03_debug_panics : ∃ buf : Bytes, buf.Valid ∧
    (Table.getRoot .debug buf >>= fun t => t.get .debug (.scalar .u8) 4 none) = .panic :=
  ⟨[4, 0, 0, 0, 0, 0, 0, 0x80], by decide, rfl⟩

/-! ### C04 -/

/-- What a well-formed string at `loc` is: its length prefix, its bytes and its terminator are inside the
buffer, the terminator is 0 and the bytes are those of `s`. -/
def StringAt (buf : Bytes) (loc : Nat) (s : String) : Prop :=
  ∃ len, loc + 4 + len < buf.length ∧ leNat ((buf.drop loc).take 4) = len ∧
    (buf.drop (loc + 4)).take len = s.toByteArray.data.toList ∧ buf[loc + 4 + len]? = some 0

/-- **C04** Reading a string gives `Ok(s)` exactly when `s` is there. -/
theorem C04_string_ok (m : Mode) (buf : Bytes) (loc : Nat) (s : String) (hv : buf.Valid) (hl : loc < 2 ^ 64) :
    FTy.follow m .str buf loc = .ok s ↔ StringAt buf loc s := by
  unfold FTy.follow StringAt
  have hi : isizeMax = 2 ^ 63 - 1 := rfl
  by_cases h4 : loc + 4 < 2 ^ 64
  · rw [followStr_eq m buf loc hv h4]
    constructor
    · intro h
      split at h
      · rename_i hin
        split at h
        · rename_i hz
          split at h
          · rename_i s' hs
            cases h
            exact ⟨_, hin.2, rfl, (fromUTF8?_some.mp hs).symm, hz⟩
          · cases h
        · cases h
      · cases h
    · rintro ⟨len, h1, h2, h3, h5⟩
      rw [h2, if_pos ⟨by omega, h1⟩, if_pos h5, h3]
      have := fromUTF8?_strBytes s
      unfold Builder.strBytes at this
      rw [this]
      rfl
  · constructor
    · intro h
      unfold followStr at h
      obtain ⟨n, hn, h⟩ := Res.bind_eq_ok.mp h
      have := (readNatAt_ok hn hv).1
      have h2 : STy.size .u32 = 4 := rfl
      unfold Bytes.Valid at hv; omega
    · rintro ⟨len, h1, _⟩
      unfold Bytes.Valid at hv; omega

/-- **C04**, the failures: which error is returned, exactly (for `loc + 4` inside `usize`). -/
theorem C04_string_errors (m : Mode) (buf : Bytes) (loc : Nat) (hv : buf.Valid) (hl : loc + 4 < 2 ^ 64) :
    let len := leNat ((buf.drop loc).take 4)
    let inside := loc + 4 ≤ buf.length ∧ loc + 4 + len < buf.length
    (FTy.follow m .str buf loc = .err .outOfBounds ↔ ¬ inside) ∧
    (FTy.follow m .str buf loc = .err .nonNullTerminatedString ↔
      inside ∧ buf[loc + 4 + len]? ≠ some 0) ∧
    (FTy.follow m .str buf loc = .err .nonUtf8String ↔
      inside ∧ buf[loc + 4 + len]? = some 0 ∧ ¬ ∃ s : String, (buf.drop (loc + 4)).take len = s.toByteArray.data.toList) ∧
    FTy.follow m .str buf loc ≠ .panic := by
  simp only
  unfold FTy.follow
  rw [followStr_eq m buf loc hv hl]
  by_cases hin : loc + 4 ≤ buf.length ∧ loc + 4 + leNat ((buf.drop loc).take 4) < buf.length
  · rw [if_pos hin]
    by_cases hz : buf[loc + 4 + leNat ((buf.drop loc).take 4)]? = some 0
    · rw [if_pos hz]
      split
      · rename_i s hs
        have := fromUTF8?_some.mp hs
        unfold Builder.strBytes at this
        exact ⟨⟨nofun, fun h => absurd hin h⟩, ⟨nofun, fun h => absurd hz h.2⟩,
          ⟨nofun, fun h => absurd ⟨s, this.symm⟩ h.2.2⟩, nofun⟩
      · rename_i hs
        refine ⟨⟨nofun, fun h => absurd hin h⟩, ⟨nofun, fun h => absurd hz h.2⟩, ⟨fun _ => ⟨hin, hz, ?_⟩, fun _ => rfl⟩, nofun⟩
        rintro ⟨s, he⟩
        have := (fromUTF8?_some (bs := (buf.drop (loc + 4)).take (leNat ((buf.drop loc).take 4))) (s := s)).mpr he.symm
        rw [this] at hs; cases hs
    · rw [if_neg hz]
      exact ⟨⟨nofun, fun h => absurd hin h⟩, ⟨fun _ => ⟨hin, hz⟩, fun _ => rfl⟩, ⟨nofun, fun h => absurd h.2.1 hz⟩, nofun⟩
  · rw [if_neg hin]
    exact ⟨⟨fun _ => hin, fun _ => rfl⟩, ⟨nofun, fun h => absurd h.1 hin⟩, ⟨nofun, fun h => absurd h.1 hin⟩, nofun⟩

/-- Concrete cases for **C04**, one per outcome. -/
example : StringAt [2, 0, 0, 0, 104, 105, 0, 9] 0 "hi" := ⟨2, by decide, by decide, by decide, by decide⟩
example : FTy.follow .debug .str [2, 0, 0, 0, 104, 105] 0 = .err .outOfBounds := rfl
example : FTy.follow .debug .str [2, 0, 0, 0, 104, 105, 1] 0 = .err .nonNullTerminatedString := rfl
example : FTy.follow .debug .str [1, 0, 0, 0, 0xFF, 0] 0 = .err .nonUtf8String := by
  have : followStr .debug [1, 0, 0, 0, 0xFF, 0] 0 = .err .nonUtf8String := by decide
  exact this

/-! ### C30 -/

/-- **C30** Below the overflow bound the slot of field `i` is `2 * i + 4`, so slots are even, at least 4,
strictly increasing with the index (hence distinct), and `field_offset_to_field_index` inverts the map. -/
theorem C30_field_offsets (m : Mode) :
    (∀ i, i < 32766 → ∃ s, fieldIndexToFieldOffset m i = .ok s ∧ s % 2 = 0 ∧ 4 ≤ s ∧ s < 65536 ∧
      fieldOffsetToFieldIndex m s = .ok i) ∧
    (∀ i j s s', i < j → j < 32766 → fieldIndexToFieldOffset m i = .ok s → fieldIndexToFieldOffset m j = .ok s' →
      s < s') := by
  have key : ∀ i, i < 32766 → fieldIndexToFieldOffset m i = .ok ((i + 2) * 2) := by
    intro i hi
    unfold fieldIndexToFieldOffset
    rw [addW_ok (by omega)]
    simp only [Res.ok_bind]
    rw [mulW_ok (by omega)]
  constructor
  · intro i hi
    refine ⟨_, key i hi, by omega, by omega, by omega, ?_⟩
    unfold fieldOffsetToFieldIndex debugAssert
    rw [if_neg (by simp; omega)]
    simp only [Res.ok_bind]
    rw [subW_ok (by omega)]
    congr 1; omega
  · intro i j s s' hij hj h h'
    rw [key i (by omega)] at h
    rw [key j hj] at h'
    cases h; cases h'; omega

/-- The bound of **C30** is tight: the next index has no slot (debug panics, release wraps to 0). -/
theorem C30_bound_tight : fieldIndexToFieldOffset .debug 32766 = .panic ∧
    fieldIndexToFieldOffset .release 32766 = .ok 0 := by decide

/-! ### C31 -/

/-- The full claim of **C31**. -/
def C31_full (m : Mode) : Prop :=
  ∀ (v : VTable) (nf idx : Nat), v.buf.Valid → v.numFields m = .ok nf → nf ≤ idx → idx < 65536 →
    v.getField m idx = .ok none

/-- **C31 is false** of the code: the guard is `idx > num_fields()`, so the index equal to the number of fields
reads whatever follows the vtable. -/
theorem C31_refuted (m : Mode) : ¬ C31_full m := by
  intro h
  have := h ⟨[6, 0, 8, 0, 4, 0, 7, 0], 0⟩ 1 1 (by decide) (by cases m <;> decide) (by decide) (by decide)
  revert this
  cases m <;> decide

/-- **C31**, the part that holds: indices strictly above `num_fields()` give `None`. Missing: the index
`num_fields()` itself (`C31_refuted`). -/
theorem C31_partial (m : Mode) (v : VTable) (nf idx : Nat) (h : v.numFields m = .ok nf) (hi : nf < idx) :
    v.getField m idx = .ok none := by
  unfold VTable.getField
  rw [h]
  simp only [Res.ok_bind]
  rw [if_pos hi]; rfl

/-! ### C32 -/

/-- The full claim of **C32**. -/
def C32_full (m : Mode) : Prop :=
  ∀ (e : FTy) (v : Vec e) (n idx : Nat), v.buf.Valid → v.len m = .ok n → n ≤ idx → ∀ x, v.get m idx ≠ .ok x

/-- **C32 is false** in release builds: element 1 of a one-element vector is read from what follows it. -/
theorem C32_refuted : ¬ C32_full .release := by
  intro h
  exact h (.scalar .u8) ⟨[1, 0, 0, 0, 5, 6], 0⟩ 1 1 (by decide) (by decide) (by decide) (6 : Fin 256) rfl

/-- **C32** holds in debug builds, where an index out of range panics. Missing: release builds
(`C32_refuted`). -/
theorem C32_partial : C32_full .debug := by
  intro e v n idx hv hn hi x h
  unfold Vec.get at h
  unfold Vec.len at hn
  simp only [if_true] at h
  rw [hn] at h
  simp only [Res.ok_bind] at h
  have : debugAssert .debug (decide (idx < n)) = .panic := by
    unfold debugAssert; rw [if_pos]; simp; omega
  rw [this] at h
  simp at h

example : Vec.len .debug (⟨[1, 0, 0, 0, 5, 6], 0⟩ : Vec (.scalar .u8)) = .ok 1 := by decide

end Butte
