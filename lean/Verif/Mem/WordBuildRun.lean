import Verif.Mem.WordBuildOps
import Verif.Rt.Finish
/-
The remaining calls, one call and a list of calls, with pointers of `w` bits and with 64.
-/
namespace Butte.Word

section
variable {w : Nat} (hw : Width w) {m : Mode}
include hw

theorem four_al {p : PTy} : max p.align 4 ∈ [1, 2, 4, 8] := by
  have := p.max4_maOk
  unfold MAOk at this
  simp only [List.mem_cons, List.not_mem_nil, or_false]
  omega

theorem align_inv {n a : Nat} {b : Butte.Builder} (hb : Inv w b) (ha : a ∈ [1, 2, 4, 8]) (hn : n ≤ 2 ^ (w - 1)) :
    Sim w (fun b' => Inv w b') (fun b' => b'.buf.length) (Builder.align w m b n a) (b.align m n a) := by
  have := hw.two
  have := hb.to.used
  have := hb.len
  exact (align_sim hw hb.to ha hb.al (by omega)).mono fun b' h => hb.moved h.1 h.2

theorem push_inv {p : PTy} {x : PVal p} {b : Butte.Builder} (hb : Inv w b) :
    Sim w (fun r => Inv w r.2) len2 (Builder.push w m b x) (b.push m x) :=
  (push_sim hw hb.to hb.al).mono fun _ h => hb.moved h.1 h.2.1

theorem pushSlotAlways_inv {s : Nat} (hs : s < 65536) {p : PTy} {x : PVal p} {b : Butte.Builder} (hb : Inv w b) :
    Sim w (Inv w) (fun b' => b'.buf.length) (Builder.pushSlotAlways w m b s x) (b.pushSlotAlways m s x) := by
  refine .skip fun _ _ => .bind (push_inv hw hb) ?_ ?_
  · rintro ⟨o, b1⟩ h1
    refine .same (.ok ⟨h1.fit, h1.len, h1.vts, ?_, h1.al, h1.zero⟩)
    intro f hf
    rcases List.mem_append.mp hf with hf | hf
    · exact h1.ids f hf
    · rw [List.mem_singleton.mp hf]; exact hs
  · rintro ⟨o, b1⟩; exact .ok (Nat.le_refl _)

theorem pushSlot_inv {s : Nat} (hs : s < 65536) {p : PTy} {x d : PVal p} {b : Butte.Builder} (hb : Inv w b) :
    Sim w (Inv w) (fun b' => b'.buf.length) (Builder.pushSlot w m b s x d) (b.pushSlot m s x d) := by
  refine .skip fun _ _ => ?_
  split
  · exact .same (.ok hb)
  · exact pushSlotAlways_inv hw hs hb

theorem startVector_inv {p : PTy} {n : Nat} (hn : n * p.size ≤ 2 ^ (w - 1)) {b : Butte.Builder} (hb : Inv w b) :
    Sim w (Inv w) (fun b' => b'.buf.length) (Builder.startVector w m b p n) (b.startVector m p n) := by
  have h2 := hw.two
  have h3 := hw.big
  have h4 := hw.le
  refine .skip fun _ _ => ?_
  dsimp only
  rw [mulW_ok (by omega), mulU_ok (by omega)]
  simp only [Res.ok_bind]
  exact align_inv hw (b := { b with nested := true }) (hb.self rfl rfl rfl (fun _ h => h) fun _ h => h) (four_al hw) hn

theorem endVector_inv {n : Nat} {b : Butte.Builder} (hb : Inv w b) :
    Sim w (fun r => Inv w r.2) len2 (Builder.endVector w m b n) (b.endVector m n) :=
  .skip fun _ _ => push_inv hw (b := { b with nested := false }) (hb.self rfl rfl rfl (fun _ h => h) fun _ h => h)

/-- Space for bytes, once something has been aligned. -/
theorem bytes_inv {x : Bytes} {b : Butte.Builder} (hb : Inv w b) (ha : b.minAlign ∈ [1, 2, 4, 8]) :
    Sim w (fun b' => Inv w b' ∧ b'.minAlign ∈ [1, 2, 4, 8]) (fun b' => b'.buf.length)
      (Builder.pushBytesUnprefixed w m b x) (b.pushBytesUnprefixed m x) :=
  (pushBytesUnprefixed_sim hw hb.to).mono fun b' h => by
    have ha' : b'.minAlign ∈ [1, 2, 4, 8] := by rw [h.2]; exact ha
    exact ⟨hb.moved h.1 ha', ha'⟩

theorem createByteString_inv {x : Bytes} (hx : x.length < 2 ^ (w - 1)) {b : Butte.Builder} (hb : Inv w b) :
    Sim w (fun r => Inv w r.2) len2 (Builder.createByteString w m b x) (b.createByteString m x) := by
  have h2 := hw.two
  have h3 := hw.big
  have h4 := hw.le
  refine .skip fun _ _ => ?_
  rw [addW_ok (by omega), addU_ok (by omega)]
  simp only [Res.ok_bind]
  refine .bind (align_inv hw hb (n := x.length + 1) (a := 4) (by decide) (by omega)) ?_ ?_
  · intro b1 h1
    refine .bind (push_sim hw h1.to h1.al) ?_ ?_
    · rintro ⟨_, b2⟩ ⟨g1, g2, -⟩
      refine .bind (bytes_inv hw (h1.moved g1 g2) g2) ?_ ?_
      · rintro b3 ⟨k1, k2⟩
        refine .bind (push_inv hw k1) ?_ ?_
        · rintro ⟨_, b4⟩ h4
          exact .same (.ok h4)
        · rintro ⟨_, b4⟩; exact .ok (Nat.le_refl _)
      · intro b3
        refine .bind push_longer ?_
        rintro ⟨_, b4⟩ h4
        exact .ok h4
    · rintro ⟨_, b2⟩
      refine .bind pushBytesUnprefixed_longer fun b3 h3 => .bind push_longer ?_
      rintro ⟨_, b4⟩ h4
      exact .ok (Nat.le_trans h3 h4)
  · intro b1
    refine .bind push_longer ?_
    rintro ⟨_, b2⟩ h2
    refine .bind pushBytesUnprefixed_longer fun b3 h3 => .bind push_longer ?_
    rintro ⟨_, b4⟩ h4
    exact .ok (Nat.le_trans h2 (Nat.le_trans h3 h4))

theorem createString_inv {s : String} (hx : (Butte.Builder.strBytes s).length < 2 ^ (w - 1)) {b : Butte.Builder} (hb : Inv w b) :
    Sim w (fun r => Inv w r.2) len2 (Builder.createString w m b s) (b.createString m s) :=
  .skip fun _ _ => createByteString_inv hw hx hb

theorem createVectorDirect_inv {t : STy} {xs : List (SVal t)} (hx : xs.length * t.size ≤ 2 ^ (w - 1)) {b : Butte.Builder}
    (hb : Inv w b) : Sim w (fun r => Inv w r.2) len2 (Builder.createVectorDirect w m b xs) (b.createVectorDirect m xs) := by
  have h2 := hw.two
  have h3 := hw.big
  have h4 := hw.le
  refine .skip fun _ _ => ?_
  rw [mulW_ok (by omega), mulU_ok (by omega)]
  simp only [Res.ok_bind]
  have hu := hb.to.used
  have hl := hb.len
  refine .bind (align_sim hw hb.to (n := xs.length * t.size) (four_al hw (p := .sc t)) hb.al (by omega)) ?_ ?_
  · rintro b1 ⟨g1, g2⟩
    refine .bind (bytes_inv hw (hb.moved g1 g2) g2) ?_ ?_
    · rintro b3 ⟨k1, k2⟩
      refine .bind (push_inv hw k1) ?_ ?_
      · rintro ⟨_, b4⟩ h4
        exact .same (.ok h4)
      · rintro ⟨_, b4⟩; exact .ok (Nat.le_refl _)
    · intro b3
      refine .bind push_longer ?_
      rintro ⟨_, b4⟩ h4
      exact .ok h4
  · intro b1
    refine .bind pushBytesUnprefixed_longer fun b3 h3 => .bind push_longer ?_
    rintro ⟨_, b4⟩ h4
    exact .ok (Nat.le_trans h3 h4)

theorem pushAll_inv {p : PTy} : ∀ {xs : List (PVal p)} {b : Butte.Builder}, Inv w b →
    Sim w (Inv w) (fun b' => b'.buf.length) (Builder.pushAll w m b xs) (b.pushAll m xs)
  | [], b, hb => .same (.ok hb)
  | x :: xs, b, hb => by
    refine .bind (push_inv hw hb) ?_ ?_
    · rintro ⟨_, b1⟩ h1; exact pushAll_inv h1
    · rintro ⟨_, b1⟩; exact pushAll_longer

theorem createVector_inv {p : PTy} {xs : List (PVal p)} (hx : xs.length * p.size ≤ 2 ^ (w - 1)) {b : Butte.Builder}
    (hb : Inv w b) : Sim w (fun r => Inv w r.2) len2 (Builder.createVector w m b xs) (b.createVector m xs) := by
  have h2 := hw.two
  have h3 := hw.big
  have h4 := hw.le
  unfold Builder.createVector Butte.Builder.createVector
  rw [mulW_ok (by omega), mulU_ok (by omega)]
  simp only [Res.ok_bind]
  refine .bind (align_inv hw hb (four_al hw) hx) ?_ ?_
  · intro b1 h1
    refine .bind (pushAll_inv hw h1) ?_ ?_
    · intro b2 h2; exact push_inv hw h2
    · intro b2; exact push_longer
  · intro b1
    exact .bind pushAll_longer fun _ h2 => push_longer.mono fun _ h => Nat.le_trans h2 h

theorem createStrings_inv : ∀ {xs : List String} {acc : List (PVal .off)} {b : Butte.Builder}, Inv w b →
    (∀ s ∈ xs, (Butte.Builder.strBytes s).length < 2 ^ (w - 1)) →
    Sim w (fun r => Inv w r.2 ∧ r.1.length = xs.length + acc.length) len2 (Builder.createStrings w m b xs acc) (b.createStrings m xs acc)
  | [], acc, b, hb, _ => .same (.ok ⟨hb, by simp⟩)
  | s :: xs, acc, b, hb, h => by
    refine .bind (createString_inv hw (h s (by simp)) hb) ?_ ?_
    · rintro ⟨o, b1⟩ h1
      refine (createStrings_inv (xs := xs) (acc := Butte.Builder.offVal o :: acc) h1 fun x hx => h x (by simp [hx])).mono ?_
      rintro r ⟨k1, k2⟩
      exact ⟨k1, by rw [k2]; simp only [List.length_cons]; omega⟩
    · rintro ⟨o, b1⟩; exact createStrings_longer

theorem createVectorOfStrings_inv {xs : List String} (hs : ∀ s ∈ xs, (Butte.Builder.strBytes s).length < 2 ^ (w - 1))
    (hx : xs.length * 4 ≤ 2 ^ (w - 1)) {b : Butte.Builder} (hb : Inv w b) :
    Sim w (fun r => Inv w r.2) len2 (Builder.createVectorOfStrings w m b xs) (b.createVectorOfStrings m xs) := by
  refine .skip fun _ _ => .bind (createStrings_inv hw hb fun s h => hs s (List.mem_reverse.mp h)) ?_ ?_
  · rintro ⟨offs, b1⟩ ⟨h1, h2⟩
    refine createVector_inv hw ?_ h1
    dsimp only at h2
    rw [h2, List.length_reverse]
    exact hx
  · rintro ⟨offs, b1⟩; exact createVector_longer

/-! ### `required` -/

omit hw in
theorem subS_range {m : Mode} {a b d : Int} (h : subS 32 m a b = .ok d) : -(2 ^ 31 : Int) ≤ d ∧ d < 2 ^ 31 := by
  unfold subS at h
  split at h
  · rename_i hc
    cases h
    exact hc
  · cases m with
    | debug => cases h
    | release =>
      cases h
      generalize hk : ofSigned 32 _ = k
      have hk' : k < 2 ^ 32 := by
        subst hk
        unfold ofSigned
        have h1 := Int.emod_lt_of_pos (a - b) (show (0 : Int) < 2 ^ 32 by decide)
        have h2 := Int.emod_nonneg (a - b) (show (2 ^ 32 : Int) ≠ 0 by decide)
        omega
      unfold toSigned
      split <;> omega

omit hw in
theorem get_far {w : Nat} {m : Mode} {vt : Butte.VTable} {slot : Nat} (h : vt.buf.length < vt.loc) :
    (VTable.get w m vt slot).res.expect = .panic := by
  have := readNatAt_far (w := w) (m := m) (t := .u16) h
  unfold VTable.get VTable.numBytes
  simp only [Mem.bind_res]
  cases hn : (readNatAt w m .u16 vt.buf vt.loc).res with
  | ok n => rw [hn] at this; cases this
  | err e => rfl
  | panic => rfl

omit hw in
theorem vtable_far {w : Nat} {m : Mode} {t : Butte.Table} (h : t.buf.length < t.loc) : (Table.vtable w m t).res.expect = .panic := by
  unfold Table.vtable
  rw [follow]
  simp only [Mem.bind_res, Mem.liftM_res]
  cases addW w m t.loc 4 with
  | ok e =>
    simp only [Res.ok_bind]
    unfold sliceGet
    rw [if_neg (by omega)]
    rfl
  | err e => rfl
  | panic => rfl

omit hw in
theorem get_64 {m : Mode} {vt : Butte.VTable} {slot : Nat} : (VTable.get 64 m vt slot).res = vt.get m slot :=
  Mem.VTable.get_res m vt slot

omit hw in
theorem vtable_64 {m : Mode} {t : Butte.Table} : (Table.vtable 64 m t).res = t.vtable m := by
  unfold Table.vtable
  rw [follow_64]
  exact Mem.follow_res m (.backS .vtable) t.buf t.loc

theorem get_same {vt : Butte.VTable} {slot : Nat} (hs : slot < 65536) (h : vt.loc + 65536 + 2 < 2 ^ w) :
    (VTable.get w m vt slot).res = vt.get m slot := by
  have hle := hw.le
  unfold VTable.get Butte.VTable.get VTable.numBytes Butte.VTable.numBytes
  simp only [Mem.bind_res]
  rw [readNatAt_same hw (by show vt.loc + 2 < _; omega)]
  refine bind_congr fun n hn => ?_
  split
  · rfl
  · simp only [Mem.bind_res, Mem.liftM_res, Mem.pure_res]
    rw [addW_ok (by omega), addU_ok (by omega)]
    simp only [Res.ok_bind]
    rw [readNatAt_same hw (by show vt.loc + slot + 2 < _; omega)]
    rfl

theorem required_same {b : Butte.Builder} (hb : Fit w b) {tab slot : Nat} (ht : tab < 2 ^ 32) (hs : slot < 65536) :
    Builder.required w m b tab slot = b.required m tab slot := by
  have h2 := hw.two
  have h3 := hw.big
  have h4 := hw.le
  have h32 : 2 ^ 32 ≤ 2 ^ w := Nat.pow_le_pow_right (by decide) hw.lo
  have hu := hb.used
  have hl := hb.len
  have hlen : (b.buf.drop b.head).length = b.usedSpace := by simp [Butte.Builder.usedSpace]
  unfold Builder.required Butte.Builder.required
  by_cases hle : tab ≤ b.usedSpace
  · rw [subW_ok hle, subU_ok hle]
    simp only [Res.ok_bind]
    generalize hT : ({ buf := b.buf.drop b.head, loc := b.usedSpace - tab } : Butte.Table) = t
    have ht1 : t.buf = b.buf.drop b.head := by rw [← hT]
    have ht2 : t.loc = b.usedSpace - tab := by rw [← hT]
    unfold Table.vtable Butte.Table.vtable
    rw [follow, FTy.follow]
    simp only [Mem.bind_res, Mem.liftM_res, Mem.within_res, Mem.readScalar_res]
    rw [addW_ok (by omega), addU_ok (by omega)]
    simp only [Res.ok_bind]
    cases hsl : sliceGet t.buf t.loc (t.loc + 4) with
    | err e => rfl
    | panic => rfl
    | ok sl =>
    simp only [Res.ok_bind]
    cases hof : Butte.readScalar .i32 sl with
    | err e => rfl
    | panic => rfl
    | ok off =>
    simp only [Res.ok_bind]
    cases hd : subS 32 m (toSigned 32 (t.loc % 2 ^ 32)) (toSigned 32 off.val) with
    | err e => rfl
    | panic => rfl
    | ok d =>
    simp only [Res.ok_bind]
    have hr := subS_range hd
    have hi : (2 : Int) ^ w = ((2 ^ w : Nat) : Int) := by simp
    show (VTable.get w m ⟨t.buf, ofSigned w d⟩ slot).res.expect >>= _ = (Butte.VTable.get m ⟨t.buf, ofSigned 64 d⟩ slot).expect >>= _
    by_cases hnn : 0 ≤ d
    · have e1 : ofSigned 64 d = d.toNat := by
        unfold ofSigned
        rw [Int.emod_eq_of_lt hnn (by omega)]
      have e2 : ofSigned w d = d.toNat := by
        unfold ofSigned
        rw [Int.emod_eq_of_lt hnn (by omega)]
      rw [e1, e2, get_same hw hs (by show d.toNat + 65536 + 2 < _; omega)]
      rfl
    · have e1 : ofSigned 64 d = (d + 2 ^ 64).toNat := by
        unfold ofSigned
        rw [← Int.add_emod_right, Int.emod_eq_of_lt (by omega) (by omega)]
      have e2 : ofSigned w d = (d + 2 ^ w).toNat := by
        unfold ofSigned
        rw [← Int.add_emod_right, Int.emod_eq_of_lt (by omega) (by omega)]
      rw [get_far (by show t.buf.length < ofSigned w d; rw [e2, ht1, hlen]; omega), ← get_64,
        get_far (by show t.buf.length < ofSigned 64 d; rw [e1, ht1, hlen]; omega)]
      rfl
  · unfold subU subW
    rw [if_neg hle, if_neg hle]
    cases m with
    | debug => rfl
    | release =>
      simp only [Res.ok_bind]
      rw [Nat.mod_eq_of_lt (by omega), Nat.mod_eq_of_lt (by omega)]
      rw [vtable_far (by show (b.buf.drop b.head).length < 2 ^ w + b.usedSpace - tab; omega), ← vtable_64,
        vtable_far (by show (b.buf.drop b.head).length < 2 ^ 64 + b.usedSpace - tab; omega)]
      rfl

/-! ### `finish` -/

omit hw in
theorem padding_zero {w s : Nat} (h0 : 0 < s) (h : s < 2 ^ w) : paddingBytes w s 0 = 2 ^ w - s := by
  unfold paddingBytes
  have e1 : (BitVec.ofNat w 0 - 1#w) = BitVec.allOnes w := by
    rw [BitVec.zero_sub, BitVec.neg_one_eq_allOnes]
  rw [e1, BitVec.and_allOnes, ← BitVec.neg_eq_not_add, BitVec.toNat_neg, BitVec.toNat_ofNat, Nat.mod_eq_of_lt h, Nat.mod_eq_of_lt (by omega)]

omit hw in
theorem makeSpace_huge {w : Nat} {m : Mode} {b : Butte.Builder} {n : Nat} (h1 : b.head < n) (h2 : 2 ^ 31 < n) :
    Builder.makeSpace w m b n = .panic := by
  unfold Builder.makeSpace Builder.ensureCapacity
  rw [if_neg (by omega)]
  have : decide (n ≤ maxBufferSize) = false := by
    have : maxBufferSize = 2 ^ 31 := rfl
    simp; omega
  rw [this]
  rfl

omit hw in
theorem makeSpace_huge64 {m : Mode} {b : Butte.Builder} {n : Nat} (h1 : b.head < n) (h2 : 2 ^ 31 < n) :
    b.makeSpace m n = .panic := by
  unfold Butte.Builder.makeSpace Butte.Builder.ensureCapacity
  rw [if_neg (by omega)]
  have : decide (n ≤ maxBufferSize) = false := by
    have : maxBufferSize = 2 ^ 31 := rfl
    simp; omega
  rw [this]
  rfl

theorem finishAlign_inv {n : Nat} (h0 : 0 < n) (hn : n ≤ 12) {b : Butte.Builder} (hb : Inv w b) :
    Sim w (fun b' => Inv w b' ∧ b'.minAlign ∈ [1, 2, 4, 8]) (fun b' => b'.buf.length)
      (Builder.align w m b n b.minAlign) (b.align m n b.minAlign) := by
  have h2 := hw.two
  have h3 := hw.big
  have h4 := hw.le
  have hu := hb.to.used
  have hl := hb.len
  by_cases hz : b.minAlign = 0
  · have hu0 := hb.zero hz
    have e1 : Builder.align w m b n b.minAlign = .panic := by
      unfold Builder.align
      dsimp only
      have hn' : ({ b with minAlign := max b.minAlign b.minAlign } : Butte.Builder).usedSpace = 0 := hu0
      rw [hn', addW_ok (by omega), hz]
      simp only [Res.ok_bind]
      rw [padding_zero (by omega) (by omega)]
      exact makeSpace_huge (by show b.head < _; omega) (by omega)
    have e2 : b.align m n b.minAlign = .panic := by
      unfold Butte.Builder.align
      dsimp only
      have hn' : ({ b with minAlign := max b.minAlign b.minAlign } : Butte.Builder).usedSpace = 0 := hu0
      rw [hn', addU_ok (by omega), hz]
      simp only [Res.ok_bind]
      have : Butte.paddingBytes (0 + n) 0 = 2 ^ 64 - (0 + n) := padding_zero (w := 64) (by omega) (by omega)
      rw [this]
      exact makeSpace_huge64 (by show b.head < _; omega) (by omega)
    rw [e1, e2]
    exact .same .panic
  · have ha : b.minAlign ∈ [1, 2, 4, 8] := by
      have := hb.al
      simp only [List.mem_cons, List.not_mem_nil, or_false] at this ⊢
      omega
    exact (align_sim hw hb.to ha hb.al (by omega)).mono fun b' h => ⟨hb.moved h.1 h.2, h.2⟩

theorem pushIdent_inv {i : Option Bytes} {b : Butte.Builder} (hb : Inv w b) (ha : b.minAlign ∈ [1, 2, 4, 8]) :
    Sim w (Inv w) (fun b' => b'.buf.length) (Builder.pushIdent w m b i) (b.pushIdent m i) := by
  cases i with
  | none => exact .same (.ok hb)
  | some i => exact .skip fun _ _ => (bytes_inv hw hb ha).mono fun _ h => h.1

omit hw in
theorem pushIdent_longer {i : Option Bytes} {b : Butte.Builder} : After (b.pushIdent m i) (Longer b) := by
  cases i with
  | none => exact .ok (Nat.le_refl _)
  | some i => exact .skip fun _ => pushBytesUnprefixed_longer

theorem pushSizePrefix_inv {sp : Bool} {b : Butte.Builder} (hb : Inv w b) :
    Sim w (Inv w) (fun b' => b'.buf.length) (Builder.pushSizePrefix w m b sp) (b.pushSizePrefix m sp) := by
  unfold Builder.pushSizePrefix Butte.Builder.pushSizePrefix
  split
  · refine .bind (push_inv hw hb) ?_ ?_
    · rintro ⟨_, b1⟩ h; exact .same (.ok h)
    · rintro ⟨_, b1⟩; exact .ok (Nat.le_refl _)
  · exact .same (.ok hb)

omit hw in
theorem pushSizePrefix_longer {sp : Bool} {b : Butte.Builder} : After (b.pushSizePrefix m sp) (Longer b) := by
  unfold Butte.Builder.pushSizePrefix
  split
  · refine .bind push_longer ?_
    rintro ⟨_, b1⟩ h; exact .ok h
  · exact .ok (Nat.le_refl _)

theorem finish_inv {root : Nat} {i : Option Bytes} {sp : Bool} {b : Butte.Builder} (hb : Inv w b) :
    Sim w (Inv w) (fun b' => b'.buf.length) (Builder.finishWithOpts w m b root i sp) (b.finishWithOpts m root i sp) := by
  refine .skip fun _ _ => .skip fun _ _ => ?_
  have hb' : Inv w { b with vtables := [] } := hb.self rfl rfl rfl nofun fun _ h => h
  refine .bind (finishAlign_inv hw (by omega) (by split <;> split <;> omega) hb') ?_ ?_
  · rintro b1 ⟨h1, h2⟩
    refine .bind (pushIdent_inv hw h1 h2) ?_ ?_
    · intro b2 h2
      refine .bind (push_inv hw h2) ?_ ?_
      · rintro ⟨_, b3⟩ h3
        refine .bind (pushSizePrefix_inv hw h3) ?_ ?_
        · intro b4 h4
          exact .same (.ok (h4.self rfl rfl rfl (fun _ h => h) fun _ h => h))
        · intro b4; exact .ok (Nat.le_refl _)
      · rintro ⟨_, b3⟩
        exact .bind pushSizePrefix_longer fun b4 h4 => .ok h4
    · intro b2
      refine .bind push_longer ?_
      rintro ⟨_, b3⟩ h3
      exact .bind pushSizePrefix_longer fun b4 h4 => .ok (Nat.le_trans h3 h4)
  · intro b1
    refine .bind pushIdent_longer fun b2 h2 => .bind push_longer ?_
    rintro ⟨_, b3⟩ h3
    exact .bind pushSizePrefix_longer fun b4 h4 => .ok (Nat.le_trans h2 (Nat.le_trans h3 h4))

/-! ### Calls -/

omit hw in
theorem Sim.withRet {x y : Res (Nat × Butte.Builder)} (h : Sim w (fun r => Inv w r.2) len2 x y) :
    Sim w (fun r => Inv w r.2) len2 (Butte.withRet x) (Butte.withRet y) := by
  refine .bind h ?_ ?_
  · rintro ⟨o, b⟩ h; exact .same (.ok h)
  · rintro ⟨o, b⟩; exact .ok (Nat.le_refl _)

omit hw in
theorem Sim.noRet {x y : Res Butte.Builder} (h : Sim w (Inv w) (fun b' => b'.buf.length) x y) :
    Sim w (fun r => Inv w r.2) len2 (Butte.noRet x) (Butte.noRet y) := by
  refine .bind h ?_ ?_
  · intro b h; exact .same (.ok h)
  · intro b; exact .ok (Nat.le_refl _)

end

/-- What is handed to the call fits in the memory of a machine with `w` bits: no slice is longer than `isize::MAX` bytes. -/
def Holds (w : Nat) : Op → Prop
  | .startVector p n => n.val * p.size < 2 ^ (w - 1)
  | .createString s => (Butte.Builder.strBytes s).length < 2 ^ (w - 1)
  | .createByteString bs => bs.length < 2 ^ (w - 1)
  | .createVectorDirect t xs => xs.length * t.size < 2 ^ (w - 1)
  | .createVector p xs => xs.length * p.size < 2 ^ (w - 1)
  | .createVectorOfStrings xs => xs.length * 4 < 2 ^ (w - 1) ∧ ∀ s ∈ xs, (Butte.Builder.strBytes s).length < 2 ^ (w - 1)
  | _ => True

theorem step_sim {w : Nat} (hw : Width w) {m : Mode} {b : Butte.Builder} (hb : Inv w b) {op : Op} (ho : Holds w op) :
    Sim w (fun r => Inv w r.2) len2 (step w m b op) (Butte.step m b op) := by
  cases op with
  | push p x => exact (push_inv hw hb).withRet
  | pushSlot s p x d => exact (pushSlot_inv hw s.isLt hb).noRet
  | pushSlotAlways s p x => exact (pushSlotAlways_inv hw s.isLt hb).noRet
  | startTable =>
    refine Sim.withRet (.skip fun _ _ => .same (.ok ?_))
    exact hb.self rfl rfl rfl (fun _ h => h) fun _ h => h
  | endTable t => exact (endTable_sim hw hb).withRet
  | startVector p n => exact (startVector_inv hw (Nat.le_of_lt ho) hb).noRet
  | endVector n => exact (endVector_inv hw hb).withRet
  | createString s => exact (createString_inv hw ho hb).withRet
  | createByteString bs => exact (createByteString_inv hw ho hb).withRet
  | createVectorDirect t xs => exact (createVectorDirect_inv hw (Nat.le_of_lt ho) hb).withRet
  | createVector p xs => exact (createVector_inv hw (Nat.le_of_lt ho) hb).withRet
  | createVectorOfStrings xs => exact (createVectorOfStrings_inv hw ho.2 (Nat.le_of_lt ho.1) hb).withRet
  | required t s =>
    show Sim w _ _ (Builder.required w m b t s >>= _) (Butte.Builder.required m b t s >>= _)
    rw [required_same hw hb.to t.isLt s.isLt]
    exact .skip fun _ _ => .same (.ok hb)
  | finish r i sp => exact (finish_inv hw hb).noRet
  | reset =>
    refine .same (.ok ?_)
    have hl := hb.len
    have hf := hb.fit
    have e : b.reset.buf.length = b.buf.length := by simp [Butte.Builder.reset]; omega
    have eh : b.reset.head = b.buf.length := rfl
    have eu : b.reset.usedSpace = 0 := by unfold Butte.Builder.usedSpace; omega
    exact ⟨Nat.le_of_eq (by rw [e, eh]), by rw [e]; exact hl, nofun, hb.ids, by simp [Butte.Builder.reset], fun _ => eu⟩

theorem withRet_longer {b : Butte.Builder} {x : Res (Nat × Butte.Builder)} (h : After x fun r => Longer b r.2) :
    After (Butte.withRet x) fun r => Longer b r.2 := .bind h fun _ h => .ok h

theorem noRet_longer {b : Butte.Builder} {x : Res Butte.Builder} (h : After x (Longer b)) :
    After (Butte.noRet x) fun r => Longer b r.2 := .bind h fun _ h => .ok h

theorem step_longer {m : Mode} {b : Butte.Builder} {op : Op} : After (Butte.step m b op) fun r => Longer b r.2 := by
  have sl {s : Nat} {p : PTy} {x : PVal p} : After (b.pushSlotAlways m s x) (Longer b) :=
    .skip fun _ => .bind push_longer fun _ h => .ok h
  cases op with
  | push p x => exact withRet_longer push_longer
  | pushSlot s p x d =>
    refine noRet_longer (.skip fun _ => ?_)
    split
    · exact .ok (Nat.le_refl _)
    · exact sl
  | pushSlotAlways s p x => exact noRet_longer sl
  | startTable => exact withRet_longer (.skip fun _ => .ok (Nat.le_refl _))
  | endTable t =>
    refine withRet_longer (.skip fun _ => .bind (P := fun r => Longer b r.2) (.skip fun _ => .bind push_longer ?_) fun _ h => .ok h)
    rintro ⟨obj, b1⟩ h1
    exact .bind makeSpace_longer fun b2 h2 => vtTail_longer.mono fun _ h => Nat.le_trans h1 (Nat.le_trans h2 h)
  | startVector p n => exact noRet_longer (.skip fun _ => .skip fun _ => align_longer (b := { b with nested := true }))
  | endVector n => exact withRet_longer (.skip fun _ => push_longer (b := { b with nested := false }))
  | createString s => exact withRet_longer createString_longer
  | createByteString bs => exact withRet_longer createByteString_longer
  | createVectorDirect t xs =>
    refine withRet_longer (.skip fun _ => .skip fun _ => .bind align_longer fun b1 h1 =>
      .bind pushBytesUnprefixed_longer fun b3 h3 => .bind push_longer ?_)
    rintro ⟨_, b4⟩ h4
    exact .ok (Nat.le_trans h1 (Nat.le_trans h3 h4))
  | createVector p xs => exact withRet_longer createVector_longer
  | createVectorOfStrings xs =>
    refine withRet_longer (.skip fun _ => .bind createStrings_longer ?_)
    rintro ⟨offs, b1⟩ h1
    exact createVector_longer.mono fun _ h => Nat.le_trans h1 h
  | required t s => exact .skip fun _ => .ok (Nat.le_refl _)
  | finish r i sp =>
    refine noRet_longer (.skip fun _ => .skip fun _ => .bind (align_longer (b := { b with vtables := [] })) fun b1 h1 =>
      .bind pushIdent_longer fun b2 h2 => .bind push_longer ?_)
    rintro ⟨_, b3⟩ h3
    exact .bind pushSizePrefix_longer fun b4 h4 => .ok (Nat.le_trans h1 (Nat.le_trans h2 (Nat.le_trans h3 h4)))
  | reset =>
    refine .ok ?_
    simp [Longer, Butte.Builder.reset]
    omega

theorem run_longer {m : Mode} : ∀ {ops : List Op} {b : Butte.Builder}, After (Butte.run m b ops) fun r => Longer b r.2
  | [], b => .ok (Nat.le_refl _)
  | op :: ops, b => by
    refine .bind step_longer ?_
    rintro ⟨r, b1⟩ h1
    refine .bind (run_longer (ops := ops)) ?_
    rintro ⟨rs, b2⟩ h2
    exact .ok (Nat.le_trans h1 h2)

theorem run_sim {w : Nat} (hw : Width w) {m : Mode} : ∀ {ops : List Op} {b : Butte.Builder}, Inv w b → (∀ op ∈ ops, Holds w op) →
    Sim w (fun r => Inv w r.2) len2 (run w m b ops) (Butte.run m b ops)
  | [], b, hb, _ => .same (.ok hb)
  | op :: ops, b, hb, ho => by
    refine .bind (step_sim hw hb (ho op (by simp))) ?_ ?_
    · rintro ⟨r, b1⟩ h1
      refine .bind (run_sim hw (ops := ops) h1 fun o h => ho o (by simp [h])) ?_ ?_
      · rintro ⟨rs, b2⟩ h2; exact .same (.ok h2)
      · rintro ⟨rs, b2⟩; exact .ok (Nat.le_refl _)
    · rintro ⟨r, b1⟩
      refine .bind (run_longer (ops := ops)) ?_
      rintro ⟨rs, b2⟩ h2
      exact .ok h2

theorem new_inv {w : Nat} {n : Nat} (h : n < 2 ^ (w - 1)) : Inv w
    { buf := List.replicate n 0, head := n, fieldLocs := [], vtables := [], nested := false, finished := false, minAlign := 0 } :=
  ⟨by simp, by simpa using h, nofun, nofun, by simp, fun _ => by simp [Butte.Builder.usedSpace]⟩

theorem new_sim {w : Nat} (hw : Width w) {n : Nat} :
    Sim w (Inv w) (fun b => b.buf.length) (Builder.newWithCapacity w n) (Butte.Builder.newWithCapacity n) := by
  have h3 := hw.big
  refine .skip fun _ _ => ?_
  by_cases h : n < 2 ^ (w - 1)
  · rw [decide_eq_true (by omega : n ≤ 2 ^ (w - 1) - 1)]
    exact .same (.ok (new_inv h))
  · rw [decide_eq_false (by omega : ¬ n ≤ 2 ^ (w - 1) - 1)]
    exact .inr ⟨rfl, .ok (by simpa using h)⟩

end Butte.Word
