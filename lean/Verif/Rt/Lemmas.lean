import Verif.Rt.Abs
/-
Helper lemmas on bytes, slices and scalars.
-/
namespace Butte

@[simp] theorem leBytes_length (k n : Nat) : (leBytes k n).length = k := by
  induction k generalizing n with
  | zero => rfl
  | succ k ih => simp [leBytes, ih]

theorem leNat_leBytes (k n : Nat) : leNat (leBytes k n) = n % 256 ^ k := by
  induction k generalizing n with
  | zero => simp [leBytes, leNat, Nat.mod_one]
  | succ k ih =>
    simp only [leBytes, leNat, ih, UInt8.toNat_ofNat']
    rw [Nat.pow_succ 256, Nat.mul_comm (256 ^ k) 256, Nat.mod_mul]

theorem leBytes_getElem? (k n i : Nat) (h : i < k) : (leBytes k n)[i]? = some (UInt8.ofNat (n / 256 ^ i)) := by
  induction k generalizing n i with
  | zero => omega
  | succ k ih =>
    cases i with
    | zero => simp [leBytes]
    | succ i =>
      simp only [leBytes, List.getElem?_cons_succ]
      rw [ih (n / 256) i (by omega), Nat.div_div_eq_div_mul, Nat.pow_succ', Nat.mul_comm]

theorem leNat_lt (bs : Bytes) : leNat bs < 256 ^ bs.length := by
  induction bs with
  | nil => simp [leNat]
  | cons b bs ih =>
    simp only [leNat, List.length_cons, Nat.pow_succ]
    have := b.toNat_lt
    omega

theorem leBytes_leNat (bs : Bytes) : leBytes bs.length (leNat bs) = bs := by
  induction bs with
  | nil => rfl
  | cons b bs ih =>
    simp only [leNat, List.length_cons, leBytes]
    have hb := b.toNat_lt
    have h1 : (b.toNat + 256 * leNat bs) / 256 = leNat bs := by omega
    rw [h1, ih]
    congr 1
    apply UInt8.toNat_inj.mp
    simp

@[simp] theorem STy.size_pos (t : STy) : 0 < t.size := by cases t <;> decide
@[simp] theorem STy.size_le (t : STy) : t.size ≤ 8 := by cases t <;> decide
@[simp] theorem PTy.size_pos (p : PTy) : 0 < p.size := by cases p <;> simp [PTy.size]
@[simp] theorem PTy.size_le (p : PTy) : p.size ≤ 8 := by cases p <;> simp [PTy.size]

theorem STy.card_le (t : STy) : t.card ≤ 256 ^ t.size := by cases t <;> decide

@[simp] theorem SVal.bytes_length {t : STy} (v : SVal t) : v.bytes.length = t.size := by
  simp [SVal.bytes]

theorem SVal.ofBytes_bytes {t : STy} (v : SVal t) : SVal.ofBytes t v.bytes = v := by
  have h2 := leNat_leBytes t.size v.val
  rw [Nat.mod_eq_of_lt (Nat.lt_of_lt_of_le v.isLt t.card_le)] at h2
  unfold SVal.ofBytes SVal.bytes
  rw [List.take_of_length_le (by simp), h2]
  by_cases hb : t = .bool
  · subst hb
    have := v.isLt
    have h3 : v.val = 0 ∨ v.val = 1 := by simp [STy.card] at this; omega
    apply Fin.ext
    rcases h3 with h3 | h3 <;> simp [h3, STy.card]
  · simp only [hb, if_false]
    apply Fin.ext
    simp [Fin.ofNat, Nat.mod_eq_of_lt v.isLt]

theorem SVal.bytes_ofBytes {t : STy} (ht : t ≠ .bool) (bs : Bytes) (h : bs.length = t.size) :
    (SVal.ofBytes t bs).bytes = bs := by
  unfold SVal.ofBytes SVal.bytes
  rw [List.take_of_length_le (by omega)]
  simp only [ht, if_false, Fin.ofNat]
  have hc : t.card = 256 ^ t.size := by cases t <;> first | contradiction | decide
  rw [Nat.mod_eq_of_lt]
  · rw [← h]; exact leBytes_leNat bs
  · rw [hc, ← h]; exact leNat_lt bs

theorem ofBytes_take (t : STy) (bs : Bytes) : SVal.ofBytes t (bs.take t.size) = SVal.ofBytes t bs := by
  unfold SVal.ofBytes; rw [List.take_take, Nat.min_self]

@[simp] theorem u32v_val (n : Nat) : (u32v n).val = n % 2 ^ 32 := rfl
@[simp] theorem u16v_val (n : Nat) : (u16v n).val = n % 2 ^ 16 := rfl

theorem PVal.pushBytes_length {m : Mode} {p : PTy} {v : PVal p} {r : Nat} {bs : Bytes}
    (h : v.pushBytes m r = .ok bs) : bs.length = p.size := by
  cases p with
  | sc t => simp only [PVal.pushBytes] at h; cases h; exact SVal.bytes_length (t := t) v
  | off =>
    simp only [PVal.pushBytes] at h
    obtain ⟨s, _, h⟩ := Res.bind_eq_ok.mp h
    obtain ⟨n, _, h⟩ := Res.bind_eq_ok.mp h
    cases h; simp [PTy.size]

/-! slices -/

@[simp] theorem splice_length (s : Bytes) (a : Nat) (bs : Bytes) (h : a + bs.length ≤ s.length) :
    (splice s a bs).length = s.length := by
  simp [splice]; omega

theorem splice_append (pre mid post bs : Bytes) (h : bs.length = mid.length) :
    splice (pre ++ (mid ++ post)) pre.length bs = pre ++ (bs ++ post) := by
  unfold splice
  rw [List.take_left']; rotate_left
  · rfl
  rw [List.drop_append, List.drop_of_length_le (by omega)]
  rw [List.drop_append, List.drop_of_length_le (by omega)]
  simp [h]

theorem splice_append' (pre mid post bs : Bytes) (n : Nat) (hn : n = pre.length)
    (h : bs.length = mid.length) :
    splice (pre ++ (mid ++ post)) n bs = pre ++ (bs ++ post) := by
  subst hn; exact splice_append _ _ _ _ h

theorem splice_shift (pre d bs : Bytes) (l : Nat) :
    splice (pre ++ d) (pre.length + l) bs = pre ++ splice d l bs := by
  unfold splice
  rw [List.take_append, List.drop_append]
  simp [List.take_of_length_le, List.drop_of_length_le, Nat.add_assoc]

theorem sliceGet_shift (pre d : Bytes) (a b : Nat) :
    sliceGet (pre ++ d) (pre.length + a) (pre.length + b) = sliceGet d a b := by
  unfold sliceGet
  simp only [List.length_append, Nat.add_le_add_iff_left]
  split
  · rw [List.drop_append]
    simp [List.drop_of_length_le, Nat.add_sub_add_left]
  · rfl

theorem addU_ok {m : Mode} {a b : Nat} (h : a + b < 2 ^ 64) : addU m a b = .ok (a + b) := by
  simp [addU, addW, h]

theorem addW_ok {w : Nat} {m : Mode} {a b : Nat} (h : a + b < 2 ^ w) : addW w m a b = .ok (a + b) := by
  simp [addW, h]

theorem subW_ok {w : Nat} {m : Mode} {a b : Nat} (h : b ≤ a) : subW w m a b = .ok (a - b) := by
  simp [subW, h]

theorem mulW_ok {w : Nat} {m : Mode} {a b : Nat} (h : a * b < 2 ^ w) : mulW w m a b = .ok (a * b) := by
  simp [mulW, h]

theorem subU_ok {m : Mode} {a b : Nat} (h : b ≤ a) : subU m a b = .ok (a - b) := subW_ok h

theorem mulU_ok {m : Mode} {a b : Nat} (h : a * b < 2 ^ 64) : mulU m a b = .ok (a * b) := mulW_ok h

theorem isizeMax_lt : isizeMax < 2 ^ 63 := by decide

theorem readScalarAt_shift (m : Mode) (t : STy) (pre d : Bytes) (l : Nat)
    (h : pre.length + l + 8 < 2 ^ 64) :
    readScalarAt m t (pre ++ d) (pre.length + l) = readScalarAt m t d l := by
  unfold readScalarAt
  have := t.size_le
  rw [addU_ok (by omega), addU_ok (by omega)]
  simp only [Res.ok_bind]
  rw [Nat.add_assoc, sliceGet_shift]

theorem readNatAt_shift (m : Mode) (t : STy) (pre d : Bytes) (l : Nat)
    (h : pre.length + l + 8 < 2 ^ 64) :
    readNatAt m t (pre ++ d) (pre.length + l) = readNatAt m t d l := by
  unfold readNatAt; rw [readScalarAt_shift _ _ _ _ _ h]

theorem readNatAt_lt {m : Mode} {t : STy} {d : Bytes} {l n : Nat} (h : readNatAt m t d l = .ok n) :
    n < t.card := by
  unfold readNatAt at h
  obtain ⟨v, _, h⟩ := Res.bind_eq_ok.mp h
  cases h; exact v.isLt

theorem asBytes_shift (m : Mode) (pre d : Bytes) (l : Nat) (h : pre.length + l + 65544 < 2 ^ 64) :
    VTable.asBytes m ⟨pre ++ d, pre.length + l⟩ = VTable.asBytes m ⟨d, l⟩ := by
  unfold VTable.asBytes VTable.numBytes
  simp only
  rw [readNatAt_shift _ _ _ _ _ (by omega)]
  cases hr : readNatAt m .u16 d l with
  | ok n =>
    have hn := readNatAt_lt hr
    simp only [STy.card, STy.size] at hn
    simp only [Res.ok_bind]
    rw [addU_ok (by omega), addU_ok (by omega)]
    simp only [Res.ok_bind]
    rw [Nat.add_assoc, sliceGet_shift]
  | err e => rfl
  | panic => rfl

end Butte
