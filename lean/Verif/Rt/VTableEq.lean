import Verif.Rt.ReadLemmas
/-
Equality of vtables in arbitrary bytes.
-/
namespace Butte

/-- A vtable whose bytes can be read, completely. -/
theorem asBytes_ok {m : Mode} {v : VTable} {bs : Bytes} (hv : v.buf.Valid) (h : v.asBytes m = .ok bs) :
    v.loc + 2 ≤ v.buf.length ∧ v.loc + bs.length ≤ v.buf.length ∧ bs = (v.buf.drop v.loc).take bs.length ∧
      v.numBytes m = .ok bs.length := by
  unfold VTable.asBytes at h
  obtain ⟨n, h1, h⟩ := Res.bind_eq_ok.mp h
  obtain ⟨e, h2, h⟩ := Res.bind_eq_ok.mp h
  have hb := readNatAt_lt h1
  have k := (readNatAt_ok h1 hv).1
  have hs : STy.u16.size = 2 := rfl
  have hc : STy.u16.card = 65536 := rfl
  unfold Bytes.Valid at hv
  have hi : isizeMax = 2 ^ 63 - 1 := rfl
  rw [hs] at k
  rw [hc] at hb
  rw [addU_ok (by omega)] at h2
  cases h2
  unfold sliceGet at h
  split at h
  · rename_i hin
    cases h
    have hl : ((v.buf.drop v.loc).take (v.loc + n - v.loc)).length = n := by
      rw [List.length_take, List.length_drop]
      omega
    rw [hl]
    exact ⟨k, hin.2, by rw [Nat.add_sub_cancel_left], h1⟩
  · cases h

/-- Two bytes inside of a vtable are read the same in every place. -/
theorem get_asBytes {m : Mode} {v : VTable} {bs : Bytes} (hv : v.buf.Valid) (h : v.asBytes m = .ok bs) (s : Nat) :
    (bs.length ≤ s → v.get m s = .ok none) ∧
    (s + 2 ≤ bs.length → v.get m s = .ok (some (SVal.ofBytes .u16 (bs.drop s)).val)) := by
  obtain ⟨h1, h2, h3, h4⟩ := asBytes_ok hv h
  have hv' := hv
  unfold Bytes.Valid at hv'
  have hi : isizeMax = 2 ^ 63 - 1 := rfl
  unfold VTable.get
  rw [h4]
  simp only [Res.ok_bind]
  constructor
  · intro hs
    rw [if_pos hs]
    rfl
  · intro hs
    rw [if_neg (by omega), addU_ok (by omega)]
    simp only [Res.ok_bind]
    unfold readNatAt
    rw [readScalarAt_eq _ _ _ _ hv (by omega), if_pos (by show v.loc + s + 2 ≤ _; omega)]
    simp only [Res.ok_bind, Res.pure_eq]
    congr 3
    conv_rhs => rw [← ofBytes_take, h3]
    conv_lhs => rw [← ofBytes_take]
    congr 1
    rw [List.drop_take, List.drop_drop, List.take_take]
    congr 1
    show 2 = min 2 (bs.length - s)
    omega

theorem asBytes_panic {m : Mode} {v : VTable} (hv : v.buf.Valid) (h : m = .debug → v.loc + 2 < 2 ^ 64) : v.asBytes m ≠ .panic := by
  have hv' := hv
  unfold Bytes.Valid at hv'
  have hi : isizeMax = 2 ^ 63 - 1 := rfl
  intro hp
  unfold VTable.asBytes at hp
  cases h1 : v.numBytes m with
  | ok n =>
    rw [h1] at hp
    simp only [Res.ok_bind] at hp
    unfold VTable.numBytes at h1
    have hb := readNatAt_lt h1
    have k := (readNatAt_ok h1 hv).1
    have hs : STy.u16.size = 2 := rfl
    have hc : STy.u16.card = 65536 := rfl
    rw [hs] at k
    rw [hc] at hb
    rw [addU_ok (by omega)] at hp
    exact sliceGet_noPanic _ _ _ hp
  | err e => rw [h1] at hp; cases hp
  | panic =>
    unfold VTable.numBytes readNatAt at h1
    cases m with
    | release =>
      cases h2 : readScalarAt .release .u16 v.buf v.loc with
      | ok x => rw [h2] at h1; cases h1
      | err x => rw [h2] at h1; cases h1
      | panic => exact readScalarAt_noPanic _ _ _ h2
    | debug =>
      have := h rfl
      rw [readScalarAt_eq _ _ _ _ hv (by omega)] at h1
      have hs : STy.u16.size = 2 := rfl
      rw [hs, if_neg (c := Mode.debug = .debug ∧ _) (by omega)] at h1
      split at h1 <;> cases h1

end Butte
