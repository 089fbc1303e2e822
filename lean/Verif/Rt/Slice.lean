import Verif.Rt.ReadLemmas
/-
Lemmas about `safe_slice` and `get` on arbitrary bytes.
-/
namespace Butte

theorem Vec.len_inside {m : Mode} {e : FTy} {v : Vec e} {n : Nat} (hv : v.buf.Valid)
    (h : v.len m = .ok n) : v.loc + 4 ≤ v.buf.length ∧ n < 2 ^ 32 ∧ readNatAt m .u32 v.buf v.loc = .ok n := by
  have h0 := h
  have hi : isizeMax = 2 ^ 63 - 1 := rfl
  have hv' := hv
  unfold Bytes.Valid at hv'
  unfold Vec.len readNatAt at h
  obtain ⟨x, hx, h⟩ := Res.bind_eq_ok.mp h
  cases h
  have hl : v.loc < 2 ^ 64 := by
    unfold readScalarAt at hx
    obtain ⟨e, _, hx⟩ := Res.bind_eq_ok.mp hx
    obtain ⟨s, hs, _⟩ := Res.bind_eq_ok.mp hx
    unfold sliceGet at hs
    split at hs
    · omega
    · cases hs
  rw [readScalarAt_eq m .u32 _ _ hv hl] at hx
  split at hx
  · exact ⟨by assumption, x.isLt, h0⟩
  · split at hx <;> cases hx

theorem castSlice_eq (t : STy) (bs : Bytes) : ∀ n k, (k + n) * t.size ≤ bs.length →
    castSlice t n ((bs.drop (k * t.size)).take (n * t.size)) =
      (List.range n).map fun i => SVal.ofBytes t (bs.drop ((k + i) * t.size))
  | 0, _, _ => rfl
  | n + 1, k, h => by
    have ih := castSlice_eq t bs n (k + 1) (by rw [show k + 1 + n = k + (n + 1) by omega]; exact h)
    have e : (n + 1) * t.size - t.size = n * t.size := by rw [Nat.add_mul, Nat.one_mul, Nat.add_sub_cancel]
    have e' : k * t.size + t.size = (k + 1) * t.size := by rw [Nat.add_mul, Nat.one_mul]
    simp only [castSlice]
    rw [List.drop_take, List.drop_drop, e, e', ih, List.range_succ_eq_map, List.map_cons, List.map_map, List.take_take,
      Nat.min_eq_left (by rw [Nat.add_mul, Nat.one_mul]; omega), ofBytes_take]
    congr 1
    refine List.map_congr_left fun i _ => ?_
    simp only [Function.comp_apply, Nat.succ_eq_add_one]
    rw [show k + 1 + i = k + (i + 1) by omega]

/-- `safe_slice`, completely. -/
theorem Vec.safeSlice_eq {m : Mode} {t : STy} {v : Vec (.scalar t)} {n : Nat} (hv : v.buf.Valid) (h : v.len m = .ok n) : v.safeSlice m =
      if v.loc + 4 + n * t.size ≤ v.buf.length then
        .ok ((List.range n).map fun i => SVal.ofBytes t (v.buf.drop (v.loc + 4 + i * t.size)))
      else .err .outOfBounds := by
  obtain ⟨h1, h2, h3⟩ := Vec.len_inside hv h
  have h8 := t.size_le
  have hpos := t.size_pos
  have hi : isizeMax = 2 ^ 63 - 1 := rfl
  have hv' := hv
  unfold Bytes.Valid at hv'
  have hm : n * t.size ≤ n * 8 := Nat.mul_le_mul_left _ h8
  unfold Vec.safeSlice followSlice
  have hd : debugAssert m (decide (0 < t.size)) = .ok () := by
    unfold debugAssert; rw [if_neg]; simp [hpos]
  rw [hd]
  simp only [Res.ok_bind]
  rw [h3]
  simp only [Res.ok_bind]
  rw [addU_ok (by omega)]
  simp only [Res.ok_bind]
  rw [mulU_ok (by omega)]
  simp only [Res.ok_bind]
  rw [addU_ok (by omega)]
  simp only [Res.ok_bind]
  unfold sliceGet
  by_cases hc : v.loc + 4 + n * t.size ≤ v.buf.length
  · rw [if_pos hc, if_pos ⟨by omega, hc⟩]
    simp only [Res.ok_bind, Res.pure_eq]
    have := castSlice_eq t (v.buf.drop (v.loc + 4)) n 0 (by rw [Nat.zero_add, List.length_drop]; omega)
    rw [Nat.zero_mul, List.drop_zero] at this
    rw [show v.loc + 4 + n * t.size - (v.loc + 4) = n * t.size by omega, this]
    simp only [Nat.zero_add, List.drop_drop]
  · rw [if_neg hc, if_neg (by omega)]; rfl

/-- `get` inside the bounds, completely. -/
theorem Vec.get_scalar {m : Mode} {t : STy} {v : Vec (.scalar t)} {n i : Nat} (hv : v.buf.Valid) (h : v.len m = .ok n) (hi : i < n) : v.get m i =
      if v.loc + 4 + i * t.size + t.size ≤ v.buf.length then .ok (SVal.ofBytes t (v.buf.drop (v.loc + 4 + i * t.size)))
      else .err .outOfBounds := by
  obtain ⟨h1, h2, h3⟩ := Vec.len_inside hv h
  have h8 := t.size_le
  have hpos := t.size_pos
  have hi' : isizeMax = 2 ^ 63 - 1 := rfl
  have hv' := hv
  unfold Bytes.Valid at hv'
  have hm : i * t.size ≤ i * 8 := Nat.mul_le_mul_left _ h8
  have hd : ∀ c : Bool, c = true → debugAssert m c = .ok () := by
    intro c hc; unfold debugAssert; rw [if_neg]; simp [hc]
  have hrest : (do
      debugAssert m (decide (0 < (FTy.scalar t).size))
      let a ← addU m v.loc 4
      let b ← mulU m (FTy.scalar t).size i
      let l ← addU m a b
      (FTy.scalar t).follow m v.buf l) = (FTy.scalar t).follow m v.buf (v.loc + 4 + i * t.size) := by
    rw [hd (decide (0 < (FTy.scalar t).size)) (decide_eq_true hpos)]
    simp only [Res.ok_bind]
    rw [addU_ok (by omega)]
    simp only [Res.ok_bind]
    have e : (FTy.scalar t).size = t.size := rfl
    rw [e, mulU_ok (by rw [Nat.mul_comm]; omega)]
    simp only [Res.ok_bind]
    rw [addU_ok (by rw [Nat.mul_comm t.size]; omega), Nat.mul_comm t.size]
    simp only [Res.ok_bind]
  unfold Vec.get
  have : readScalarAt m t v.buf (v.loc + 4 + i * t.size) = _ := readScalarAt_eq m t v.buf _ hv (by omega)
  rw [if_neg (c := m = .debug ∧ _) (by omega)] at this
  split
  · rw [h3]
    simp only [Res.ok_bind]
    rw [hd _ (decide_eq_true hi)]
    simp only [Res.ok_bind]
    exact hrest.trans this
  · exact hrest.trans this

end Butte
