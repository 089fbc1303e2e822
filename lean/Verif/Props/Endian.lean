import Verif.Rt.Endian
/-
C96: the order of bytes of the machine does not matter.
-/
namespace Butte

/-- `emplace_scalar` stores the same bytes on machines of either order, and these are the ones the model says. -/
theorem C96_emplace (o : Order) {t : STy} (s : Bytes) (x : SVal t) : emplaceScalarOn o s x = emplaceScalar s x := by
  unfold emplaceScalarOn emplaceScalar
  rw [store_toLittleEndian]

example : emplaceScalarOn .big [9, 9, 9, 9, 9] (t := .u32) ⟨0x01020304, by decide⟩ = .ok [4, 3, 2, 1, 9] := by decide +kernel

/-- `read_scalar` reads the same value from the same bytes on machines of either order. -/
theorem C96_read (o : Order) (t : STy) (s : Bytes) : readScalarOn o t s = readScalar t s := by
  unfold readScalarOn readScalar
  by_cases h : t.size ≤ s.length
  · rw [if_pos h, if_pos h, fromLittleEndian_fetch]
    rw [List.length_take]
    exact Nat.le_min.mpr ⟨Nat.le_refl _, h⟩
  · rw [if_neg h, if_neg h]

example : readScalarOn .big .i16 [0xfe, 0xff, 7] = .ok ⟨0xfffe, by decide⟩ := by decide +kernel
example : (Order.big.fetch .i16 [0xfe, 0xff]).val = 0xfeff := by decide +kernel

/-- A value written on one machine is read back on every other. -/
theorem C96_portable (o o' : Order) {t : STy} (s s' : Bytes) (x : SVal t) (h : emplaceScalarOn o s x = .ok s') :
    readScalarOn o' t s' = .ok x ∧ s'.drop t.size = s.drop t.size ∧ s'.length = s.length := by
  rw [C96_emplace] at h
  unfold emplaceScalar at h
  by_cases hl : t.size ≤ s.length
  · rw [if_pos hl] at h
    obtain rfl : splice s 0 x.bytes = s' := by simpa using h
    have e : splice s 0 x.bytes = x.bytes ++ s.drop t.size := by simp [splice]
    rw [C96_read]
    refine ⟨?_, ?_, ?_⟩
    · unfold readScalar
      rw [e, if_pos (by simp), List.take_append_of_le_length (by simp), List.take_of_length_le (by simp), SVal.ofBytes_bytes]
    · rw [e, List.drop_append_of_le_length (by simp), List.drop_of_length_le (by simp)]; rfl
    · rw [e]; simp; omega
  · rw [if_neg hl] at h; exact absurd h (by simp)

example : emplaceScalarOn .big [0, 0, 0] (t := .u16) ⟨258, by decide⟩ = .ok [2, 1, 0] := by decide +kernel

/-- `byte_swap_f32` and `byte_swap_f64` (and `swap_bytes`) undo themselves, and the two conversions undo each other. -/
theorem C96_swap_back (o : Order) {t : STy} (x : SVal t) :
    (t ≠ .bool → x.swap.swap = x) ∧ fromLittleEndian o (toLittleEndian o x) = x ∧ toLittleEndian o (fromLittleEndian o x) = x := by
  have hs : t ≠ .bool → x.swap.swap = x := fun h => by
    apply Fin.ext
    rw [SVal.swap_val h, SVal.swap_val h, swapBytes_swapBytes, ← STy.card_eq h]
    exact Nat.mod_eq_of_lt x.isLt
  refine ⟨hs, ?_⟩
  by_cases h : t.size = 1
  · simp [toLittleEndian_one o h, fromLittleEndian_one o h]
  · cases o with
    | little => simp [toLittleEndian_little, fromLittleEndian_little]
    | big => simp [toLittleEndian_big h, fromLittleEndian_big h, hs (ne_bool_of_size h)]

example : (SVal.swap (t := .f32) ⟨0x3f800000, by decide⟩).val = 0x803f := by decide +kernel

/-- `safe_slice` gives the same items on machines of either order, for the types it exists for. -/
theorem C96_slice (o : Order) (m : Mode) (t : STy) (h : SafeSlice o t) (buf : Bytes) (loc : Nat) :
    safeSliceOn o m t buf loc = followSlice m t buf loc := by
  unfold safeSliceOn followSlice readNatAt readScalarAt
  simp only [C96_read, castSliceOn_eq (fetch_of_safe h)]
  have e4 : STy.u32.size = 4 := rfl
  rw [e4]
  cases debugAssert m (decide (0 < t.size)) with
  | ok u =>
    cases ha : addU m loc 4 with
    | ok e =>
      cases hs : sliceGet buf loc e with
      | ok s =>
        cases hr : readScalar .u32 s with
        | ok v => simp only [Res.ok_bind, Res.err_bind, Res.panic_bind, hs, hr]; try rfl
        | _ => simp only [Res.ok_bind, Res.err_bind, Res.panic_bind, hs, hr]; try rfl
      | _ => simp only [Res.ok_bind, Res.err_bind, Res.panic_bind, hs]; try rfl
    | _ => rfl
  | _ => rfl

example : SafeSlice .big .i8 ∧ safeSliceOn .big .debug .i8 [2, 0, 0, 0, 0xff, 7] 0 = .ok [⟨255, by decide⟩, ⟨7, by decide⟩] :=
  ⟨trivial, by decide +kernel⟩
example : SafeSlice .little .u16 ∧ safeSliceOn .little .debug .u16 [1, 0, 0, 0, 1, 2] 0 = .ok [⟨513, by decide⟩] :=
  ⟨rfl, by decide +kernel⟩

/-- `create_vector_direct` copies the little-endian bytes of the items, for the types it exists for. -/
theorem C96_direct (o : Order) {t : STy} (h : SafeSlice o t) (items : List (SVal t)) :
    sliceMemory o items = (items.map SVal.bytes).flatten := by
  unfold sliceMemory
  rcases size_of_safe h with rfl | h1
  · rfl
  · congr 2
    funext x
    rw [SVal.bytes, h1, store_one]

example : sliceMemory .little [(⟨258, by decide⟩ : SVal .u16)] = [2, 1] := by decide +kernel

/-- `SafeSliceAccess` has an implementation for exactly the types, other than `bool`, whose items are the same in memory as in a
message: it is withheld from no other type for which a slice would be right, and given to none for which it would be wrong. -/
theorem C96_exactly (o : Order) (t : STy) :
    SafeSlice o t ↔ t ≠ .bool ∧ ∀ n bs, n * t.size = bs.length → castSliceOn o t n bs = castSlice t n bs := by
  constructor
  · intro h
    refine ⟨?_, fun n bs _ => castSliceOn_eq (fetch_of_safe h) n bs⟩
    rintro rfl
    exact h
  · rintro ⟨hb, h⟩
    cases o with
    | little => cases t <;> first | trivial | rfl | exact absurd rfl hb
    | big =>
      have key : ∀ t : STy, t.size ≠ 1 → castSliceOn .big t 1 (1 :: List.replicate (t.size - 1) 0) ≠ castSlice t 1 (1 :: List.replicate (t.size - 1) 0) := by
        intro t; cases t <;> decide +kernel
      by_cases h1 : t.size = 1
      · cases t <;> first | trivial | exact absurd rfl hb | exact absurd h1 (by decide)
      · refine absurd (h 1 _ ?_) (key t h1)
        have : 0 < t.size := by cases t <;> decide
        simp; omega

end Butte
