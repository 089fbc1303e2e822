import Verif.Mem.CastRef
import Verif.Rt.ReadLemmas
/-
Property C111: `follow_cast_ref`, with which callers make references to types of their own out of a buffer.
-/
namespace Butte
open Mem

/-- **C111** exactly what `follow_cast_ref` does, for any type, any pointer width, in both builds, for any location and any
bytes: a reference to the location itself if the whole `T` is in the buffer; else an error, or in a debug build a panic if
the end cannot be counted. -/
theorem C111_exact (w : Nat) (m : Mode) (T : TypeLayout) (buf : Bytes) (loc : Nat) (hs : T.size < 2 ^ w) (hl : loc < 2 ^ w)
    (hb : buf.length < 2 ^ w) :
    (loc + T.size ≤ buf.length → followCastRef w m T buf loc = .ok ⟨loc⟩) ∧
    (buf.length < loc + T.size →
      followCastRef w m T buf loc = if m = .debug ∧ 2 ^ w ≤ loc + T.size then .panic else .err .outOfBounds) := by
  constructor
  · intro h
    exact castRef_ok (e := loc + T.size) (if_pos (by omega)) (if_pos ⟨by omega, h⟩)
  · intro h
    by_cases k : loc + T.size < 2 ^ w
    · rw [if_neg (by omega)]
      exact castRef_err (e := loc + T.size) (if_pos k) (if_neg (by omega))
    · cases m with
      | debug =>
        rw [if_pos ⟨rfl, by omega⟩]
        exact castRef_panic (if_neg k)
      | release =>
        rw [if_neg (by simp)]
        refine castRef_err (e := (loc + T.size) % 2 ^ w) (if_neg k) (if_neg ?_)
        rw [Nat.mod_eq_sub_mod (by omega), Nat.mod_eq_of_lt (by omega)]
        omega

/-- **C111** so no reference is outside of the buffer, however wrong the location. -/
theorem C111_inside (w : Nat) (m : Mode) (T : TypeLayout) (buf : Bytes) (loc : Nat) (hs : T.size < 2 ^ w) (hl : loc < 2 ^ w)
    (hb : buf.length < 2 ^ w) (r : CastRef T) (h : followCastRef w m T buf loc = .ok r) : r.off = loc ∧ r.Inside buf := by
  by_cases k : loc + T.size ≤ buf.length
  · rw [(C111_exact w m T buf loc hs hl hb).1 k] at h
    cases h
    exact ⟨rfl, k⟩
  · rw [(C111_exact w m T buf loc hs hl hb).2 (by omega)] at h
    split at h <;> exact nomatch h

/-- **C111** on a scalar type the reference is to the value that `read_scalar_at` reads, and there is one just if there is such a
value. -/
theorem C111_scalar (m : Mode) (t : STy) (T : TypeLayout) (ht : T.size = t.size) (buf : Bytes) (loc : Nat) :
    (followCastRef 64 m T buf loc >>= fun r => pure (SVal.ofBytes t (r.bytes buf))) = Butte.readScalarAt m t buf loc := by
  unfold Butte.readScalarAt
  show _ = addW 64 m loc t.size >>= fun e => sliceGet buf loc e >>= Butte.readScalar t
  cases h : addW 64 m loc t.size with
  | err e => exact absurd h (by unfold addW; split <;> (try split) <;> nofun)
  | panic => rw [castRef_panic (ht ▸ h)]; rfl
  | ok e =>
    rw [castRef_next (ht ▸ h)]
    show _ = sliceGet buf loc e >>= Butte.readScalar t
    cases h2 : sliceGet buf loc e with
    | err e => rfl
    | panic => rfl
    | ok s =>
      obtain ⟨h3, h4, rfl, h6⟩ := sliceGet_len h2
      show Res.ok (SVal.ofBytes t ((buf.drop loc).take T.size)) = Butte.readScalar t _
      have he : e = loc + t.size := by
        unfold addW at h
        split at h
        · exact (Res.ok.inj h).symm
        · cases m with
          | debug => exact nomatch h
          | release =>
            have h5 := Res.ok.inj h
            have : t.size ≤ 8 := by cases t <;> decide
            have : (loc + t.size) % 2 ^ 64 ≤ (loc + t.size) := Nat.mod_le _ _
            have := Nat.mod_add_div (loc + t.size) (2 ^ 64)
            omega
      subst he
      unfold Butte.readScalar
      rw [if_pos (by omega), ht, Nat.add_sub_cancel_left, List.take_take, Nat.min_self]

/-- **C111, refuted** (the reference may be used): for every type that needs any alignment, wherever the buffer is, one of
any two neighbouring locations gives a reference that is not aligned. -/
theorem C111_refuted (w : Nat) (m : Mode) (T : TypeLayout) (ha : T.align ≠ 1) (buf : Bytes) (loc : Nat) (hb : buf.length < 2 ^ w)
    (h : loc + 1 + T.size ≤ buf.length) (addr : Nat) :
    ∃ l r, (l = loc ∨ l = loc + 1) ∧ followCastRef w m T buf l = .ok r ∧ ¬ r.Aligned addr := by
  obtain ⟨k, hk⟩ := T.pow
  have h2 : T.align % 2 = 0 := by
    cases k with
    | zero => exact absurd hk ha
    | succ k => rw [hk, Nat.pow_succ]; omega
  have odd : ∀ x, x % 2 = 1 → x % T.align ≠ 0 := fun x hx hz => by
    have := Nat.mod_mod_of_dvd x (Nat.dvd_of_mod_eq_zero h2)
    rw [hz] at this
    omega
  by_cases p : (addr + loc) % 2 = 1
  · exact ⟨loc, ⟨loc⟩, .inl rfl, (C111_exact w m T buf loc (by omega) (by omega) hb).1 (by omega), odd _ p⟩
  · exact ⟨loc + 1, ⟨loc + 1⟩, .inr rfl, (C111_exact w m T buf (loc + 1) (by omega) (by omega) hb).1 (by omega),
      odd (addr + (loc + 1)) (by omega)⟩

/-- **C111, alignment** (full statement: the reference may be used; missing: types that need alignment, see
`C111_refuted`). For a type of alignment 1, such as an array of bytes or a `repr(packed)` struct, every reference is inside the
buffer and aligned, wherever the buffer is. -/
theorem C111_partial (w : Nat) (m : Mode) (T : TypeLayout) (ha : T.align = 1) (buf : Bytes) (loc : Nat) (hs : T.size < 2 ^ w)
    (hl : loc < 2 ^ w) (hb : buf.length < 2 ^ w) (r : CastRef T) (h : followCastRef w m T buf loc = .ok r) (addr : Nat) :
    r.Inside buf ∧ r.Aligned addr :=
  ⟨(C111_inside w m T buf loc hs hl hb r h).2, by unfold CastRef.Aligned; rw [ha]; exact Nat.mod_one _⟩

/-- **C111, alignment** (full statement: the reference may be used; missing as above). For any type, in a buffer at an
address that is a multiple of its alignment: just the locations that are such multiples too give references that may be used. -/
theorem C111_aligned_partial (w : Nat) (m : Mode) (T : TypeLayout) (buf : Bytes) (loc : Nat) (hs : T.size < 2 ^ w)
    (hl : loc < 2 ^ w) (hb : buf.length < 2 ^ w) (r : CastRef T) (h : followCastRef w m T buf loc = .ok r) (addr : Nat)
    (haddr : T.align ∣ addr) : r.Aligned addr ↔ T.align ∣ loc := by
  unfold CastRef.Aligned
  rw [(C111_inside w m T buf loc hs hl hb r h).1, ← Nat.dvd_iff_mod_eq_zero]
  exact (Nat.dvd_add_iff_right haddr).symm

/-- **C111** what callers must know of their type ("must be safely cast from any bytes and thus have the right … alignment"):
it is enough just if the alignment is 1. -/
theorem C111_contract (w : Nat) (m : Mode) (T : TypeLayout) (hs : T.size + 1 < 2 ^ w) :
    (∀ (buf : Bytes) (loc addr : Nat) (r : CastRef T), buf.length < 2 ^ w → loc < 2 ^ w → followCastRef w m T buf loc = .ok r →
      r.Aligned addr) ↔ T.align = 1 := by
  constructor
  · intro h
    by_contra ha
    have hb : (List.replicate (T.size + 1) (0 : UInt8)).length = T.size + 1 := List.length_replicate
    obtain ⟨l, r, hl, hr, hn⟩ := C111_refuted w m T ha (List.replicate (T.size + 1) 0) 0 (by omega) (by omega) 0
    exact hn (h _ l 0 r (by omega) (by omega) hr)
  · intro ha buf loc addr r hb hl h
    exact (C111_partial w m T ha buf loc (by omega) hl hb r h addr).2

/-! ### Cases -/

/-- A struct of a `u32` and two `u16`. -/
def exLayout : TypeLayout := ⟨8, 4, ⟨2, rfl⟩, ⟨2, rfl⟩⟩

/-- `[u8; 3]`. -/
def exPacked : TypeLayout := ⟨3, 1, ⟨0, rfl⟩, ⟨3, rfl⟩⟩

example : followCastRef 64 .debug exLayout (List.replicate 12 7) 4 = .ok ⟨4⟩ := by decide
example : followCastRef 64 .debug exLayout (List.replicate 12 7) 5 = .err .outOfBounds := by decide
example : followCastRef 32 .debug exLayout (List.replicate 12 7) (2 ^ 32 - 4) = .panic := by decide
example : followCastRef 32 .release exLayout (List.replicate 12 7) (2 ^ 32 - 4) = .err .outOfBounds := by decide
example : ∃ l r, (l = 3 ∨ l = 4) ∧ followCastRef 64 .release exLayout (List.replicate 12 7) l = .ok r ∧ ¬ r.Aligned 1000 :=
  C111_refuted 64 .release exLayout (by decide) (List.replicate 12 7) 3 (by decide) (by decide) 1000
example (r : CastRef exPacked) (h : followCastRef 64 .release exPacked (List.replicate 12 7) 5 = .ok r) (addr : Nat) :
    r.Inside (List.replicate 12 7) ∧ r.Aligned addr :=
  C111_partial 64 .release exPacked rfl _ 5 (by decide) (by decide) (by decide) r h addr
example : followCastRef 64 .release exPacked (List.replicate 12 7) 5 = .ok ⟨5⟩ := by decide

end Butte
