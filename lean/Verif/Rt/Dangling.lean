import Verif.Rt.FinishRead
import Verif.Rt.AProgress
/-
Offsets given to a builder which are not from it.
-/
namespace Butte

/-- What is stored for an offset, whether its place exists or not. -/
theorem PAt.stored {m : Mode} {d : Bytes} {off : Nat} {x : PVal .off} (h : PAt m d off x) (hl : d.length < 2 ^ 31) :
    At d off (leBytes 4 ((off + 2 ^ 32 - x.val) % 2 ^ 32)) ∧ (m = .debug → x.val ≤ off) := by
  obtain ⟨h1, bs, h2, h3⟩ := h
  have hle := h3.le
  have h4 : PTy.off.size = 4 := rfl
  have hx : x.val < 2 ^ 32 := x.isLt
  simp only [PVal.pushBytes] at h2
  rw [addU_ok (by omega)] at h2
  simp only [Res.ok_bind] at h2
  by_cases hv : x.val ≤ off
  · rw [subU_ok (by omega)] at h2
    simp only [Res.ok_bind] at h2
    cases h2
    refine ⟨?_, fun _ => hv⟩
    rw [h4, show 4 + (off - 4) = off by omega] at h3
    rwa [show (off + 2 ^ 32 - x.val) % 2 ^ 32 = (off - x.val) % 2 ^ 32 by omega]
  · unfold subU subW at h2
    rw [if_neg (by omega)] at h2
    cases m with
    | debug => simp at h2
    | release =>
      simp only [Res.ok_bind] at h2
      cases h2
      refine ⟨?_, nofun⟩
      rw [h4] at h3
      rwa [show (off + 2 ^ 32 - x.val) % 2 ^ 32 = (2 ^ 64 + (4 + (off - 4)) - x.val) % 2 ^ 64 % 2 ^ 32 by omega]

/-- Following a stored number. -/
theorem fwdU_by {m : Mode} {d : Bytes} {rev n : Nat} {f : FTy} (h : At d rev (leBytes 4 n)) (hn : n < 2 ^ 32)
    (hl : d.length < 2 ^ 31) : FTy.follow m (.fwdU f) d (d.length - rev) = f.follow m d (d.length - rev + n) := by
  have hle := h.le
  simp only [FTy.follow]
  rw [addU_ok (by omega)]
  simp only [Res.ok_bind]
  have hs := h.slice_get
  rw [leBytes_length] at hs
  rw [hs]
  simp only [Res.ok_bind]
  have hr : readScalar .u32 (leBytes 4 n) = .ok ⟨n, hn⟩ := readScalar_bytes (t := .u32) ⟨n, hn⟩
  rw [hr]
  simp only [Res.ok_bind]
  rw [addU_ok (by omega)]
  rfl

/-- Where an offset that was pushed leads to. -/
theorem PAt.leads {m : Mode} {d : Bytes} {off : Nat} {x : PVal .off} (h : PAt m d off x) (hl : d.length < 2 ^ 31)
    (m' : Mode) (f : FTy) :
    FTy.follow m' (.fwdU f) d (d.length - off) =
      f.follow m' d (if x.val ≤ off then d.length - x.val else d.length + (2 ^ 32 - x.val)) := by
  have hx : x.val < 2 ^ 32 := x.isLt
  obtain ⟨h1, -⟩ := h.stored hl
  have hle := h1.le
  rw [fwdU_by h1 (Nat.mod_lt _ (by omega)) hl]
  congr 1
  split <;> omega

/-- Behind the end nothing can be read. -/
theorem readScalarAt_behind (m : Mode) (t : STy) {d : Bytes} {l : Nat} (h : d.length ≤ l) (hl : l < 2 ^ 63) :
    readScalarAt m t d l = .err .outOfBounds := by
  have := t.size_le
  have := t.size_pos
  unfold readScalarAt
  rw [addU_ok (by omega)]
  simp only [Res.ok_bind]
  unfold sliceGet
  rw [if_neg (by omega)]
  rfl

theorem sliceGet_behind {d : Bytes} {l e : Nat} (h : d.length < e) : sliceGet d l e = .err .outOfBounds := by
  unfold sliceGet
  rw [if_neg (by omega)]

/-- Every type that reads its place at once fails behind the end; the places tables and vectors are made of are
not looked at before they are used. -/
def FTy.reads : FTy → Bool
  | .vector _ | .table | .vtable => false
  | .skipSize t | .skipRoot t | .skipFileId t => t.reads
  | _ => true

/-- How many headers are skipped. -/
def FTy.skips : FTy → Nat
  | .skipSize t | .skipRoot t | .skipFileId t => t.skips + 1
  | _ => 0

theorem follow_behind (m : Mode) : ∀ (f : FTy) {d : Bytes} {l : Nat}, f.reads = true → d.length ≤ l →
    l + f.skips * 8 < 2 ^ 62 → f.follow m d l = .err .outOfBounds
  | .scalar t, d, l, _, h, hl => readScalarAt_behind m t h (by omega)
  | .str, d, l, _, h, hl => by
    simp only [FTy.follow, followStr, readNatAt]
    rw [readScalarAt_behind m .u32 h (by omega)]
    rfl
  | .slice t, d, l, _, h, hl => by
    simp only [FTy.follow, followSlice, readNatAt]
    rw [debugAssert_ok (decide_eq_true t.size_pos)]
    simp only [Res.ok_bind]
    rw [readScalarAt_behind m .u32 h (by omega)]
    rfl
  | .fileId, d, l, _, h, hl => by
    simp only [FTy.follow]
    rw [addU_ok (by omega)]
    exact sliceGet_behind (by omega)
  | .fwdU t, d, l, _, h, hl => by
    simp only [FTy.follow]
    rw [addU_ok (by omega)]
    simp only [Res.ok_bind]
    rw [sliceGet_behind (by omega)]
    rfl
  | .fwdV t, d, l, _, h, hl => by
    simp only [FTy.follow]
    rw [addU_ok (by omega)]
    simp only [Res.ok_bind]
    rw [sliceGet_behind (by omega)]
    rfl
  | .backS t, d, l, _, h, hl => by
    simp only [FTy.follow]
    rw [addU_ok (by omega)]
    simp only [Res.ok_bind]
    rw [sliceGet_behind (by omega)]
    rfl
  | .skipSize t, d, l, hf, h, hl => by
    simp only [FTy.skips] at hl
    simp only [FTy.follow]
    rw [addU_ok (by omega)]
    exact follow_behind m t (d := d) (l := l + 4) hf (by omega) (by omega)
  | .skipRoot t, d, l, hf, h, hl => by
    simp only [FTy.skips] at hl
    simp only [FTy.follow]
    rw [addU_ok (by omega)]
    exact follow_behind m t (d := d) (l := l + 4) hf (by omega) (by omega)
  | .skipFileId t, d, l, hf, h, hl => by
    simp only [FTy.skips] at hl
    simp only [FTy.follow]
    rw [addU_ok (by omega)]
    exact follow_behind m t (d := d) (l := l + 4) hf (by omega) (by omega)
  | .enum t vals, d, l, _, h, hl => by
    have := t.size_le
    have := t.size_pos
    simp only [FTy.follow]
    rw [readScalarAt_behind m t h (by omega)]
    rfl

/-- A table behind the end has no field that can be read. -/
theorem table_behind (m : Mode) (f : FTy) {d : Bytes} {l slot : Nat} (dflt : Option f.Inner) (h : d.length ≤ l)
    (hl : l < 2 ^ 61) : Table.get m ⟨d, l⟩ f slot dflt = .err .outOfBounds := by
  unfold Table.get Table.vtable
  rw [follow_behind m (.backS .vtable) rfl h (by simp only [FTy.skips]; omega)]
  rfl

theorem vec_behind (m : Mode) (e : FTy) {d : Bytes} {l : Nat} (h : d.length ≤ l) (hl : l < 2 ^ 61) :
    Vec.len m (⟨d, l⟩ : Vec e) = .err .outOfBounds := by
  unfold Vec.len readNatAt
  rw [readScalarAt_behind m .u32 h (by omega)]
  rfl

/-- An offset can be pushed in a debug build if and only if it is not behind its own end. -/
theorem push_off_okA {a : ABuilder} {x : PVal .off} (hs : a.data.length < 2 ^ 31) :
    (∃ r, a.push .debug x = .ok r) ↔ x.val ≤ (a.data.length + 3) / 4 * 4 + 4 := by
  obtain ⟨a1, h1, h2, _, h3, h4⟩ := align_okA (m := .debug) (a := a) (l := PTy.off.size) (al := PTy.off.align)
    (by have : PTy.off.size = 4 := rfl; omega) (PTy.size_p2 .off)
  have e : PTy.off.align = 4 := rfl
  have e' : PTy.off.size = 4 := rfl
  rw [e, e'] at h1
  rw [e] at h2
  rw [e, e'] at h3
  unfold ABuilder.push
  rw [e, e', h1]
  simp only [Res.ok_bind, PVal.pushBytes]
  rw [addU_ok (by omega)]
  simp only [Res.ok_bind]
  by_cases hx : x.val ≤ 4 + a1.data.length
  · rw [subU_ok (by omega)]
    exact ⟨fun _ => by omega, fun _ => ⟨_, rfl⟩⟩
  · unfold subU subW
    rw [if_neg hx]
    exact ⟨nofun, fun h => by omega⟩

end Butte
