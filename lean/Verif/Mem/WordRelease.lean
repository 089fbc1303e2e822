import Verif.Mem.WordInside
import Verif.Mem.Erase
import Verif.Rt.ReadLemmas
/-
Reading with pointers of `w` bits in a release build: what panics.
-/
namespace Butte.Word
open Mem

/-- No panic. -/
abbrev Calm (x : Tr α) : Prop := x.res.NoPanic

theorem Calm.bind {x : Tr α} {f : α → Tr β} (hx : Calm x) (hf : ∀ a, x.res = .ok a → Calm (f a)) : Calm (x >>= f) := by
  unfold Calm
  rw [bind_res]
  exact NoPanic.bind hx hf

theorem Calm.pure (a : α) : Calm (Pure.pure a : Tr α) := nofun
theorem Calm.lift {r : Res α} (h : r.NoPanic) : Calm (Tr.lift r) := h
theorem Calm.liftM {r : Res α} (h : r.NoPanic) : Calm (_root_.liftM r : Tr α) := h
theorem Calm.err (e : Error) : Calm (Tr.lift (.err e) : Tr α) := nofun

theorem addW_calm (w a b : Nat) : (addW w .release a b).NoPanic := by unfold addW Res.NoPanic; split <;> simp
theorem mulW_calm (w a b : Nat) : (mulW w .release a b).NoPanic := by unfold mulW Res.NoPanic; split <;> simp
theorem subW_calm (w a b : Nat) : (subW w .release a b).NoPanic := by unfold subW Res.NoPanic; split <;> simp

theorem add_calm {w a b : Nat} : Calm (_root_.liftM (addW w .release a b) : Tr Nat) := addW_calm w a b
theorem mul_calm {w a b : Nat} : Calm (_root_.liftM (mulW w .release a b) : Tr Nat) := mulW_calm w a b
theorem slice_calm {s : Bytes} {a b : Nat} : Calm (_root_.liftM (sliceGet s a b) : Tr Bytes) := sliceGet_noPanic s a b
theorem assert_calm {c : Bool} : Calm (_root_.liftM (debugAssert .release c) : Tr Unit) := by
  show (debugAssert .release c).NoPanic
  rw [debugAssert_release]; exact nofun

theorem readScalar_calm {t : STy} {s mem : Bytes} {o : Nat} : Calm (Tr.within mem o (Mem.readScalar t s)) := by
  unfold Calm
  rw [within_res, Mem.readScalar_res]
  exact readScalar_noPanic t s

theorem readScalarAtAs_calm {w : Nat} {A t : STy} {s : Bytes} {loc : Nat} : Calm (readScalarAtAs w .release A t s loc) := by
  unfold readScalarAtAs
  refine Calm.bind add_calm fun _ _ => Calm.bind slice_calm fun _ _ => ?_
  unfold Calm
  rw [within_res, readScalarAs_res]
  exact readScalar_noPanic _ _

theorem readNatAt_calm {w : Nat} {t : STy} {s : Bytes} {loc : Nat} : Calm (readNatAt w .release t s loc) :=
  Calm.bind readScalarAtAs_calm fun _ _ => Calm.pure _

theorem followSlice_calm {w : Nat} {t : STy} {buf : Bytes} {loc : Nat} : Calm (followSlice w .release t buf loc) :=
  Calm.bind assert_calm fun _ _ => Calm.bind readNatAt_calm fun _ _ => Calm.bind add_calm fun _ _ =>
    Calm.bind mul_calm fun _ _ => Calm.bind add_calm fun _ _ => Calm.bind slice_calm fun _ _ =>
    Calm.bind (x := Tr.touch _) nofun fun _ _ => Calm.pure _

theorem readNatAt_ok {w : Nat} (hw : 32 ≤ w) {m : Mode} {t : STy} {s : Bytes} {loc n : Nat}
    (h : (readNatAt w m t s loc).res = .ok n) : loc + t.size ≤ s.length ∧ n = (SVal.ofBytes t (s.drop loc)).val := by
  unfold readNatAt readScalarAt readScalarAtAs at h
  simp only [bind_res, liftM_res, within_res, readScalarAs_res, pure_res] at h
  obtain ⟨v, hv, h⟩ := Res.bind_eq_ok.mp h
  obtain ⟨e, he, hv1⟩ := Res.bind_eq_ok.mp hv
  obtain ⟨bs, hbs, hv2⟩ := Res.bind_eq_ok.mp hv1
  obtain ⟨h1, h2, h3, h4⟩ := sliceGet_len hbs
  have := addW_le he h1 (size_ltW hw t)
  subst this
  refine ⟨h2, ?_⟩
  cases h
  unfold Butte.readScalar at hv2
  rw [if_pos (by omega)] at hv2
  cases hv2
  rw [h3, Nat.add_sub_cancel_left, ofBytes_take, ofBytes_take]

theorem readNatAt_of_le {w : Nat} {m : Mode} {t : STy} {s : Bytes} {loc : Nat} (h : loc + t.size ≤ s.length)
    (hw : loc + t.size < 2 ^ w) : (readNatAt w m t s loc).res = .ok (SVal.ofBytes t (s.drop loc)).val := by
  unfold readNatAt readScalarAt readScalarAtAs
  simp only [bind_res, liftM_res, within_res, readScalarAs_res, pure_res]
  rw [addW_ok hw]
  simp only [Res.ok_bind]
  unfold sliceGet
  rw [if_pos ⟨by omega, h⟩]
  simp only [Res.ok_bind]
  unfold Butte.readScalar
  rw [if_pos (by simp; omega), Nat.add_sub_cancel_left]
  simp only [Res.ok_bind]
  congr 2
  rw [ofBytes_take, ofBytes_take]

/-- Exactly when reading a string panics: the end of the string wraps around to a zero byte of the buffer. -/
theorem followStr_panics {buf : Bytes} {loc : Nat} (hv : buf.length < 2 ^ 31) :
    (followStr 32 .release buf loc).res = .panic ↔ loc + 4 ≤ buf.length ∧ ∃ k,
      leNat ((buf.drop loc).take 4) + loc + 4 = 2 ^ 32 + k ∧ buf[k]? = some 0 := by
  have hlen : leNat ((buf.drop loc).take 4) < 2 ^ 32 := by
    refine Nat.lt_of_lt_of_le (leNat_lt _) ?_
    exact Nat.le_trans (Nat.pow_le_pow_right (by decide) (show _ ≤ 4 by simp; omega)) (by decide)
  have h4 : STy.size .u32 = 4 := rfl
  unfold followStr
  by_cases hl : loc + 4 ≤ buf.length
  · simp only [bind_res]
    rw [readNatAt_of_le (by omega) (by omega), ofBytes_u32]
    generalize leNat ((buf.drop loc).take 4) = len at *
    simp only [Res.ok_bind, liftM_res]
    rw [addW_ok (by omega)]
    simp only [Res.ok_bind, hl, true_and]
    by_cases hw : loc + 4 + len < 2 ^ 32
    · rw [addW_ok hw]
      simp only [Res.ok_bind, ite_res, lift_res]
      constructor
      · intro h
        exfalso
        split at h
        · cases h
        · rename_i hin
          rw [List.getElem?_eq_getElem (by omega)] at h
          simp only [bind_res, lift_res, Res.ok_bind, ite_res, liftM_res] at h
          split at h
          · cases h
          · unfold sliceIdx sliceGet at h
            rw [if_pos (by omega)] at h
            simp only [Res.expect, Res.ok_bind] at h
            split at h <;> cases h
      · rintro ⟨k, h, -⟩
        omega
    · obtain ⟨j, hj⟩ : ∃ j, loc + 4 + len = 2 ^ 32 + j := Nat.exists_eq_add_of_le (by omega)
      have e : addW 32 .release (loc + 4) len = .ok j := by
        unfold addW
        rw [if_neg hw, hj]
        show Res.ok _ = _
        rw [Nat.add_mod_left, Nat.mod_eq_of_lt (by omega)]
      rw [e]
      simp only [Res.ok_bind, ite_res, lift_res]
      constructor
      · intro h
        refine ⟨j, by omega, ?_⟩
        split at h
        · cases h
        · rename_i hin
          rw [List.getElem?_eq_getElem (by omega)] at h ⊢
          simp only [bind_res, lift_res, Res.ok_bind, ite_res, liftM_res] at h
          split at h
          · cases h
          · rename_i hz
            simpa using hz
      · rintro ⟨k, hk, hz⟩
        rw [show k = j by omega] at hz
        have hin : j < buf.length := (List.getElem?_eq_some_iff.mp hz).1
        rw [if_neg (by omega), hz]
        simp only [bind_res, lift_res, Res.ok_bind, ite_res, liftM_res]
        rw [if_neg (by simp)]
        unfold sliceIdx sliceGet
        rw [if_neg (by omega)]
        rfl
  · simp only [hl, false_and, iff_false, bind_res]
    cases h : (readNatAt 32 .release .u32 buf loc).res with
    | ok n => exact absurd (readNatAt_ok (by decide) h).1 (by omega)
    | err e => exact nofun
    | panic => exact absurd h readNatAt_calm

/-- No strings in the type. -/
def NoStr : FTy → Prop
  | .scalar _ | .slice _ | .table | .vtable | .fileId | .enum _ _ | .vector _ => True
  | .str => False
  | .fwdU t | .fwdV t | .backS t | .skipSize t | .skipRoot t | .skipFileId t => NoStr t

theorem follow_calm {w : Nat} {buf : Bytes} : ∀ (f : FTy) (loc : Nat), NoStr f → Calm (follow w .release f buf loc)
  | .scalar t, loc, _ => readScalarAtAs_calm
  | .str, loc, h => h.elim
  | .slice t, loc, _ => followSlice_calm
  | .vector e, loc, _ => Calm.pure _
  | .table, loc, _ => Calm.pure _
  | .vtable, loc, _ => Calm.pure _
  | .fileId, loc, _ => Calm.bind add_calm fun _ _ => slice_calm
  | .fwdU t, loc, h | .fwdV t, loc, h => Calm.bind add_calm fun _ _ => Calm.bind slice_calm fun _ _ =>
    Calm.bind readScalar_calm fun _ _ => Calm.bind add_calm fun _ _ => follow_calm t _ h
  | .backS t, loc, h => Calm.bind add_calm fun _ _ => Calm.bind slice_calm fun _ _ =>
    Calm.bind readScalar_calm fun _ _ => Calm.bind (Calm.liftM (subS_noPanic _ _ _)) fun _ _ => follow_calm t _ h
  | .skipSize t, loc, h | .skipRoot t, loc, h | .skipFileId t, loc, h =>
    Calm.bind add_calm fun _ _ => follow_calm t _ h
  | .enum t vals, loc, _ => Calm.bind readScalarAtAs_calm fun _ _ => Calm.liftM (enumTryFrom_noPanic _ _)

theorem vtGet_calm {w : Nat} (v : VTable) (i : Nat) : Calm (VTable.get w .release v i) := by
  unfold VTable.get
  refine Calm.bind readNatAt_calm fun _ _ => ?_
  split
  · exact Calm.pure _
  · exact Calm.bind add_calm fun _ _ => Calm.bind readNatAt_calm fun _ _ => Calm.pure _

theorem get_calm {w : Nat} {t : Butte.Table} (f : FTy) (slot : Nat) (d : Option f.Inner) (hf : NoStr f) :
    Calm (Table.get w .release t f slot d) := by
  unfold Table.get
  refine Calm.bind (follow_calm (.backS .vtable) _ trivial) fun vt _ => Calm.bind (vtGet_calm _ _) fun o _ => ?_
  split
  · split
    · exact Calm.pure _
    · exact Calm.bind add_calm fun _ _ => Calm.bind (follow_calm f _ hf) fun _ _ => Calm.pure _
  · exact Calm.pure _

theorem vecGet_calm {w : Nat} {e : FTy} {v : Vec e} (i : Nat) (hf : NoStr e) : Calm (Vec.get w .release v i) := by
  unfold Vec.get
  rw [if_neg (by decide)]
  exact Calm.bind assert_calm fun _ _ => Calm.bind add_calm fun _ _ => Calm.bind mul_calm fun _ _ =>
    Calm.bind add_calm fun _ _ => follow_calm e _ hf

end Butte.Word
