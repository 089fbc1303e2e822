import Verif.Rt.Values
/-
Lemmas about reading arbitrary (untrusted) bytes.
-/
namespace Butte

theorem addU_release (a b : Nat) :
    addU .release a b = .ok ((a + b) % 2 ^ 64) := by
  unfold addU addW
  split
  · rename_i h; rw [Nat.mod_eq_of_lt h]
  · rfl

theorem addU_noPanic (a b : Nat) : (addU .release a b).NoPanic := by
  unfold addU addW Res.NoPanic; split <;> simp

theorem mulU_noPanic (a b : Nat) : (mulU .release a b).NoPanic := by
  unfold mulU mulW Res.NoPanic; split <;> simp

theorem subU_noPanic (a b : Nat) : (subU .release a b).NoPanic := by
  unfold subU subW Res.NoPanic; split <;> simp

theorem subS_noPanic (w : Nat) (a b : Int) : (subS w .release a b).NoPanic := by
  unfold subS Res.NoPanic; split <;> simp

theorem debugAssert_release (c : Bool) : debugAssert .release c = .ok () := by
  unfold debugAssert; simp

theorem NoPanic.bind {x : Res α} {f : α → Res β} (h : x.NoPanic) (hf : ∀ a, x = .ok a → (f a).NoPanic) :
    (x >>= f).NoPanic := by
  cases x with
  | ok a => exact hf a rfl
  | err e => simp [Res.NoPanic]
  | panic => exact absurd rfl h

theorem sliceGet_noPanic (s : Bytes) (a b : Nat) : (sliceGet s a b).NoPanic := by
  unfold sliceGet Res.NoPanic; split <;> simp

theorem readScalar_noPanic (t : STy) (s : Bytes) : (readScalar t s).NoPanic := by
  unfold readScalar Res.NoPanic; split <;> simp

/-- `read_scalar_at`, completely. -/
theorem readScalarAt_eq (m : Mode) (t : STy) (s : Bytes) (loc : Nat) (hs : s.Valid) (hl : loc < 2 ^ 64) :
    readScalarAt m t s loc =
      if loc + t.size ≤ s.length then .ok (SVal.ofBytes t (s.drop loc))
      else if m = .debug ∧ 2 ^ 64 ≤ loc + t.size then .panic else .err .outOfBounds := by
  have h8 := t.size_le
  have hi : isizeMax = 2 ^ 63 - 1 := rfl
  unfold Bytes.Valid at hs
  unfold readScalarAt
  by_cases h : loc + t.size ≤ s.length
  · rw [if_pos h, addU_ok (by omega)]
    simp only [Res.ok_bind]
    unfold sliceGet
    rw [if_pos ⟨by omega, h⟩]
    simp only [Res.ok_bind]
    unfold readScalar
    have : ((s.drop loc).take (loc + t.size - loc)).length = t.size := by simp; omega
    rw [if_pos (by omega)]
    have e : loc + t.size - loc = t.size := by omega
    rw [e, List.take_take, Nat.min_self, ofBytes_take]
  · rw [if_neg h]
    by_cases ho : 2 ^ 64 ≤ loc + t.size
    · cases m with
      | debug =>
        rw [if_pos ⟨rfl, ho⟩]
        unfold addU addW
        rw [if_neg (by omega)]; rfl
      | release =>
        rw [if_neg (by simp)]
        unfold addU addW
        rw [if_neg (by omega)]
        simp only [Res.ok_bind]
        unfold sliceGet
        rw [if_neg (by omega)]; rfl
    · rw [if_neg (by omega), addU_ok (by omega)]
      simp only [Res.ok_bind]
      unfold sliceGet
      rw [if_neg (by omega)]; rfl

theorem readScalarAt_ok {m : Mode} {t : STy} {s : Bytes} {loc : Nat} {v : SVal t}
    (h : readScalarAt m t s loc = .ok v) (hs : s.Valid) :
    loc + t.size ≤ s.length ∧ v = SVal.ofBytes t (s.drop loc) := by
  by_cases hl : loc < 2 ^ 64
  · rw [readScalarAt_eq m t s loc hs hl] at h
    split at h
    · cases h; exact ⟨by assumption, rfl⟩
    · split at h <;> cases h
  · unfold readScalarAt at h
    obtain ⟨e, he, h⟩ := Res.bind_eq_ok.mp h
    obtain ⟨b, hb, h⟩ := Res.bind_eq_ok.mp h
    unfold sliceGet at hb
    unfold Bytes.Valid at hs
    have hi : isizeMax = 2 ^ 63 - 1 := rfl
    split at hb
    · omega
    · cases hb

theorem readNatAt_ok {m : Mode} {t : STy} {s : Bytes} {loc n : Nat}
    (h : readNatAt m t s loc = .ok n) (hs : s.Valid) :
    loc + t.size ≤ s.length ∧ n = (SVal.ofBytes t (s.drop loc)).val := by
  unfold readNatAt at h
  obtain ⟨v, hv, h⟩ := Res.bind_eq_ok.mp h
  cases h
  obtain ⟨h1, rfl⟩ := readScalarAt_ok hv hs
  exact ⟨h1, rfl⟩

theorem readScalarAt_noPanic (t : STy) (s : Bytes) (loc : Nat) :
    (readScalarAt .release t s loc).NoPanic := by
  unfold readScalarAt
  exact NoPanic.bind (addU_noPanic _ _) fun _ _ =>
    NoPanic.bind (sliceGet_noPanic _ _ _) fun _ _ => readScalar_noPanic _ _

theorem readNatAt_noPanic (t : STy) (s : Bytes) (loc : Nat) : (readNatAt .release t s loc).NoPanic := by
  unfold readNatAt
  exact NoPanic.bind (readScalarAt_noPanic _ _ _) fun _ _ => by simp [Res.NoPanic]

/-- The value of the `u32` at `loc`. -/
theorem ofBytes_u32 (bs : Bytes) : (SVal.ofBytes .u32 bs).val = leNat (bs.take 4) := by
  unfold SVal.ofBytes
  have h1 : STy.card .u32 = 2 ^ 32 := rfl
  have h2 : STy.size .u32 = 4 := rfl
  simp only [h2, reduceCtorEq, if_false, Fin.ofNat]
  have h3 := leNat_lt (bs.take 4)
  have h4 : (bs.take 4).length ≤ 4 := by simp; omega
  have h5 : 256 ^ (bs.take 4).length ≤ 256 ^ 4 := Nat.pow_le_pow_right (by decide) h4
  rw [Nat.mod_eq_of_lt]
  rw [h1]; omega

theorem fromUTF8?_some {bs : Bytes} {s : String} :
    String.fromUTF8? (ByteArray.mk bs.toArray) = some s ↔ Builder.strBytes s = bs := by
  constructor
  · intro h
    unfold String.fromUTF8? at h
    split at h
    · cases h
      rfl
    · cases h
  · rintro rfl; exact fromUTF8?_strBytes s

/-- Reading a string, completely. -/
theorem followStr_eq (m : Mode) (buf : Bytes) (loc : Nat) (hs : buf.Valid) (hl : loc + 4 < 2 ^ 64) :
    followStr m buf loc =
      if loc + 4 ≤ buf.length ∧ loc + 4 + leNat ((buf.drop loc).take 4) < buf.length then
        if buf[loc + 4 + leNat ((buf.drop loc).take 4)]? = some 0 then
          match String.fromUTF8? (ByteArray.mk ((buf.drop (loc + 4)).take (leNat ((buf.drop loc).take 4))).toArray) with
          | some s => .ok s
          | none => .err .nonUtf8String
        else .err .nonNullTerminatedString
      else .err .outOfBounds := by
  have hs' := hs
  unfold Bytes.Valid at hs'
  have hi : isizeMax = 2 ^ 63 - 1 := rfl
  unfold followStr readNatAt
  rw [readScalarAt_eq m .u32 buf loc hs (by omega)]
  have h2 : STy.size .u32 = 4 := rfl
  rw [h2]
  by_cases h4 : loc + 4 ≤ buf.length
  · rw [if_pos h4]
    simp only [Res.ok_bind, Res.pure_eq]
    rw [ofBytes_u32]
    have hlt := leNat_lt ((buf.drop loc).take 4)
    have h5 : 256 ^ ((buf.drop loc).take 4).length ≤ 256 ^ 4 :=
      Nat.pow_le_pow_right (by decide) (by simp; omega)
    generalize leNat ((buf.drop loc).take 4) = len at *
    rw [addU_ok hl]
    simp only [Res.ok_bind]
    rw [addU_ok (by omega)]
    simp only [Res.ok_bind]
    by_cases hin : loc + 4 + len < buf.length
    · rw [if_neg (by omega), if_pos ⟨h4, hin⟩]
      rw [List.getElem?_eq_getElem hin]
      simp only [Res.ok_bind]
      by_cases hz : buf[loc + 4 + len] = 0
      · rw [if_neg (by simp [hz]), if_pos (by simp [hz])]
        unfold sliceIdx sliceGet
        rw [if_pos ⟨by omega, by omega⟩]
        simp only [Res.expect, Res.ok_bind]
        have : loc + 4 + len - (loc + 4) = len := by omega
        rw [this]
        cases String.fromUTF8? { data := (List.take len (List.drop (loc + 4) buf)).toArray } <;> rfl
      · rw [if_pos hz, if_neg (by simp [hz])]
    · rw [if_pos (by omega), if_neg (by omega)]
  · rw [if_neg h4, if_neg (by omega), if_neg (by omega)]
    simp

theorem followStr_noPanic (buf : Bytes) (loc : Nat) (hs : buf.Valid) :
    (followStr .release buf loc).NoPanic := by
  by_cases hl : loc + 4 < 2 ^ 64
  · rw [followStr_eq _ _ _ hs hl]
    unfold Res.NoPanic
    split
    · split
      · split <;> simp
      · simp
    · simp
  · unfold followStr
    cases h : readNatAt .release .u32 buf loc with
    | ok n =>
      have := (readNatAt_ok h hs).1
      unfold Bytes.Valid at hs
      have hi : isizeMax = 2 ^ 63 - 1 := rfl
      omega
    | err e => simp [Res.NoPanic]
    | panic => exact absurd h (readNatAt_noPanic _ _ _)

theorem followSlice_noPanic (t : STy) (buf : Bytes) (loc : Nat) : (followSlice .release t buf loc).NoPanic := by
  unfold followSlice
  rw [debugAssert_release]
  simp only [Res.ok_bind]
  exact NoPanic.bind (readNatAt_noPanic _ _ _) fun _ _ => NoPanic.bind (addU_noPanic _ _) fun _ _ =>
    NoPanic.bind (mulU_noPanic _ _) fun _ _ => NoPanic.bind (addU_noPanic _ _) fun _ _ =>
    NoPanic.bind (sliceGet_noPanic _ _ _) fun _ _ => by simp [Res.NoPanic]

theorem enumTryFrom_noPanic (vals : List Nat) (v : Nat) : (enumTryFrom vals v).NoPanic := by
  unfold enumTryFrom Res.NoPanic; split <;> simp

theorem follow_noPanic : ∀ (f : FTy) (buf : Bytes) (loc : Nat), buf.Valid → (f.follow .release buf loc).NoPanic
  | .scalar t, buf, loc, _ => by unfold FTy.follow; exact readScalarAt_noPanic _ _ _
  | .str, buf, loc, h => by unfold FTy.follow; exact followStr_noPanic _ _ h
  | .slice t, buf, loc, _ => by unfold FTy.follow; exact followSlice_noPanic _ _ _
  | .vector _, buf, loc, _ => by simp [FTy.follow, Res.NoPanic]
  | .table, buf, loc, _ => by simp [FTy.follow, Res.NoPanic]
  | .vtable, buf, loc, _ => by simp [FTy.follow, Res.NoPanic]
  | .fileId, buf, loc, _ => by
    unfold FTy.follow
    exact NoPanic.bind (addU_noPanic _ _) fun _ _ => sliceGet_noPanic _ _ _
  | .fwdU t, buf, loc, h => by
    unfold FTy.follow
    exact NoPanic.bind (addU_noPanic _ _) fun _ _ => NoPanic.bind (sliceGet_noPanic _ _ _) fun _ _ =>
      NoPanic.bind (readScalar_noPanic _ _) fun _ _ => NoPanic.bind (addU_noPanic _ _) fun _ _ =>
      follow_noPanic t _ _ h
  | .fwdV t, buf, loc, h => by
    unfold FTy.follow
    exact NoPanic.bind (addU_noPanic _ _) fun _ _ => NoPanic.bind (sliceGet_noPanic _ _ _) fun _ _ =>
      NoPanic.bind (readScalar_noPanic _ _) fun _ _ => NoPanic.bind (addU_noPanic _ _) fun _ _ =>
      follow_noPanic t _ _ h
  | .backS t, buf, loc, h => by
    unfold FTy.follow
    exact NoPanic.bind (addU_noPanic _ _) fun _ _ => NoPanic.bind (sliceGet_noPanic _ _ _) fun _ _ =>
      NoPanic.bind (readScalar_noPanic _ _) fun _ _ => NoPanic.bind (subS_noPanic _ _ _) fun _ _ =>
      follow_noPanic t _ _ h
  | .skipSize t, buf, loc, h => by
    unfold FTy.follow
    exact NoPanic.bind (addU_noPanic _ _) fun _ _ => follow_noPanic t _ _ h
  | .skipRoot t, buf, loc, h => by
    unfold FTy.follow
    exact NoPanic.bind (addU_noPanic _ _) fun _ _ => follow_noPanic t _ _ h
  | .skipFileId t, buf, loc, h => by
    unfold FTy.follow
    exact NoPanic.bind (addU_noPanic _ _) fun _ _ => follow_noPanic t _ _ h
  | .enum t vals, buf, loc, _ => by
    unfold FTy.follow
    exact NoPanic.bind (readScalarAt_noPanic _ _ _) fun _ _ => enumTryFrom_noPanic _ _

theorem vtget_noPanic (v : VTable) (s : Nat) : (v.get .release s).NoPanic := by
  unfold VTable.get VTable.numBytes
  refine NoPanic.bind (readNatAt_noPanic _ _ _) fun n _ => ?_
  split
  · simp [Res.NoPanic]
  · exact NoPanic.bind (addU_noPanic _ _) fun _ _ => NoPanic.bind (readNatAt_noPanic _ _ _) fun _ _ => by
      simp [Res.NoPanic]

theorem tableGet_noPanic (t : Table) (f : FTy) (slot : Nat) (d : Option f.Inner) (h : t.buf.Valid) :
    (t.get .release f slot d).NoPanic := by
  unfold Table.get Table.vtable
  refine NoPanic.bind (follow_noPanic _ _ _ h) fun vt _ => NoPanic.bind (vtget_noPanic _ _) fun o _ => ?_
  cases o with
  | none => simp [Res.NoPanic]
  | some o =>
    simp only
    split
    · simp [Res.NoPanic]
    · exact NoPanic.bind (addU_noPanic _ _) fun _ _ => NoPanic.bind (follow_noPanic _ _ _ h) fun _ _ => by
        simp [Res.NoPanic]

end Butte
