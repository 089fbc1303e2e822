import Verif.Rt.VTHist
import Verif.Props.Values
/-
Reading a finished buffer: the root, the identifier and the size prefix.
-/
namespace Butte

/-- `finish` writes the offset of the root where the reader looks for it. -/
theorem finish_root {m : Mode} {a a' : ABuilder} {root : Nat} {ident : Option Bytes} {sp : Bool}
    (h : a.finishWithOpts m root ident sp = .ok a') (hma : MAOk a.minAlign)
    (hi : ∀ i, ident = some i → i.length = 4) (hs : a'.data.length < 2 ^ 31) (hr : root ≤ a.data.length) :
    (if sp then Table.getSizePrefixedRoot m a'.data else Table.getRoot m a'.data) =
      .ok ⟨a'.data, a'.data.length - root⟩ ∧
    (sp = true → Table.getRoot m (a'.data.drop 4) = .ok ⟨a'.data.drop 4, (a'.data.drop 4).length - root⟩ ∧
      a'.data.take 4 = leBytes 4 (a'.data.length - 4) ∧ 4 ≤ a'.data.length ∧
      ∃ y, a'.data.drop 4 = y ++ a.data) := by
  obtain ⟨pad1, pad2, offb, d3, h1, h2, h3, h4, _⟩ := finish_spec h hma hi (by omega)
  have hd3 : a.data.length ≤ d3.length := by rw [h1]; simp; omega
  have hv : (Builder.offVal root).val = root := by
    unfold Builder.offVal
    simp only [Fin.ofNat]
    have : a'.data.length ≥ d3.length := by rw [h4]; simp; omega
    exact Nat.mod_eq_of_lt (by omega)
  have hsz : PTy.off.size = 4 := rfl
  have hp : PAt m (offb ++ d3) (offb ++ d3).length (Builder.offVal root) := by
    refine ⟨by simp [h3, hsz], offb, ?_, At.head _ _⟩
    rw [← h2]; congr 1; simp [h3, hsz]
  have hl : (offb ++ d3).length ≤ a'.data.length := by rw [h4]; simp
  have hlo : (offb ++ d3).length = 4 + d3.length := by simp [h3]
  have key : ∀ z : Bytes, (z ++ (offb ++ d3)).length < 2 ^ 31 →
      FTy.follow m (.fwdU .table) (z ++ (offb ++ d3)) z.length =
        .ok ⟨z ++ (offb ++ d3), (z ++ (offb ++ d3)).length - root⟩ := by
    intro z hz
    have := (hp.prepend z).off hz (by rw [hv]; omega) .table
    rw [hv] at this
    rw [show (z ++ (offb ++ d3)).length - (offb ++ d3).length = z.length by simp] at this
    rw [this]; rfl
  have hi : isizeMax = 2 ^ 63 - 1 := rfl
  cases sp with
  | false =>
    simp only [Bool.false_eq_true, if_false, List.nil_append] at h4 ⊢
    refine ⟨?_, nofun⟩
    have := key [] (by simp only [List.nil_append]; omega)
    simp only [List.nil_append, List.length_nil] at this
    unfold Table.getRoot
    rw [h4]; exact this
  | true =>
    simp only [if_true] at h4 ⊢
    refine ⟨?_, fun _ => ⟨?_, ?_, ?_, ?_⟩⟩
    · unfold Table.getSizePrefixedRoot
      have := key (leBytes 4 (offb ++ d3).length) (by rw [← h4]; exact hs)
      rw [← h4] at this
      show (do let l ← addU m 0 4; FTy.follow m (.fwdU .table) a'.data l) = _
      rw [addU_ok (by omega)]
      simp only [Res.ok_bind]
      refine Eq.trans ?_ this
      simp
    · have e : a'.data.drop 4 = offb ++ d3 := by rw [h4]; exact List.drop_left' (by simp)
      have := key [] (by simp only [List.nil_append]; omega)
      simp only [List.nil_append, List.length_nil] at this
      unfold Table.getRoot
      rw [e]; exact this
    · have hlen : a'.data.length = 4 + (offb ++ d3).length := by rw [h4]; simp
      rw [hlen, Nat.add_sub_cancel_left, h4]
      exact List.take_left' (by simp)
    · rw [h4]; simp
    · rw [h4, List.drop_left' (by simp), h1]
      exact ⟨offb ++ (List.replicate pad2 0 ++ (ident.getD [] ++ List.replicate pad1 0)), by simp⟩

/-- With at least 4-byte alignment the identifier directly follows the root offset. -/
theorem finish_ident {m : Mode} {a a' : ABuilder} {root : Nat} {i : Bytes} {sp : Bool}
    (h : a.finishWithOpts m root (some i) sp = .ok a') (hma : MAOk a.minAlign)
    (hi : i.length = 4) (hs : a'.data.length < 2 ^ 32) (h4 : 4 ≤ a.minAlign) (j : Bytes) (hj : j.length = 4) :
    bufferHasIdentifier m a'.data j sp = .ok (j == i) := by
  obtain ⟨pad1, pad2, offb, d3, h1, _, h3, h5, h6, _⟩ := finish_spec h hma (by rintro _ ⟨⟩; exact hi) hs
  rw [h6 h4] at h1
  simp only [List.replicate_zero, List.nil_append, Option.getD_some] at h1
  have hx : isizeMax = 2 ^ 63 - 1 := rfl
  have key : ∀ z : Bytes, sliceGet (z ++ (offb ++ d3)) (z.length + 4) (z.length + 4 + 4) = .ok i := by
    intro z
    have : z ++ (offb ++ d3) = (z ++ offb) ++ (i ++ (List.replicate pad1 0 ++ a.data)) := by rw [h1]; simp
    rw [this]
    have hz : (z ++ offb).length = z.length + 4 := by simp [h3]
    have hsl := sliceGet_shift (z ++ offb) (i ++ (List.replicate pad1 0 ++ a.data)) 0 4
    rw [hz] at hsl
    refine hsl.trans ?_
    unfold sliceGet
    rw [if_pos (by simp [hi])]
    rw [List.drop_zero, List.take_left' hi]
  unfold bufferHasIdentifier
  rw [hj]
  simp only [assert, beq_self_eq_true, if_true, Res.ok_bind]
  cases sp with
  | false =>
    simp only [Bool.false_eq_true, if_false, List.nil_append] at h5 ⊢
    have e : (do let l ← addU m 0 4; let e ← addU m l 4; sliceGet a'.data l e) = .ok i := by
      rw [addU_ok (by omega)]
      simp only [Res.ok_bind]
      rw [addU_ok (by omega)]
      simp only [Res.ok_bind]
      have := key []
      simp only [List.nil_append, List.length_nil, Nat.zero_add] at this
      rw [h5]; exact this
    show (do let got ← (do let l ← addU m 0 4; let e ← addU m l 4; sliceGet a'.data l e); return j == got) = _
    rw [e]; rfl
  | true =>
    simp only [if_true] at h5 ⊢
    have e : (do let l ← addU m 0 4; let l ← addU m l 4; let e ← addU m l 4; sliceGet a'.data l e) = .ok i := by
      rw [addU_ok (by omega)]
      simp only [Res.ok_bind]
      rw [addU_ok (by omega)]
      simp only [Res.ok_bind]
      rw [addU_ok (by omega)]
      simp only [Res.ok_bind]
      have := key (leBytes 4 (offb ++ d3).length)
      simp only [leBytes_length] at this
      rw [h5]; exact this
    show (do let got ← (do let l ← addU m 0 4; let l ← addU m l 4; let e ← addU m l 4; sliceGet a'.data l e); return j == got) = _
    rw [e]; rfl

/-- Abstract view of a history ending in `finish`. -/
theorem Finishes.toA {m : Mode} {b b' : Builder} {a : ABuilder} {rest : List Op} {root : Fin (2 ^ 32)}
    {ident : Option Bytes} {sp : Bool} (h : Finishes m b rest root ident sp b') (hb : Reachable m b) (hr : R b a)
    (hs : b'.usedSpace < 2 ^ 32) :
    ∃ a₁ a', R b' a' ∧ Ext a a₁ ∧ Ext a₁ a' ∧ a.minAlign ≤ a₁.minAlign ∧ MAOk a₁.minAlign ∧
      a₁.finishWithOpts m root.val ident sp = .ok a' ∧ a'.data.length = b'.usedSpace ∧ a'.data = b'.unfinishedData ∧
      b'.finishedData m = .ok a'.data ∧
      ∀ k, MAOk k → 0 < k → k ≤ a.minAlign → a'.data.length % k = 0 := by
  obtain ⟨⟨b₁, rets, e1, e2⟩, hn, hi⟩ := h
  obtain ⟨a₁, f1, r1⟩ := run_fwd rest hr e1
  obtain ⟨a', f2, r2⟩ := r1.step e2
  have hu := r2.used
  simp only [stepA, noRetA] at f2
  obtain ⟨a'', f3, f4⟩ := Res.bind_eq_ok.mp f2
  cases f4
  have hx2 := finishWithOpts_ext f3
  have hl2 := hx2.len
  have hm := runA_MA f1 hn
  have hok : MAOk a₁.minAlign := by rw [← r1.minAlign]; exact (hb.run e1).maOk
  obtain ⟨_, _, _, _, _, _, _, _, _, g6, _, g8, _⟩ := finish_spec f3 hok hi (by omega)
  refine ⟨a₁, a', r2, runA_ext f1 hn (by simp only; omega), hx2, hm.1, hok, f3, hu.symm, r2.unfinished.symm, ?_, ?_⟩
  · unfold Builder.finishedData
    have : b'.finished = true := by rw [r2.finished, g8]
    rw [this]
    have h2 := r2.unfinished
    unfold Builder.unfinishedData at h2
    rw [h2]
    cases m <;> rfl
  · intro k hk h0 hle
    have hd : k ∣ max a₁.minAlign 4 := by
      have hle' : k ≤ a₁.minAlign := Nat.le_trans hle hm.1
      unfold MAOk at hk hok
      rcases hok with e | e | e | e | e <;> rw [e] at hle' ⊢ <;>
        rcases hk with e' | e' | e' | e' | e' <;> subst e' <;> first | omega | decide
    exact Nat.mod_eq_zero_of_dvd (Nat.dvd_trans hd (Nat.dvd_of_mod_eq_zero g6))

theorem stepA_wide {m : Mode} {a : ABuilder} {op : Op} {r : Option Nat × ABuilder} (h : stepA m a op = .ok r)
    (hw : op.wide = true) (hs : r.2.data.length < 2 ^ 32) : 4 ≤ r.2.minAlign := by
  have hsz32 : (PTy.sc STy.u32).size = 4 := rfl
  cases op <;> simp only [Op.wide, decide_eq_true_eq, Bool.false_eq_true] at hw <;>
    simp only [stepA, withRetA, noRetA] at h
  all_goals
    obtain ⟨r1, h1, h⟩ := Res.bind_eq_ok.mp h
    injection h with h
    subst h
    simp only at hs ⊢
  case push => have := (push_MA h1).2; omega
  case pushSlotAlways =>
    unfold ABuilder.pushSlotAlways at h1
    obtain ⟨_, _, h1⟩ := Res.bind_eq_ok.mp h1
    obtain ⟨r3, h3, h1⟩ := Res.bind_eq_ok.mp h1
    cases h1
    have := (push_MA h3).2
    simp only
    omega
  case endTable =>
    unfold ABuilder.endTable at h1
    obtain ⟨_, _, h1⟩ := Res.bind_eq_ok.mp h1
    obtain ⟨r3, h3, h1⟩ := Res.bind_eq_ok.mp h1
    cases h1
    simp only at hs ⊢
    obtain ⟨_, _, _, _, _, _, p4, _⟩ := writeVTable_spec h3 hs
    omega
  case endVector =>
    unfold ABuilder.endVector at h1
    obtain ⟨_, _, h1⟩ := Res.bind_eq_ok.mp h1
    have := (push_MA h1).2
    omega
  case createString =>
    obtain ⟨o, a'⟩ := r1
    obtain ⟨_, _, _, e⟩ := createString_spec h1 hs
    rw [e]; simp only; omega
  case createByteString =>
    obtain ⟨o, a'⟩ := r1
    obtain ⟨_, _, e⟩ := createByteString_spec h1 hs
    rw [e]; simp only; omega
  case createVectorDirect =>
    unfold ABuilder.createVectorDirect at h1
    obtain ⟨_, _, h1⟩ := Res.bind_eq_ok.mp h1
    obtain ⟨_, _, h1⟩ := Res.bind_eq_ok.mp h1
    obtain ⟨_, _, h1⟩ := Res.bind_eq_ok.mp h1
    have := (push_MA h1).2
    omega
  case createVector =>
    obtain ⟨o, a'⟩ := r1
    obtain ⟨_, _, _, _, _, _, e⟩ := createVector_spec h1 hs
    rw [e]; simp only; omega
  case createVectorOfStrings =>
    unfold ABuilder.createVectorOfStrings at h1
    obtain ⟨_, _, h1⟩ := Res.bind_eq_ok.mp h1
    obtain ⟨r2, h2, h1⟩ := Res.bind_eq_ok.mp h1
    obtain ⟨o, a'⟩ := r1
    obtain ⟨_, _, _, _, _, _, e⟩ := createVector_spec h1 hs
    rw [e]; simp only; omega

end Butte
