import Verif.Rt.History
/-
When the concrete builder does not panic although the data may be beyond the documented limit.
-/
namespace Butte

theorem grow_ok' {m : Mode} {b : Builder} {a : ABuilder} (h : R b a) (hs : b.buf.length ≤ 2 ^ 61) :
    ∃ b', b.grow m = .ok b' := by
  unfold Builder.grow
  simp only
  have hi : isizeMax = 2 ^ 63 - 1 := rfl
  have hbl := h.bufLen
  rw [if_neg (by omega), if_neg]
  · split
    · exact ⟨_, rfl⟩
    · rename_i h1
      have hnl : max 1 (b.buf.length * 2) = b.buf.length * 2 := by omega
      rw [if_neg]
      · exact ⟨_, rfl⟩
      · simp only [hnl]; simp; omega
  · simp [Builder.usedSpace]; intro _; omega

theorem growLoop_ok {m : Mode} (want : Nat) (n : Nat) : ∀ (b : Builder) (a : ABuilder), R b a →
    want - b.head ≤ n → a.data.length + want ≤ 2 ^ 61 → ∃ b', b.growLoop m want = .ok b' := by
  induction n with
  | zero =>
    intro b a h hn _
    unfold Builder.growLoop
    rw [if_neg (by omega)]
    exact ⟨_, rfl⟩
  | succ n ih =>
    intro b a h hn hs
    unfold Builder.growLoop
    by_cases hlt : b.head < want
    · rw [if_pos hlt]
      have hbl := h.bufLen
      obtain ⟨b1, hg⟩ := grow_ok' (m := m) h (by omega)
      have h1 := growHead h hg
      have := Builder.grow_head hg
      obtain ⟨b', hb'⟩ := ih b1 a h1 (by omega) hs
      refine ⟨b', ?_⟩
      split
      · rename_i b2 hg2; rw [hg] at hg2; cases hg2; exact hb'
      · rename_i hg2; rw [hg] at hg2; cases hg2
      · rename_i hg2; rw [hg] at hg2; cases hg2
    · rw [if_neg hlt]
      exact ⟨_, rfl⟩

/-- Reserving space succeeds for requests up to the limit, however much is already used. -/
theorem makeSpace_ok {m : Mode} {b : Builder} {a : ABuilder} (h : R b a) {want : Nat} (hw : want ≤ 2 ^ 31)
    (hs : a.data.length + want ≤ 2 ^ 61) : ∃ b', b.makeSpace m want = .ok b' := by
  unfold Builder.makeSpace Builder.ensureCapacity
  by_cases hge : b.head ≥ want
  · rw [if_pos hge]
    simp only [Res.ok_bind]
    rw [subU_ok hge]
    exact ⟨_, rfl⟩
  · rw [if_neg hge]
    obtain ⟨b1, h1⟩ := growLoop_ok (m := m) want (want - b.head) b a h (Nat.le_refl _) hs
    obtain ⟨hr, hw'⟩ := (growLoop_sim (m := m) want (want - b.head) b a h (Nat.le_refl _)).1 _ h1
    have : assert (decide (want ≤ maxBufferSize)) = .ok () := by
      unfold assert; exact if_pos (decide_eq_true (by unfold maxBufferSize; omega))
    rw [this, h1]
    simp only [Res.ok_bind]
    rw [subU_ok hw']
    exact ⟨_, rfl⟩

/-- Growing at most doubles what is needed. -/
theorem growLoop_len {m : Mode} (want : Nat) (n : Nat) : ∀ (b b' : Builder) (a : ABuilder), R b a →
    want - b.head ≤ n → b.growLoop m want = .ok b' →
    R b' a ∧ b'.buf.length ≤ max b.buf.length (2 * (a.data.length + want)) := by
  induction n with
  | zero =>
    intro b b' a h hn e
    unfold Builder.growLoop at e
    rw [if_neg (by omega)] at e
    cases e; exact ⟨h, by omega⟩
  | succ n ih =>
    intro b b' a h hn e
    unfold Builder.growLoop at e
    by_cases hlt : b.head < want
    · rw [if_pos hlt] at e
      split at e
      · rename_i b1 hg
        have h1 := growHead h hg
        have hh := Builder.grow_head hg
        obtain ⟨k1, k2⟩ := ih b1 b' a h1 (by omega) e
        refine ⟨k1, ?_⟩
        have hl : b1.buf.length ≤ max 1 (b.buf.length * 2) := by
          unfold Builder.grow at hg
          simp only at hg
          split at hg
          · cases hg
          · split at hg
            · cases hg
            · split at hg
              · cases hg; simp; omega
              · split at hg
                · cases hg
                · cases hg; simp; omega
        have := h.bufLen
        omega
      · cases e
      · cases e
    · rw [if_neg hlt] at e
      cases e; exact ⟨h, by omega⟩

theorem makeSpace_len {m : Mode} {b b' : Builder} {a : ABuilder} (h : R b a) {want : Nat}
    (e : b.makeSpace m want = .ok b') : (want ≤ 2 ^ 31 ∨ want ≤ b.head) ∧
      R b' (a.prepend (List.replicate want 0)) ∧
      b'.buf.length ≤ max b.buf.length (2 * (a.data.length + want)) := by
  have hr := (makeSpace_spec h want).1 _ e
  unfold Builder.makeSpace Builder.ensureCapacity at e
  by_cases hge : b.head ≥ want
  · rw [if_pos hge] at e
    simp only [Res.ok_bind] at e
    rw [subU_ok hge] at e
    cases e
    exact ⟨.inr hge, hr, by simp only; omega⟩
  · rw [if_neg hge] at e
    obtain ⟨b1, e1, e⟩ := Res.bind_eq_ok.mp e
    obtain ⟨_, e0, e1⟩ := Res.bind_eq_ok.mp e1
    obtain ⟨hd, hhd, e⟩ := Res.bind_eq_ok.mp e
    cases e
    obtain ⟨_, k⟩ := growLoop_len (m := m) want (want - b.head) b b1 a h (Nat.le_refl _) e1
    refine ⟨.inl ?_, hr, k⟩
    unfold assert at e0
    split at e0
    · rename_i hw; exact of_decide_eq_true hw
    · cases e0

/-- The value 0 of type `u8`. -/
abbrev zeroByte : SVal .u8 := (0 : Fin 256)

/-- A single byte can be pushed onto any builder holding less than `2^60` bytes. -/
theorem pushByte_ok {m : Mode} {b : Builder} {a : ABuilder} (h : R b a) (hs : a.data.length < 2 ^ 60)
    (x : SVal .u8) : ∃ o b' a', b.push m (PVal.sc x) = .ok (o, b') ∧ R b' a' ∧
      a'.data.length = a.data.length + 1 := by
  have hsz : (PTy.sc STy.u8).size = 1 := rfl
  have hA : a.push m (PVal.sc x) = .ok (_, _) := push_aligned (m := m) (x := PVal.sc x) (by rw [hsz]; omega)
    (by rw [hsz]; omega)
  have hex : ∃ r, b.push m (PVal.sc x) = .ok r := by
    unfold Builder.push Builder.align
    simp only
    have h0 := h.withMinAlign (PTy.sc STy.u8).align
    rw [h0.used]
    simp only
    rw [addU_ok (by rw [hsz]; omega)]
    simp only [Res.ok_bind]
    have hp : paddingBytes (a.data.length + (PTy.sc STy.u8).size) (PTy.sc STy.u8).align = 0 :=
      padding_zero (by rw [hsz]; omega) (PTy.size_p2 _) (Nat.mod_one _)
    rw [hp]
    obtain ⟨b1, e1⟩ := makeSpace_ok (m := m) h0 (want := 0) (by omega) (by simp only; omega)
    have h1 := (makeSpace_spec h0 0).1 _ e1
    rw [e1]
    simp only [Res.ok_bind]
    obtain ⟨b2, e2⟩ := makeSpace_ok (m := m) h1 (want := 1) (by omega) (by simp [ABuilder.prepend]; omega)
    have h2 := (makeSpace_spec h1 1).1 _ e2
    rw [hsz, e2]
    simp only [Res.ok_bind]
    have hl := h2.bufLen
    simp [ABuilder.prepend] at hl
    rw [if_pos (by omega)]
    exact ⟨_, rfl⟩
  obtain ⟨⟨o, b'⟩, e⟩ := hex
  obtain ⟨⟨o', a'⟩, f, _, hr⟩ := (push_sim h _).fwd _ e
  refine ⟨o, b', a', e, hr, ?_⟩
  rw [hA] at f
  cases f
  simp [SVal.bytes_length (t := .u8), STy.size]
  have : (SVal.bytes (t := .u8) (PVal.sc x)).length = 1 := SVal.bytes_length (t := .u8) _
  omega

theorem pushBytes_run {m : Mode} : ∀ (n : Nat) {b : Builder} {a : ABuilder}, R b a → a.data.length + n < 2 ^ 60 →
    ∃ rets b', run m b (List.replicate n (.push (.sc .u8) (PVal.sc (t := .u8) (zeroByte)))) = .ok (rets, b') ∧
      b'.usedSpace = a.data.length + n
  | 0, b, a, h, _ => ⟨[], b, rfl, by rw [h.used]; rfl⟩
  | n + 1, b, a, h, hs => by
    obtain ⟨o, b1, a1, e1, h1, hl⟩ := pushByte_ok (m := m) h (by omega) zeroByte
    obtain ⟨rets, b2, e2, hu⟩ := pushBytes_run (m := m) n h1 (by omega)
    refine ⟨some o :: rets, b2, ?_, by omega⟩
    rw [List.replicate_succ]
    simp only [run, step, withRet]
    rw [e1]
    simp only [Res.pure_eq, Res.ok_bind]
    rw [e2]; rfl

end Butte
