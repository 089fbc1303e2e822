import Verif.Rt.Lemmas
/-
The concrete builder refines the abstract, prepend-only one.
-/
namespace Butte

/-- Refinement relation: the buffer is zeros followed by the abstract data, and all other fields agree. -/
structure R (b : Builder) (a : ABuilder) : Prop where
  buf : b.buf = List.replicate b.head 0 ++ a.data
  len : b.buf.length ≤ isizeMax
  fieldLocs : b.fieldLocs = a.fieldLocs
  vtables : b.vtables = a.vtables
  nested : b.nested = a.nested
  finished : b.finished = a.finished
  minAlign : b.minAlign = a.minAlign
  vtOk : ∀ r ∈ a.vtables, r ≤ a.data.length
  flOk : ∀ f ∈ a.fieldLocs, f.id < 65536

theorem R.bufLen {b : Builder} {a : ABuilder} (h : R b a) : b.buf.length = b.head + a.data.length := by
  rw [h.buf]; simp

theorem R.used {b : Builder} {a : ABuilder} (h : R b a) : b.usedSpace = a.data.length := by
  unfold Builder.usedSpace; rw [h.bufLen]; omega

theorem R.data {b : Builder} {a : ABuilder} (h : R b a) : b.buf.drop b.head = a.data := by
  rw [h.buf, List.drop_left' (by simp)]

/-- Too close to the 2 GiB limit for the concrete builder to be guaranteed to succeed. -/
def ABuilder.Big (a : ABuilder) : Prop := 2 ^ 31 < a.data.length + 2 ^ 17

/-- Simulation between a concrete and an abstract computation: success is matched by success with related
results, and abstract success means concrete success unless the result is `big`. -/
structure Sim (S : β → γ → Prop) (big : γ → Prop) (f : Res β) (g : Res γ) : Prop where
  fwd : ∀ b, f = .ok b → ∃ c, g = .ok c ∧ S b c
  bwd : ∀ c, g = .ok c → (∃ b, f = .ok b) ∨ big c

theorem Sim.bind {S : β → γ → Prop} {big : γ → Prop} {S' : β' → γ' → Prop} {big' : γ' → Prop}
    {f : Res β} {g : Res γ} {f' : β → Res β'} {g' : γ → Res γ'}
    (h : Sim S big f g) (h' : ∀ b c, g = .ok c → S b c → Sim S' big' (f' b) (g' c))
    (mono : ∀ c c', g = .ok c → big c → g' c = .ok c' → big' c') : Sim S' big' (f >>= f') (g >>= g') := by
  constructor
  · intro b hb
    obtain ⟨x, hx, hb⟩ := Res.bind_eq_ok.mp hb
    obtain ⟨y, hy, hs⟩ := h.fwd _ hx
    obtain ⟨c, hc, hs'⟩ := (h' _ _ hy hs).fwd _ hb
    exact ⟨c, Res.bind_eq_ok.mpr ⟨y, hy, hc⟩, hs'⟩
  · intro c hc
    obtain ⟨y, hy, hc⟩ := Res.bind_eq_ok.mp hc
    rcases h.bwd _ hy with ⟨x, hx⟩ | hbig
    · obtain ⟨y', hy', hs⟩ := h.fwd _ hx
      rw [hy] at hy'; cases hy'
      rcases (h' _ _ hy hs).bwd _ hc with ⟨z, hz⟩ | hb
      · exact Or.inl ⟨z, Res.bind_eq_ok.mpr ⟨x, hx, hz⟩⟩
      · exact Or.inr hb
    · exact Or.inr (mono _ _ hy hbig hc)

/-- A concrete step that is invisible abstractly. -/
theorem Sim.bindLeft {S : β → γ → Prop} {big : γ → Prop} {S' : β' → γ' → Prop} {big' : γ' → Prop}
    {f : Res β} {c : γ} {f' : β → Res β'} {G : Res γ'}
    (h : Sim S big f (.ok c)) (h' : ∀ b, S b c → Sim S' big' (f' b) G)
    (mono : ∀ c', big c → G = .ok c' → big' c') : Sim S' big' (f >>= f') G := by
  constructor
  · intro b hb
    obtain ⟨x, hx, hb⟩ := Res.bind_eq_ok.mp hb
    obtain ⟨y, hy, hs⟩ := h.fwd _ hx
    cases hy
    exact (h' _ hs).fwd _ hb
  · intro c' hc
    rcases h.bwd _ rfl with ⟨x, hx⟩ | hbig
    · obtain ⟨y', hy', hs⟩ := h.fwd _ hx
      cases hy'
      rcases (h' _ hs).bwd _ hc with ⟨z, hz⟩ | hb
      · exact Or.inl ⟨z, Res.bind_eq_ok.mpr ⟨x, hx, hz⟩⟩
      · exact Or.inr hb
    · exact Or.inr (mono _ hbig hc)

theorem Sim.pure {S : β → γ → Prop} {big : γ → Prop} {b : β} {c : γ} (h : S b c) :
    Sim S big (.ok b) (.ok c) :=
  ⟨fun _ e => by cases e; exact ⟨c, rfl, h⟩, fun _ _ => Or.inl ⟨b, rfl⟩⟩

theorem Sim.panic {S : β → γ → Prop} {big : γ → Prop} : Sim S big (.panic : Res β) (.panic : Res γ) :=
  ⟨fun _ e => (nomatch e), fun _ e => (nomatch e)⟩

/-- A common pure prefix. -/
theorem Sim.same {S : β → γ → Prop} {big : γ → Prop} {x : Res α} {f : α → Res β} {g : α → Res γ}
    (h : ∀ a, x = .ok a → Sim S big (f a) (g a)) : Sim S big (x >>= f) (x >>= g) := by
  cases x with
  | ok a => exact h a rfl
  | err e => exact ⟨fun _ e => (nomatch e), fun _ e => (nomatch e)⟩
  | panic => exact Sim.panic

/-- Simulation of calls without a result. -/
abbrev Sim0 := Sim R ABuilder.Big
/-- Relation of (result, state) pairs. -/
def R1 (x : α × Builder) (y : α × ABuilder) : Prop := x.1 = y.1 ∧ R x.2 y.2
def Big1 (y : α × ABuilder) : Prop := y.2.Big
/-- Simulation of calls with a result. -/
abbrev Sim1 {α : Type} := Sim (R1 (α := α)) Big1

theorem growHead {m : Mode} {b b' : Builder} {a : ABuilder} (h : R b a) (hg : b.grow m = .ok b') : R b' a := by
  have hb := h.buf
  have hL := h.bufLen
  unfold Builder.grow at hg
  simp only at hg
  split at hg
  · cases hg
  rename_i hlen
  split at hg
  · cases hg
  split at hg
  · rename_i h1
    cases hg
    have h0 : b.buf.length = 0 := by omega
    have hd : a.data = [] := by
      apply List.length_eq_zero_iff.mp; omega
    have hh : b.head = 0 := by omega
    have hbuf : b.buf = [] := List.length_eq_zero_iff.mp h0
    refine ⟨?_, ?_, h.fieldLocs, h.vtables, h.nested, h.finished, h.minAlign, h.vtOk, h.flOk⟩
    · simp [hbuf, hd, hh]
    · simp [hbuf, isizeMax]
  · rename_i h1
    split at hg
    · cases hg
    · rename_i h2
      cases hg
      have hnl : max 1 (b.buf.length * 2) = b.buf.length * 2 := by omega
      have hmid : b.buf.length * 2 / 2 = b.buf.length := by omega
      refine ⟨?_, ?_, h.fieldLocs, h.vtables, h.nested, h.finished, h.minAlign, h.vtOk, h.flOk⟩
      · simp only [hnl, hmid]
        rw [List.take_left' rfl]
        have : b.buf.length * 2 - b.buf.length = b.buf.length := by omega
        rw [this, hb, ← List.append_assoc, List.replicate_append_replicate, ← hb, Nat.add_comm]
      · simp only [hnl, hmid] at *
        rw [List.take_left' rfl]
        simp; omega

theorem grow_ok {m : Mode} {b : Builder} {a : ABuilder} (h : R b a) (hs : b.buf.length ≤ 2 ^ 32) :
    ∃ b', b.grow m = .ok b' := by
  unfold Builder.grow
  simp only
  have hi : isizeMax = 2 ^ 63 - 1 := rfl
  have hbl := h.bufLen
  rw [if_neg (by omega), if_neg]
  · split
    · exact ⟨_, rfl⟩
    · rename_i h1
      have hnl : max 1 (b.buf.length * 2) = b.buf.length * 2 := by omega
      rw [if_neg]
      · exact ⟨_, rfl⟩
      · simp only [hnl]; simp; omega
  · simp [Builder.usedSpace]; intro _; omega

theorem growLoop_sim {m : Mode} (want : Nat) (n : Nat) : ∀ (b : Builder) (a : ABuilder), R b a →
    want - b.head ≤ n →
    (∀ b', b.growLoop m want = .ok b' → R b' a ∧ want ≤ b'.head) ∧
    (a.data.length + want ≤ 2 ^ 31 → ∃ b', b.growLoop m want = .ok b') := by
  induction n with
  | zero =>
    intro b a h hn
    unfold Builder.growLoop
    rw [if_neg (by omega)]
    exact ⟨fun b' e => by cases e; exact ⟨h, by omega⟩, fun _ => ⟨_, rfl⟩⟩
  | succ n ih =>
    intro b a h hn
    unfold Builder.growLoop
    by_cases hlt : b.head < want
    · rw [if_pos hlt]
      constructor
      · intro b' e
        split at e
        · rename_i b1 hg
          have h1 := growHead h hg
          have := Builder.grow_head hg
          exact (ih b1 a h1 (by omega)).1 b' e
        · cases e
        · cases e
      · intro hs
        have hbl := h.bufLen
        obtain ⟨b1, hg⟩ := grow_ok (m := m) h (by omega)
        have h1 := growHead h hg
        have := Builder.grow_head hg
        obtain ⟨b', hb'⟩ := (ih b1 a h1 (by omega)).2 hs
        refine ⟨b', ?_⟩
        split
        · rename_i b2 hg2; rw [hg] at hg2; cases hg2; exact hb'
        · rename_i hg2; rw [hg] at hg2; cases hg2
        · rename_i hg2; rw [hg] at hg2; cases hg2
    · rw [if_neg hlt]
      exact ⟨fun b' e => by cases e; exact ⟨h, by omega⟩, fun _ => ⟨_, rfl⟩⟩

theorem makeSpace_spec {m : Mode} {b : Builder} {a : ABuilder} (h : R b a) (want : Nat) :
    (∀ b', b.makeSpace m want = .ok b' → R b' (a.prepend (List.replicate want 0))) ∧
    (a.data.length + want ≤ 2 ^ 31 → ∃ b', b.makeSpace m want = .ok b') := by
  have key : ∀ b1 : Builder, R b1 a → want ≤ b1.head →
      R { b1 with head := b1.head - want } (a.prepend (List.replicate want 0)) := by
    intro b1 h1 hw
    refine ⟨?_, h1.len, h1.fieldLocs, h1.vtables, h1.nested, h1.finished, h1.minAlign, ?_, h1.flOk⟩
    · simp only [ABuilder.prepend]
      rw [← List.append_assoc, List.replicate_append_replicate, Nat.sub_add_cancel hw]
      exact h1.buf
    · intro r hr
      have := h1.vtOk r hr
      simp [ABuilder.prepend]; omega
  unfold Builder.makeSpace Builder.ensureCapacity
  by_cases hge : b.head ≥ want
  · rw [if_pos hge]
    simp only [Res.ok_bind]
    rw [subU_ok hge]
    exact ⟨fun b' e => by cases e; exact key b h hge, fun _ => ⟨_, rfl⟩⟩
  · rw [if_neg hge]
    have hl := growLoop_sim (m := m) want (want - b.head) b a h (Nat.le_refl _)
    constructor
    · intro b' e
      obtain ⟨b1, h1, e⟩ := Res.bind_eq_ok.mp e
      obtain ⟨_, _, h1⟩ := Res.bind_eq_ok.mp h1
      obtain ⟨hr, hw⟩ := hl.1 _ h1
      rw [subU_ok hw] at e
      cases e
      exact key b1 hr hw
    · intro hs
      obtain ⟨b1, h1⟩ := hl.2 hs
      obtain ⟨hr, hw⟩ := hl.1 _ h1
      refine ⟨{ b1 with head := b1.head - want }, ?_⟩
      rw [h1]
      have : assert (decide (want ≤ maxBufferSize)) = .ok () := by
        unfold assert; exact if_pos (decide_eq_true (by unfold maxBufferSize; omega))
      rw [this]
      simp only [Res.ok_bind]
      rw [subU_ok hw]
      rfl

theorem makeSpace_sim' {m : Mode} {b : Builder} {a : ABuilder} (h : R b a) (want : Nat) :
    Sim R (fun c => 2 ^ 31 < c.data.length) (b.makeSpace m want)
      (.ok (a.prepend (List.replicate want 0))) := by
  obtain ⟨h1, h2⟩ := makeSpace_spec (m := m) h want
  constructor
  · intro b' e; exact ⟨_, rfl, h1 b' e⟩
  · intro c e
    cases e
    by_cases hs : a.data.length + want ≤ 2 ^ 31
    · exact Or.inl (h2 hs)
    · right; simp [ABuilder.prepend]; omega

theorem makeSpace_sim {m : Mode} {b : Builder} {a : ABuilder} (h : R b a) (want : Nat) :
    Sim0 (b.makeSpace m want) (.ok (a.prepend (List.replicate want 0))) :=
  ⟨(makeSpace_sim' h want).fwd, fun c e => ((makeSpace_sim' h want).bwd c e).imp_right
    (fun h => by unfold ABuilder.Big; omega)⟩

end Butte
