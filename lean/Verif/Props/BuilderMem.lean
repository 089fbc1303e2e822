import Verif.Rt.Progress
import Verif.Rt.Sample
/-
Properties C07–C12, C27, C29: the builder's buffer.
-/
namespace Butte

set_option maxRecDepth 4000

/-- Two builders with the same abstract state cannot be told apart. -/
theorem R.indist {m : Mode} {b c : Builder} {a : ABuilder} (hb : R b a) (hc : R c a) :
    Indistinguishable m b c := by
  refine ⟨?_, ?_, ?_⟩
  · intro ops r b' r' c' e1 e2
    obtain ⟨e, a', k1, k2⟩ := R.run_eq hb hc e1 e2
    refine ⟨e, ?_⟩
    unfold Builder.view Builder.finishedData Builder.numWrittenVTables
    rw [k1.unfinished, k2.unfinished, k1.data, k2.data, k1.finished, k2.finished, k1.vtables, k2.vtables]
  · intro ops r b' e hs
    obtain ⟨c', e', _⟩ := R.run_transfer hb hc e hs
    exact ⟨c', e'⟩
  · intro ops r c' e hs
    obtain ⟨b', e', _⟩ := R.run_transfer hc hb e hs
    exact ⟨b', e'⟩

/-! ### C07 -/

/-- **C07** Builders created with any two capacities cannot be told apart by any sequence of calls. -/
theorem C07_capacity_independence (m : Mode) (cap₁ cap₂ : Nat) (b₁ b₂ : Builder)
    (h₁ : Builder.newWithCapacity cap₁ = .ok b₁) (h₂ : Builder.newWithCapacity cap₂ = .ok b₂) :
    Indistinguishable m b₁ b₂ :=
  (new_R h₁).indist (new_R h₂)

/-- The reading of **C07** in its words: same return values, same data, whenever both runs complete. -/
theorem C07_same_output (m : Mode) (cap₁ cap₂ : Nat) (b₁ b₂ b₁' b₂' : Builder) (ops : List Op)
    (r₁ r₂ : List (Option Nat))
    (h₁ : Builder.newWithCapacity cap₁ = .ok b₁) (h₂ : Builder.newWithCapacity cap₂ = .ok b₂)
    (e₁ : run m b₁ ops = .ok (r₁, b₁')) (e₂ : run m b₂ ops = .ok (r₂, b₂')) :
    r₁ = r₂ ∧ b₁'.unfinishedData = b₂'.unfinishedData ∧ b₁'.finishedData m = b₂'.finishedData m := by
  obtain ⟨h, hv⟩ := (C07_capacity_independence m cap₁ cap₂ b₁ b₂ h₁ h₂).agree ops _ _ _ _ e₁ e₂
  unfold Builder.view at hv
  injection hv with hv1 hv2
  injection hv2 with hv2 hv3
  exact ⟨h, hv1, hv2⟩

/-- The calls of `sampleOps` complete on a builder of capacity 64 and on one of capacity 40. -/
example (m : Mode) : ∃ b₁ b₂ r₁ r₂ b₁' b₂', Builder.newWithCapacity 64 = .ok b₁ ∧ Builder.newWithCapacity 40 = .ok b₂ ∧
    run m b₁ sampleOps = .ok (r₁, b₁') ∧ run m b₂ sampleOps = .ok (r₂, b₂') ∧ b₁'.unfinishedData.length = 32 := by
  obtain ⟨b₁, r₁, b₁', h1, e1, p1⟩ := fromNew_ex (m := m) (cap := 64) (ops := sampleOps)
    (p := fun r => r.2.unfinishedData.length == 32) (by cases m <;> decide)
  obtain ⟨b₂, r₂, b₂', h2, e2, _⟩ := fromNew_ex (m := m) (cap := 40) (ops := sampleOps)
    (p := fun _ => true) (by cases m <;> decide)
  exact ⟨b₁, b₂, r₁, r₂, b₁', b₂', h1, h2, e1, e2, by simpa using p1⟩

/-! ### C08 -/

/-- **C08** Any call other than `reset` leaves the data written so far as a suffix of the new data (below
4 GiB; beyond that the 32-bit offsets wrap). -/
theorem C08_never_overwritten (m : Mode) (b b' : Builder) (op : Op) (r : Option Nat) (hb : Reachable m b)
    (e : step m b op = .ok (r, b')) (hop : op.isReset = false) (hs : b'.usedSpace < 2 ^ 32) :
    ∃ pre, b'.unfinishedData = pre ++ b.unfinishedData := by
  obtain ⟨a, h⟩ := hb.toR
  obtain ⟨⟨r', a'⟩, f, _, h'⟩ := (step_sim h op).fwd _ e
  simp only at h'
  rw [h'.unfinished, h.unfinished]
  exact stepA_ext f hop (by rw [← h'.used]; exact hs)

/-- … and so does any sequence of such calls. -/
theorem C08_never_overwritten_run (m : Mode) (b b' : Builder) (ops : List Op) (r : List (Option Nat))
    (hb : Reachable m b) (e : run m b ops = .ok (r, b')) (hop : NoReset ops) (hs : b'.usedSpace < 2 ^ 32) :
    ∃ pre, b'.unfinishedData = pre ++ b.unfinishedData := by
  obtain ⟨a, h⟩ := hb.toR
  obtain ⟨a', f, h'⟩ := run_fwd ops h e
  rw [h'.unfinished, h.unfinished]
  exact runA_ext f hop (by rw [← h'.used]; exact hs)

/-- Concrete case: every call of `sampleOps` is one that C08 speaks about, from a reachable state. -/
example (m : Mode) : ∃ b r b', Reachable m b ∧ b.unfinishedData = [7] ∧
    run m b sampleOps = .ok (r, b') ∧ NoReset sampleOps ∧ b'.usedSpace < 2 ^ 32 := by
  obtain ⟨b, hb, _, p⟩ := fromNew_reachable (m := m) (cap := 64) (ops := [.push _ (u8c 7)])
    (p := fun r => r.2.unfinishedData == [7] && (run m r.2 sampleOps).okAnd fun q => decide (q.2.usedSpace < 2 ^ 32))
    (by cases m <;> decide)
  simp only [Bool.and_eq_true, beq_iff_eq] at p
  obtain ⟨⟨r, b'⟩, e, q⟩ := Res.okAnd_ex p.2
  exact ⟨b, r, b', hb, p.1, e, by decide, of_decide_eq_true q⟩

/-! ### C09 -/

/-- **C09** At every point the unused front of the buffer is all zero, and the buffer is that front
followed by the written data. -/
theorem C09_unused_zero (m : Mode) (b : Builder) (hb : Reachable m b) :
    b.head ≤ b.buf.length ∧ b.buf.take b.head = List.replicate b.head 0 ∧
      b.buf = List.replicate b.head 0 ++ b.unfinishedData := by
  obtain ⟨a, h⟩ := hb.toR
  have hl := h.bufLen
  refine ⟨by omega, ?_, ?_⟩
  · rw [h.buf, List.take_left' (by simp)]
  · rw [h.unfinished]; exact h.buf

/-- Consequence of **C09**: what `push` writes of a scalar is its bytes, then zero padding, then the old data. -/
theorem C09_padding_zero (m : Mode) (b b' : Builder) (t : STy) (x : SVal t) (r : Option Nat)
    (hb : Reachable m b) (e : step m b (.push (.sc t) (PVal.sc x)) = .ok (r, b'))
    (hs : b.usedSpace + 8 < 2 ^ 64) :
    ∃ pad, pad < t.size ∧ b'.unfinishedData = x.bytes ++ (List.replicate pad 0 ++ b.unfinishedData) := by
  obtain ⟨a, h⟩ := hb.toR
  obtain ⟨⟨r', a'⟩, f, _, h'⟩ := (step_sim h _).fwd _ e
  simp only at h'
  simp only [stepA, withRetA] at f
  obtain ⟨⟨o, a1⟩, f1, f⟩ := Res.bind_eq_ok.mp f
  cases f
  have := t.size_le
  have hsz : (PTy.sc t).size = t.size := rfl
  rw [h.used] at hs
  obtain ⟨bs, k1, k2, _, k3⟩ := push_spec f1 (by rw [hsz]; omega)
  refine ⟨paddingBytes (a.data.length + t.size) t.size, ?_, ?_⟩
  rotate_left
  · rw [h'.unfinished, h.unfinished, k3]
    simp only [PVal.pushBytes] at k1
    cases k1; rfl
  · obtain ⟨k, hk, e⟩ := t.size_pow2
    exact padding_lt (by omega) ⟨k, by omega, e⟩

/-- Concrete case: padding is really inserted (a `u32` pushed on one byte). -/
example (m : Mode) : ∃ b r b', Reachable m b ∧
    step m b (.push (.sc .u32) (PVal.sc (u32v 9))) = .ok (r, b') ∧ b'.unfinishedData = [9, 0, 0, 0, 0, 0, 0, 7] := by
  obtain ⟨b, hb, _, p⟩ := fromNew_reachable (m := m) (cap := 64) (ops := [.push _ (u8c 7)])
    (p := fun r => (step m r.2 (.push (.sc .u32) (PVal.sc (u32v 9)))).okAnd fun q =>
      q.2.unfinishedData == [9, 0, 0, 0, 0, 0, 0, 7]) (by cases m <;> decide)
  obtain ⟨⟨r, b'⟩, e, q⟩ := Res.okAnd_ex p
  exact ⟨b, r, b', hb, e, by simpa using q⟩

/-! ### C10, C11 -/

theorem after_fl {m : Mode} : ∀ {ops : List Op} {o o' : Open} {a : ABuilder} {r : List (Option Nat) × ABuilder},
    runA m a ops = .ok r → o.after ops = some o' → (o ≠ .table → a.fieldLocs = []) → o' ≠ .table →
    r.2.fieldLocs = []
  | [], o, o', a, r, h, ho, hf, hn => by
    cases h; cases ho; exact hf hn
  | op :: ops, o, o', a, r, h, ho, hf, hn => by
    unfold runA at h
    obtain ⟨r1, h1, h⟩ := Res.bind_eq_ok.mp h
    obtain ⟨r2, h2, h⟩ := Res.bind_eq_ok.mp h
    cases h
    simp only [Open.after] at ho
    cases hnx : o.next op with
    | none => rw [hnx] at ho; cases ho
    | some o1 =>
      rw [hnx] at ho
      simp only at ho
      refine after_fl (r := r2) h2 ho (fun ho1 => ?_) hn
      by_cases het : ∃ t, op = .endTable t
      · obtain ⟨t, rfl⟩ := het
        simp only [stepA, withRetA] at h1
        obtain ⟨r4, g4, h1⟩ := Res.bind_eq_ok.mp h1
        cases h1
        exact (endTable_fl g4).1
      · have hot : o ≠ .table := by
          rintro rfl
          cases op <;> simp [Open.next] at hnx <;> first
            | exact ho1 hnx.symm
            | exact het ⟨_, rfl⟩
        refine stepA_fl h1 ?_ (hf hot)
        cases op <;> cases o <;> simp [Open.next] at hnx <;> simp_all [Op.slot?]

/-- **C10** After a history that follows the nesting protocol and ends in `finish`, `reset` gives a builder
that no sequence of calls can tell from a new one of any capacity. -/
theorem C10_reset_after_finish (m : Mode) (cap : Nat) (b₀ b : Builder) (ops : List Op) (root : Fin (2 ^ 32))
    (ident : Option Bytes) (sp : Bool) (rets : List (Option Nat))
    (h₀ : Builder.newWithCapacity cap = .ok b₀)
    (e : run m b₀ (ops ++ [.finish root ident sp, .reset]) = .ok (rets, b))
    (hp : Open.nothing.after ops = some .nothing)
    (cap' : Nat) (fresh : Builder) (hf : Builder.newWithCapacity cap' = .ok fresh) :
    Indistinguishable m b fresh := by
  obtain ⟨a1, f1, k1⟩ := run_fwd _ (new_R h₀) e
  obtain ⟨r1, a2, r2, g1, g2, _⟩ := runA_append.mp f1
  have hfl : a2.fieldLocs = [] := after_fl (o := .nothing) g1 hp (fun _ => rfl) (by decide)
  simp only [runA] at g2
  obtain ⟨⟨r3, a3⟩, g3, g2⟩ := Res.bind_eq_ok.mp g2
  have hfl3 : a3.fieldLocs = [] := stepA_fl g3 rfl hfl
  simp only [stepA, Res.ok_bind, Res.pure_eq] at g2
  cases g2
  have : a3.reset = ABuilder.init := by
    unfold ABuilder.reset; rw [hfl3]; rfl
  rw [this] at k1
  exact k1.indist (new_R hf)

/-- Concrete case: `sampleOps` is such a history. -/
example (m : Mode) : ∃ b₀ r b, Builder.newWithCapacity 64 = .ok b₀ ∧
    run m b₀ (sampleTable ++ [.finish 20 none false, .reset]) = .ok (r, b) ∧
    Open.nothing.after sampleTable = some .nothing := by
  obtain ⟨b₀, r, b, h, e, _⟩ := fromNew_ex (m := m) (cap := 64)
    (ops := sampleTable ++ [.finish 20 none false, .reset]) (p := fun _ => true) (by cases m <;> decide)
  exact ⟨b₀, r, b, h, e, by decide⟩

/-- The full claim of **C11**: `reset` at any point gives a builder that behaves like a new one. -/
def C11_full (m : Mode) : Prop :=
  ∀ cap b₀ ops rets b cap' fresh, Builder.newWithCapacity cap = .ok b₀ → run m b₀ ops = .ok (rets, b) →
    Builder.newWithCapacity cap' = .ok fresh → Indistinguishable m b.reset fresh

/-- A table is abandoned half-way by `reset`; the next, empty table then gets a vtable with a field in it. -/
def leakOps : List Op := [.startTable, .pushSlotAlways 4 (.sc .u8) (u8c 1)]
def leakProbe : List Op := [.startTable, .endTable 0]

/-- **C11 is false** of the code, in both profiles: `reset` does not clear the pending field locations. -/
theorem C11_refuted (m : Mode) : ¬ C11_full m := by
  intro h
  obtain ⟨b₀, r, b, h0, e, p⟩ := fromNew_ex (m := m) (cap := 64) (ops := leakOps)
    (p := fun r => (run m r.2.reset leakProbe).okAnd fun q => q.2.unfinishedData.length == 10)
    (by cases m <;> decide)
  obtain ⟨fresh, r', c', hf, e', p'⟩ := fromNew_ex (m := m) (cap := 64) (ops := leakProbe)
    (p := fun q => q.2.unfinishedData.length == 8) (by cases m <;> decide)
  obtain ⟨⟨r1, b1⟩, e1, p1⟩ := Res.okAnd_ex p
  have := (h 64 b₀ leakOps r b 64 fresh h0 e hf).agree leakProbe _ _ _ _ e1 e'
  unfold Builder.view at this
  have h2 : b1.unfinishedData = c'.unfinishedData := by
    have := this.2; injection this
  simp only [beq_iff_eq] at p1 p'
  rw [h2, p'] at p1
  cases p1

/-- **C11**, the part that holds: with no field pending (nothing pushed into a slot since the last
`end_table`), `reset` gives a builder that behaves like a new one. Missing: histories with an abandoned
table, for which the claim is false (`C11_refuted`). -/
theorem C11_partial (m : Mode) (b : Builder) (hb : Idle m b)
    (cap' : Nat) (fresh : Builder) (hf : Builder.newWithCapacity cap' = .ok fresh) :
    Indistinguishable m b.reset fresh := by
  obtain ⟨a, h, hfl⟩ := hb.toR
  have k := reset_R h
  have : a.reset = ABuilder.init := by
    unfold ABuilder.reset; rw [hfl]; rfl
  rw [this] at k
  exact k.indist (new_R hf)

/-- Concrete case: in the middle of a vector, after a complete table. -/
example (m : Mode) : ∃ b, Idle m b ∧ b.nested = true ∧ b.unfinishedData.length = 32 := by
  obtain ⟨b₀, r, b, h, e, p⟩ := fromNew_ex (m := m) (cap := 64)
    (ops := sampleTable ++ [.startVector (.sc .u16) 3, .push _ (u16c 5)])
    (p := fun r => r.2.nested && r.2.unfinishedData.length == 32) (by cases m <;> decide)
  refine ⟨b, ⟨64, b₀, _, r, h, e, sampleTable, _, rfl, .inr ⟨sampleTable.dropLast, 8, rfl⟩, by decide⟩, ?_⟩
  simpa using p

/-! ### C12 -/

/-- **C12** The padding chosen before `len` bytes when `s` bytes are used is the least `p` that makes
`s + p + len` a multiple of the power of two `a`. -/
theorem C12_padding (s len k : Nat) (hs : s + len < 2 ^ 63) (hk : k < 64) :
    2 ^ k ∣ s + paddingBytes (s + len) (2 ^ k) + len ∧
      ∀ p, 2 ^ k ∣ s + p + len → paddingBytes (s + len) (2 ^ k) ≤ p := by
  have h1 := padding_dvd (n := s + len) (a := 2 ^ k) (by omega) ⟨k, hk, rfl⟩
  have h2 := padding_lt (n := s + len) (a := 2 ^ k) (by omega) ⟨k, hk, rfl⟩
  generalize paddingBytes (s + len) (2 ^ k) = q at *
  have hd : 2 ^ k ∣ s + q + len := by
    apply Nat.dvd_of_mod_eq_zero; rw [← h1]; congr 1; omega
  refine ⟨hd, fun p hp => ?_⟩
  by_contra hlt
  have hsub : 2 ^ k ∣ (s + q + len) - (s + p + len) := Nat.dvd_sub hd hp
  have : (s + q + len) - (s + p + len) = q - p := by omega
  rw [this] at hsub
  have := Nat.le_of_dvd (by omega) hsub
  omega

/-- … and that is what `push` really inserts: the new data length is `used + padding + size`. -/
theorem C12_push_padding (m : Mode) (b b' : Builder) (t : STy) (x : SVal t) (r : Option Nat)
    (hb : Reachable m b) (e : step m b (.push (.sc t) (PVal.sc x)) = .ok (r, b'))
    (hs : b.usedSpace + 8 < 2 ^ 63) :
    t.size ∣ b'.usedSpace ∧ ∀ p, t.size ∣ b.usedSpace + p + t.size → b'.usedSpace ≤ b.usedSpace + p + t.size := by
  obtain ⟨a, h⟩ := hb.toR
  obtain ⟨⟨r', a'⟩, f, _, h'⟩ := (step_sim h _).fwd _ e
  simp only at h'
  simp only [stepA, withRetA] at f
  obtain ⟨⟨o, a1⟩, f1, f⟩ := Res.bind_eq_ok.mp f
  cases f
  have := t.size_le
  have hsz : (PTy.sc t).size = t.size := rfl
  rw [h.used] at hs ⊢
  obtain ⟨bs, k1, k2, _, k3⟩ := push_spec f1 (by rw [hsz]; omega)
  obtain ⟨k, hk, ek⟩ := t.size_pow2
  have hl : b'.usedSpace = a.data.length + paddingBytes (a.data.length + t.size) t.size + t.size := by
    rw [h'.used, k3]; simp; rw [k2, hsz]; omega
  rw [hl, ek]
  obtain ⟨c1, c2⟩ := C12_padding a.data.length (2 ^ k) k (by omega) (by omega)
  refine ⟨c1, fun p hp => ?_⟩
  have := c2 p hp
  omega

example : paddingBytes (5 + 4) (2 ^ 3) = 7 := by decide

/-! ### C27 -/

/-- The full claim of **C27**: no reachable builder holds more data than the documented limit. -/
def C27_full (m : Mode) : Prop := ∀ b, Reachable m b → b.usedSpace ≤ maxBufferSize

/-- **C27 is false** of the code: single requests are checked against the limit, totals are not. A builder
can be filled byte by byte to any size below `2^60`. -/
theorem C27_unbounded (m : Mode) (n : Nat) (hn : n < 2 ^ 60) : ∃ b, Reachable m b ∧ b.usedSpace = n := by
  obtain ⟨b₀, _, _, h, _, _⟩ := fromNew_ex (m := m) (cap := 0) (ops := []) (p := fun _ => true)
    (by cases m <;> decide)
  obtain ⟨r, b, e, hu⟩ := pushBytes_run (m := m) n (new_R h) (by simpa [ABuilder.init] using hn)
  exact ⟨b, ⟨0, b₀, _, r, h, e⟩, by simpa [ABuilder.init] using hu⟩

theorem C27_refuted (m : Mode) : ¬ C27_full m := by
  intro h
  obtain ⟨b, hb, hu⟩ := C27_unbounded m (2 ^ 31 + 1) (by decide)
  have := h b hb
  unfold maxBufferSize at this
  omega

/-- **C27**, the part that holds: a capacity above the limit is rejected, and so is a single string of more
than `2^31` bytes unless the buffer had already been allocated larger than `2^30`. Missing: a bound on the
total (`C27_refuted`). -/
theorem C27_partial (m : Mode) :
    (∀ cap, (∃ b, Builder.newWithCapacity cap = .ok b) ↔ cap ≤ 2 ^ 31) ∧
    (∀ b bs, Reachable m b → bs.length < 2 ^ 63 → 2 ^ 31 < bs.length → b.buf.length ≤ 2 ^ 30 →
      ∀ r b', step m b (.createByteString bs) ≠ .ok (r, b')) := by
  constructor
  · intro cap
    unfold Builder.newWithCapacity assert maxBufferSize
    by_cases h : cap ≤ 2 ^ 31
    · simp [h]
    · simp [h]
  · intro b bs hb hlt hgt hcap r b' e
    obtain ⟨a, h⟩ := hb.toR
    simp only [step, withRet] at e
    obtain ⟨r1, e, _⟩ := Res.bind_eq_ok.mp e
    unfold Builder.createByteString at e
    obtain ⟨_, _, e⟩ := Res.bind_eq_ok.mp e
    obtain ⟨n, hn, e⟩ := Res.bind_eq_ok.mp e
    obtain ⟨b1, e1, e⟩ := Res.bind_eq_ok.mp e
    obtain ⟨⟨o2, b2⟩, e2, e⟩ := Res.bind_eq_ok.mp e
    obtain ⟨b3, e3, e⟩ := Res.bind_eq_ok.mp e
    rw [addU_ok (by omega)] at hn
    cases hn
    have hl := h.bufLen
    -- the padding
    unfold Builder.align at e1
    simp only at e1
    have h0 := h.withMinAlign 4
    rw [h0.used] at e1
    simp only at e1
    rw [addU_ok (by omega)] at e1
    simp only [Res.ok_bind] at e1
    have hp := padding_lt (n := a.data.length + (bs.length + 1)) (a := 4) (by omega) pow2_4
    generalize paddingBytes (a.data.length + (bs.length + 1)) 4 = pad at *
    obtain ⟨_, h1, l1⟩ := makeSpace_len h0 e1
    -- the terminator
    unfold Builder.push Builder.align at e2
    simp only at e2
    have h1' := h1.withMinAlign (PTy.sc STy.u8).align
    have hl1 := h1'.bufLen
    simp only [ABuilder.prepend, List.length_append, List.length_replicate] at hl1
    rw [h1'.used] at e2
    simp only [ABuilder.prepend, List.length_append, List.length_replicate] at e2
    have hsz : (PTy.sc STy.u8).size = 1 := rfl
    rw [hsz, addU_ok (by omega)] at e2
    simp only [Res.ok_bind] at e2
    have hp0 : paddingBytes (pad + a.data.length + 1) (PTy.sc STy.u8).align = 0 :=
      padding_zero (by omega) (PTy.size_p2 _) (Nat.mod_one _)
    rw [hp0] at e2
    obtain ⟨b4, e4, e2⟩ := Res.bind_eq_ok.mp e2
    obtain ⟨_, h4, l4⟩ := makeSpace_len h1' e4
    obtain ⟨b5, e5, e2⟩ := Res.bind_eq_ok.mp e2
    obtain ⟨_, h5, l5⟩ := makeSpace_len h4 e5
    have hl5 := h5.bufLen
    simp only [ABuilder.prepend, List.length_append, List.length_replicate] at hl5 l4 l5 l1
    split at e2
    · obtain ⟨bs2, _, e2⟩ := Res.bind_eq_ok.mp e2
      cases e2
      unfold Builder.pushBytesUnprefixed Builder.makeSpace Builder.ensureCapacity at e3
      simp only at e3
      rw [if_neg (by omega)] at e3
      have : assert (decide (bs.length ≤ maxBufferSize)) = .panic := by
        unfold assert maxBufferSize; rw [if_neg]; simp; omega
      rw [this] at e3
      simp at e3
    · cases e2

/-! ### C29 -/

/-- **C29** `collapse` returns the buffer and the head such that `buf[head..]` is the written data. -/
theorem C29_collapse (m : Mode) (b : Builder) (hb : Reachable m b) :
    b.collapse.2 ≤ b.collapse.1.length ∧ b.collapse.1.drop b.collapse.2 = b.unfinishedData ∧
      (∀ d, b.finishedData m = .ok d → b.collapse.1.drop b.collapse.2 = d) := by
  refine ⟨(C09_unused_zero m b hb).1, rfl, ?_⟩
  intro d h
  unfold Builder.finishedData at h
  obtain ⟨_, _, h⟩ := Res.bind_eq_ok.mp h
  cases h; rfl

example (m : Mode) : ∃ b d, Reachable m b ∧ b.finishedData m = .ok d ∧ d.length = 32 := by
  obtain ⟨b, hb, _, p⟩ := fromNew_reachable (m := m) (cap := 64) (ops := sampleOps)
    (p := fun r => (r.2.finishedData m).okAnd fun d => d.length == 32) (by cases m <;> decide)
  obtain ⟨d, e, q⟩ := Res.okAnd_ex p
  exact ⟨b, d, hb, e, by simpa using q⟩

end Butte
