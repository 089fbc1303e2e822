import Verif.Rt.Growth
import Verif.Rt.History
import Verif.Rt.Sample
import Verif.Tests.Kernel
import Mathlib.Algebra.Order.BigOperators.Group.Finset
import Mathlib.Algebra.BigOperators.Intervals
/-
Property C93: how much memory the builder takes.
-/
namespace Butte

set_option maxRecDepth 8000

/-- No call uses a slot beyond `k`. (Slots are the offsets of entries in vtables: table field `i` has slot `4 + 2 * i`.) -/
def SlotsWithin (k : Nat) (ops : List Op) : Prop := ∀ op ∈ ops, op.slotUpTo k

/-- After the calls `pre`, at the beginning of `ops`, the builder is `b'`. -/
def Passes (m : Mode) (b₀ : Builder) (ops : List Op) (b' : Builder) : Prop :=
  ∃ pre post rets, ops = pre ++ post ∧ run m b₀ pre = .ok (rets, b')

theorem Passes.cons {m : Mode} {b₀ b₁ b' : Builder} {op : Op} {ops : List Op} {r : Option Nat}
    (h : step m b₀ op = .ok (r, b₁)) (hp : Passes m b₁ ops b') : Passes m b₀ (op :: ops) b' := by
  obtain ⟨pre, post, rets, rfl, hr⟩ := hp
  exact ⟨op :: pre, post, r :: rets, rfl, by rw [run, h]; show (run m b₁ pre >>= _) = _; rw [hr]; rfl⟩

theorem Passes.start (m : Mode) (b₀ : Builder) (ops : List Op) : Passes m b₀ ops b₀ := ⟨[], ops, [], rfl, rfl⟩

theorem Passes.step {m : Mode} {b₀ b₁ : Builder} {op : Op} {ops : List Op} {r : Option Nat}
    (h : Butte.step m b₀ op = .ok (r, b₁)) : Passes m b₀ (op :: ops) b₁ := .cons h (.start m b₁ ops)

theorem reset_len (b : Builder) (hb : b.head ≤ b.buf.length) : b.reset.buf.length = b.buf.length := by
  show (b.buf.take b.head ++ List.replicate (b.buf.length - b.head) 0).length = _
  simp; omega

theorem run_grown {m : Mode} {k : Nat} (hk : 2 ≤ k) : ∀ {ops : List Op} {b₀ b : Builder} {rets : List (Option Nat)},
    b₀.head ≤ b₀.buf.length → b₀.SlotsUpTo k → SlotsWithin k ops → run m b₀ ops = .ok (rets, b) →
    (b.head ≤ b.buf.length ∧ b.SlotsUpTo k) ∧ (b.buf.length = b₀.buf.length ∨ (∃ j, b.buf.length = 2 ^ j * max 1 b₀.buf.length) ∧
      (∃ b', Passes m b₀ ops b' ∧ b.buf.length ≤ 2 * (b'.usedSpace + k + 2)) ∧
      ∃ b', Passes m b₀ ops b' ∧ b₀.buf.length < b'.usedSpace + k + 2)
  | [], b₀, b, rets, hb, hs, _, h => by cases h; exact ⟨⟨hb, hs⟩, .inl rfl⟩
  | op :: ops, b₀, b, rets, hb, hs, ho, h => by
    obtain ⟨⟨r, b₁⟩, h1, h2⟩ := Res.bind_eq_ok.mp h
    obtain ⟨⟨rs, b₂⟩, h3, h4⟩ := Res.bind_eq_ok.mp h2
    cases h4
    cases hr : op.isReset with
    | true =>
      cases op <;> cases hr
      cases h1
      have hl := reset_len b₀ hb
      obtain ⟨e1, e2⟩ := run_grown hk (b₀ := b₀.reset) (Nat.le_of_eq hl.symm) hs (fun op h => ho op (by simp [h])) h3
      refine ⟨e1, ?_⟩
      rw [hl] at e2
      rcases e2 with e2 | ⟨e2, ⟨b', e3, e4⟩, b'', e5, e6⟩
      · exact .inl e2
      · exact .inr ⟨e2, ⟨b', .cons (r := none) rfl e3, e4⟩, b'', .cons (r := none) rfl e5, e6⟩
    | false =>
      obtain ⟨g, hs'⟩ := step_grown hk hb hs (ho op (by simp)) hr h1
      obtain ⟨e1, e2⟩ := run_grown hk g.fit hs' (fun op h => ho op (by simp [h])) h3
      refine ⟨e1, ?_⟩
      by_cases hne : b₁.buf.length = b₀.buf.length
      · rw [hne] at e2
        rcases e2 with e2 | ⟨e2, ⟨b', e3, e4⟩, b'', e5, e6⟩
        · exact .inl e2
        · exact .inr ⟨e2, ⟨b', .cons h1 e3, e4⟩, b'', .cons h1 e5, e6⟩
      · right
        obtain ⟨i, hi⟩ := g.doubled.resolve_left hne
        have hn := g.need hne
        have hu := g.upper
        refine ⟨?_, ?_, b₁, .step h1, by omega⟩
        · rcases e2 with e2 | ⟨⟨j, e2⟩, -⟩
          · exact ⟨i, e2.trans hi⟩
          · have : 1 ≤ b₁.buf.length := by rw [hi]; exact Nat.mul_pos (Nat.two_pow_pos i) (by omega)
            exact ⟨j + i, by rw [e2, Nat.max_eq_right this, hi, Nat.pow_add, Nat.mul_assoc]⟩
        · rcases e2 with e2 | ⟨-, ⟨b', e3, e4⟩, -⟩
          · exact ⟨b₁, .step h1, by omega⟩
          · exact ⟨b', .cons h1 e3, e4⟩

theorem new_fresh {cap : Nat} {b₀ : Builder} (h : Builder.newWithCapacity cap = .ok b₀) (k : Nat) :
    b₀.buf.length = cap ∧ b₀.head ≤ b₀.buf.length ∧ b₀.SlotsUpTo k := by
  obtain ⟨_, -, h⟩ := Res.bind_eq_ok.mp h
  cases h
  exact ⟨by simp, by simp, nofun⟩

/-- **C93, memory**: whatever calls are made, in any order, the buffer of the builder is no larger than the capacity it
was created with, or else than twice the data it had to hold at some time, with room for one vtable more. -/
theorem C93_memory (m : Mode) (cap : Nat) (b₀ b : Builder) (ops : List Op) (rets : List (Option Nat)) (k : Nat) (hk : 2 ≤ k)
    (h₀ : Builder.newWithCapacity cap = .ok b₀) (hs : SlotsWithin k ops) (h : run m b₀ ops = .ok (rets, b)) :
    b.buf.length ≤ cap ∨ ∃ b', Passes m b₀ ops b' ∧ b.buf.length ≤ 2 * (b'.usedSpace + k + 2) := by
  obtain ⟨h1, h2, h3⟩ := new_fresh h₀ k
  rcases (run_grown hk h2 h3 hs h).2 with e | ⟨-, e, -⟩
  · exact .inl (by omega)
  · exact .inr e

/-- **C93, memory**, without looking at the slots: 65535 is the last. -/
theorem C93_memory_any (m : Mode) (cap : Nat) (b₀ b : Builder) (ops : List Op) (rets : List (Option Nat))
    (h₀ : Builder.newWithCapacity cap = .ok b₀) (h : run m b₀ ops = .ok (rets, b)) :
    b.buf.length ≤ cap ∨ ∃ b', Passes m b₀ ops b' ∧ b.buf.length ≤ 2 * (b'.usedSpace + 65537) := by
  refine C93_memory m cap b₀ b ops rets 65535 (by omega) h₀ (fun op _ => ?_) h
  cases op <;> first | exact Nat.le_of_lt_succ (Fin.isLt _) | trivial

/-- **C93, capacity**: a capacity that suffices is never exceeded: the buffer is allocated once. -/
theorem C93_capacity (m : Mode) (cap : Nat) (b₀ b : Builder) (ops : List Op) (rets : List (Option Nat)) (k : Nat) (hk : 2 ≤ k)
    (h₀ : Builder.newWithCapacity cap = .ok b₀) (hs : SlotsWithin k ops)
    (hc : ∀ b', Passes m b₀ ops b' → b'.usedSpace + k + 2 ≤ cap) (h : run m b₀ ops = .ok (rets, b)) :
    b.buf.length = cap := by
  obtain ⟨h1, h2, h3⟩ := new_fresh h₀ k
  rcases (run_grown hk h2 h3 hs h).2 with e | ⟨-, -, b', e1, e2⟩
  · omega
  · have := hc b' e1; omega

/-- **C93, doubling**: the buffer has the capacity it was created with, or that doubled some times. -/
theorem C93_doubling (m : Mode) (cap : Nat) (b₀ b : Builder) (ops : List Op) (rets : List (Option Nat))
    (h₀ : Builder.newWithCapacity cap = .ok b₀) (h : run m b₀ ops = .ok (rets, b)) :
    b.buf.length = cap ∨ ∃ j, b.buf.length = 2 ^ j * max 1 cap := by
  obtain ⟨h1, h2, h3⟩ := new_fresh h₀ 65535
  rcases (run_grown (by omega) h2 h3 (fun op _ => by cases op <;> first | exact Nat.le_of_lt_succ (Fin.isLt _) | trivial) h).2 with
    e | ⟨e, -⟩
  · exact .inl (by omega)
  · rw [h1] at e; exact .inr e

theorem slotsWithin_any (ops : List Op) : SlotsWithin 65535 ops := by
  intro op _
  cases op <;> first | exact Nat.le_of_lt_succ (Fin.isLt _) | trivial

/-- The buffer never gets smaller. -/
theorem run_monotone {m : Mode} {b₀ b : Builder} {ops : List Op} {rets : List (Option Nat)} (hb : b₀.head ≤ b₀.buf.length)
    (hs : b₀.SlotsUpTo 65535) (h : run m b₀ ops = .ok (rets, b)) {b' : Builder} (hp : Passes m b₀ ops b') :
    b'.buf.length ≤ b.buf.length := by
  obtain ⟨pre, post, r1, rfl, h1⟩ := hp
  obtain ⟨r1', b1, r2, h2, h3, -⟩ := run_append.mp h
  rw [h1] at h2; cases h2
  obtain ⟨e1, e2⟩ := (run_grown (by omega) hb hs (slotsWithin_any _) h1).1
  rcases (run_grown (by omega) e1 e2 (slotsWithin_any _) h3).2 with e | ⟨⟨j, e⟩, -⟩
  · omega
  · have := Nat.mul_le_mul (Nat.one_le_two_pow (n := j)) (Nat.le_refl (max 1 b'.buf.length))
    omega

theorem doubles_sum (c : Nat) : ∀ j, ∑ i ∈ Finset.range (j + 1), 2 ^ i * c ≤ 2 * (2 ^ j * c)
  | 0 => by simp; omega
  | j + 1 => by
    rw [Finset.sum_range_succ]
    have := doubles_sum c j
    rw [show 2 ^ (j + 1) * c = 2 * (2 ^ j * c) by rw [Nat.pow_succ, Nat.mul_comm (2 ^ j) 2, Nat.mul_assoc]]
    omega

/-- **C93, allocation**: all the buffers that the builder ever had between calls, the first one included, are together
at most twice as large as the last one. So the cost of copying them is proportional to the data in the end, or to the
capacity asked for. -/
theorem C93_allocation (m : Mode) (cap : Nat) (b₀ b : Builder) (ops : List Op) (rets : List (Option Nat))
    (h₀ : Builder.newWithCapacity cap = .ok b₀) (h : run m b₀ ops = .ok (rets, b)) (sizes : Finset Nat)
    (hs : ∀ n ∈ sizes, ∃ b', Passes m b₀ ops b' ∧ b'.buf.length = n) : ∑ n ∈ sizes, n ≤ 2 * b.buf.length := by
  obtain ⟨h1, h2, h3⟩ := new_fresh h₀ 65535
  have hn : ∀ n ∈ sizes, n ≤ b.buf.length ∧ (n = 0 ∨ ∃ i, n = 2 ^ i * max 1 cap) := by
    intro n hn
    obtain ⟨b', hp, rfl⟩ := hs n hn
    refine ⟨run_monotone h2 h3 h hp, ?_⟩
    obtain ⟨pre, post, r1, rfl, h4⟩ := hp
    rcases C93_doubling m cap b₀ b' pre r1 h₀ h4 with e | e
    · rcases Nat.eq_zero_or_pos cap with hz | hz
      · exact .inl (by omega)
      · exact .inr ⟨0, by omega⟩
    · exact .inr e
  by_cases hz : b.buf.length = 0
  · rw [Finset.sum_eq_zero fun n h => by have := (hn n h).1; omega]
    omega
  · obtain ⟨j, hj⟩ : ∃ j, b.buf.length = 2 ^ j * max 1 cap := by
      rcases C93_doubling m cap b₀ b ops rets h₀ h with e | e
      · exact ⟨0, by omega⟩
      · exact e
    have hsub : sizes.filter (· ≠ 0) ⊆ (Finset.range (j + 1)).image fun i => 2 ^ i * max 1 cap := by
      intro n h
      obtain ⟨h, hne⟩ := Finset.mem_filter.mp h
      obtain ⟨hle, rfl | ⟨i, rfl⟩⟩ := hn n h
      · exact absurd rfl hne
      · have hi : i ≤ j := by
          rw [hj] at hle
          exact (Nat.pow_le_pow_iff_right (by omega)).mp (Nat.le_of_mul_le_mul_right hle (by omega))
        exact Finset.mem_image.mpr ⟨i, Finset.mem_range.mpr (by omega), rfl⟩
    rw [← Finset.sum_filter_ne_zero]
    refine (Finset.sum_le_sum_of_subset hsub).trans ?_
    rw [hj, Finset.sum_image]
    · exact doubles_sum _ _
    · intro i _ i' _ e
      exact Nat.pow_right_injective (Nat.le_refl 2) (Nat.eq_of_mul_eq_mul_right (by omega) e)

theorem run_used {m : Mode} : ∀ {ops : List Op} {b₀ b : Builder} {rets : List (Option Nat)}, b₀.head ≤ b₀.buf.length →
    b₀.SlotsUpTo 65535 → (∀ op ∈ ops, op.isReset = false) → run m b₀ ops = .ok (rets, b) → b₀.usedSpace ≤ b.usedSpace
  | [], b₀, b, rets, _, _, _, h => by cases h; exact Nat.le_refl _
  | op :: ops, b₀, b, rets, hb, hs, hr, h => by
    obtain ⟨⟨r, b₁⟩, h1, h2⟩ := Res.bind_eq_ok.mp h
    obtain ⟨⟨rs, b₂⟩, h3, h4⟩ := Res.bind_eq_ok.mp h2
    cases h4
    obtain ⟨g, hs'⟩ := step_grown (by omega) hb hs (slotsWithin_any [op] op (by simp)) (hr op (by simp)) h1
    exact g.used.trans (run_used g.fit hs' (fun op h => hr op (by simp [h])) h3)

theorem passes_used {m : Mode} {cap : Nat} {b₀ b b' : Builder} {ops : List Op} {rets : List (Option Nat)}
    (h₀ : Builder.newWithCapacity cap = .ok b₀) (hr : ∀ op ∈ ops, op.isReset = false) (h : run m b₀ ops = .ok (rets, b))
    (hp : Passes m b₀ ops b') : b'.usedSpace ≤ b.usedSpace := by
  obtain ⟨pre, post, r1, rfl, h2⟩ := hp
  obtain ⟨-, h3, h4⟩ := new_fresh h₀ 65535
  obtain ⟨r1', b1, r2, h5, h6, -⟩ := run_append.mp h
  rw [h2] at h5; cases h5
  obtain ⟨e1, e2⟩ := (run_grown (by omega) h3 h4 (slotsWithin_any _) h2).1
  exact run_used e1 e2 (fun op h => hr op (by simp [h])) h6

/-- Two tables of the same shape, with one field at slot 42. -/
def twoTables : List Op :=
  [.startTable, .pushSlotAlways 42 _ (PVal.sc (u32v 7)), .endTable 0, .startTable, .pushSlotAlways 42 _ (PVal.sc (u32v 8)),
    .endTable 52]

/-- **C93**: the room for one more vtable is needed: a vtable that turns out to be a duplicate was written first. With
these calls the buffer has 128 bytes, though there never were more than 60 bytes of data between calls. -/
theorem C93_refuted (m : Mode) : ∃ b₀ b rets, Builder.newWithCapacity 0 = .ok b₀ ∧ run m b₀ twoTables = .ok (rets, b) ∧
    (∀ b', Passes m b₀ twoTables b' → b'.usedSpace ≤ b.usedSpace) ∧ 2 * b.usedSpace < b.buf.length := by
  obtain ⟨b₀, r, b, h1, e1, p1⟩ := fromNew_ex (m := m) (cap := 0) (ops := twoTables)
    (p := fun r => decide (2 * r.2.usedSpace < r.2.buf.length)) (by cases m <;> kernel_rfl)
  exact ⟨b₀, b, r, h1, e1, fun b' hp => passes_used h1 (by decide) e1 hp, of_decide_eq_true p1⟩

/-- The sample history, from no capacity at all (the buffer has grown to at most twice its data) and with a sufficient
capacity (it has not grown). -/
example (m : Mode) : ∃ b₀ rets b, Builder.newWithCapacity 0 = .ok b₀ ∧ run m b₀ sampleOps = .ok (rets, b) ∧
    SlotsWithin 8 sampleOps ∧ b.buf.length = 32 ∧ b.usedSpace = 32 := by
  obtain ⟨b₀, r, b, h1, e1, p1⟩ := fromNew_ex (m := m) (cap := 0) (ops := sampleOps)
    (p := fun r => decide (r.2.buf.length = 32 ∧ r.2.usedSpace = 32)) (by cases m <;> kernel_rfl)
  exact ⟨b₀, r, b, h1, e1, by unfold SlotsWithin sampleOps sampleTable; simp [Op.slotUpTo], of_decide_eq_true p1⟩

example (m : Mode) : ∃ b₀ rets b, Builder.newWithCapacity 64 = .ok b₀ ∧ run m b₀ sampleOps = .ok (rets, b) ∧
    SlotsWithin 8 sampleOps ∧ ∀ b', Passes m b₀ sampleOps b' → b'.usedSpace + 8 + 2 ≤ 64 := by
  obtain ⟨b₀, r, b, h1, e1, p1⟩ := fromNew_ex (m := m) (cap := 64) (ops := sampleOps)
    (p := fun r => decide (r.2.usedSpace = 32)) (by cases m <;> kernel_rfl)
  refine ⟨b₀, r, b, h1, e1, by unfold SlotsWithin sampleOps sampleTable; simp [Op.slotUpTo], fun b' hp => ?_⟩
  have := passes_used h1 (by decide) e1 hp
  have := of_decide_eq_true p1
  dsimp only at this
  omega

end Butte
