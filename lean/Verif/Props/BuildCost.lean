import Verif.Mem.BuildCost
import Verif.Props.Growth
import Verif.Rt.Dense
/-
Property C102: how many memory accesses building takes.
-/
namespace Butte.Mem

variable {m : Mode}

theorem run_pays {k d u : Nat} (hk : 2 ≤ k) : ∀ {ops : List Op} {b₀ b : Builder} {rets : List (Option Nat)},
    b₀.head ≤ b₀.buf.length → b₀.SlotsUpTo k → SlotsWithin k ops →
    (∀ b', Passes m b₀ ops b' → b'.vtables.length ≤ d ∧ b'.usedSpace ≤ u) → Butte.run m b₀ ops = .ok (rets, b) →
    cells (run m b₀ ops) + b₀.buf.length + 2 * b.fieldLocs.length ≤
      b.buf.length + 2 * b₀.fieldLocs.length + (ops.map (Op.accesses k d u)).sum
  | [], b₀, b, rets, _, _, _, _, h => by cases h; simp [run, cells]; rfl
  | op :: ops, b₀, b, rets, hb, hs, ho, hp, h => by
    obtain ⟨⟨r, b₁⟩, h1, h2⟩ := Res.bind_eq_ok.mp h
    obtain ⟨⟨rs, b₂⟩, h3, h4⟩ := Res.bind_eq_ok.mp h2
    cases h4
    have hp0 := hp b₀ (.start m b₀ _)
    have hst := step_pays (m := m) hk op hb hs hp0.1 hp0.2 _ ((step_res m b₀ op).trans h1)
    have hg : b₁.head ≤ b₁.buf.length ∧ b₁.SlotsUpTo k := by
      cases hr : op.isReset with
      | true =>
        cases op <;> cases hr
        cases h1
        exact ⟨Nat.le_of_eq (reset_len b₀ hb).symm, hs⟩
      | false =>
        obtain ⟨g, hs'⟩ := step_grown hk hb hs (ho op (by simp)) hr h1
        exact ⟨g.fit, hs'⟩
    have ih := run_pays hk hg.1 hg.2 (fun op h => ho op (by simp [h])) (fun b' h => hp b' (.cons h1 h)) h3
    rw [run_cons_cells h1 h3, List.map_cons, List.sum_cons]
    dsimp only at hst ih
    omega

theorem run_vtables : ∀ {ops : List Op} {b₀ b : Builder} {rets : List (Option Nat)}, Butte.run m b₀ ops = .ok (rets, b) →
    b.vtables.length ≤ b₀.vtables.length + (ops.map Op.vtablesAdded).sum
  | [], b₀, b, rets, h => by cases h; simp
  | op :: ops, b₀, b, rets, h => by
    obtain ⟨⟨r, b₁⟩, h1, h2⟩ := Res.bind_eq_ok.mp h
    obtain ⟨⟨rs, b₂⟩, h3, h4⟩ := Res.bind_eq_ok.mp h2
    cases h4
    have := step_vtables (m := m) (b := b₀) op _ ((step_res m b₀ op).trans h1)
    have := run_vtables h3
    rw [List.map_cons, List.sum_cons]
    dsimp only at *
    omega

/-- **C102**, to the cell: what the calls go over, together with the first buffer, is not more than the last buffer and what
each call is worth (`Op.accesses`), given how many vtables and how much data there are at most at a time. -/
theorem C102_cells_partial (m : Mode) (cap : Nat) (b₀ b : Builder) (ops : List Op) (rets : List (Option Nat)) (k d u : Nat) (hk : 2 ≤ k)
    (h₀ : Builder.newWithCapacity cap = .ok b₀) (hs : SlotsWithin k ops)
    (hd : ∀ b', Passes m b₀ ops b' → b'.numWrittenVTables ≤ d) (hu : ∀ b', Passes m b₀ ops b' → b'.usedSpace ≤ u)
    (h : Butte.run m b₀ ops = .ok (rets, b)) :
    cells (run m b₀ ops) + cap ≤ b.buf.length + (ops.map (Op.accesses k d u)).sum := by
  obtain ⟨h1, h2, h3⟩ := new_fresh h₀ k
  have h5 : b₀.fieldLocs = [] := by
    obtain ⟨_, -, h⟩ := Res.bind_eq_ok.mp h₀
    cases h; rfl
  have := run_pays hk h2 h3 hs (fun b' hp => ⟨hd b' hp, hu b' hp⟩) h
  rw [h5, h1, List.length_nil] at this
  omega

/-- **C102**: what a list of calls goes over is not more than twice the data, with room for one vtable more, and what each
call is worth. -/
theorem C102_cost_partial (m : Mode) (cap : Nat) (b₀ b : Builder) (ops : List Op) (rets : List (Option Nat)) (k d u : Nat) (hk : 2 ≤ k)
    (h₀ : Builder.newWithCapacity cap = .ok b₀) (hs : SlotsWithin k ops)
    (hd : ∀ b', Passes m b₀ ops b' → b'.numWrittenVTables ≤ d) (hu : ∀ b', Passes m b₀ ops b' → b'.usedSpace ≤ u)
    (h : Butte.run m b₀ ops = .ok (rets, b)) :
    cells (run m b₀ ops) ≤ 2 * (u + k + 2) + (ops.map (Op.accesses k d u)).sum := by
  have h1 := C102_cells_partial m cap b₀ b ops rets k d u hk h₀ hs hd hu h
  rcases C93_memory m cap b₀ b ops rets k hk h₀ hs h with h2 | ⟨b', h2, h3⟩
  · omega
  · have := hu b' h2; omega

/-- **C102**, without looking at the vtables: there are not more of them than tables were ended. -/
theorem C102_any_partial (m : Mode) (cap : Nat) (b₀ b : Builder) (ops : List Op) (rets : List (Option Nat)) (k u : Nat) (hk : 2 ≤ k)
    (h₀ : Builder.newWithCapacity cap = .ok b₀) (hs : SlotsWithin k ops) (hu : ∀ b', Passes m b₀ ops b' → b'.usedSpace ≤ u)
    (h : Butte.run m b₀ ops = .ok (rets, b)) :
    cells (run m b₀ ops) ≤ 2 * (u + k + 2) + (ops.map (Op.accesses k (ops.map Op.vtablesAdded).sum u)).sum := by
  refine C102_cost_partial m cap b₀ b ops rets k _ u hk h₀ hs ?_ hu h
  rintro b' ⟨pre, post, r1, rfl, h1⟩
  have := run_vtables h1
  have h5 : b₀.vtables = [] := by
    obtain ⟨_, -, h⟩ := Res.bind_eq_ok.mp h₀
    cases h; rfl
  rw [h5] at this
  unfold Builder.numWrittenVTables
  simp at this ⊢
  omega

/-- `2 ^ s` tables that have no vtable in common. -/
theorem dense_run {s : Nat} (hs : s ≤ 20) {b₀ : Builder} (h₀ : R b₀ .init) : ∀ i, i ≤ 2 ^ s → ∃ ops rets b a,
    Butte.run m b₀ ops = .ok (rets, b) ∧ R b a ∧ Dense m s i a ∧ ops.length ≤ (s + 2) * i ∧
    i * i ≤ 2 * cells (run m b₀ ops) + i ∧ NoReset ops ∧ (ops.map Op.vtablesAdded).sum = i
  | 0, _ => ⟨[], [], b₀, .init, rfl, h₀, .start m s, by simp, by simp, nofun, rfl⟩
  | i + 1, hi => by
    obtain ⟨ops, rets, b, a, h1, h2, h3, h4, h5, h6, h7⟩ := dense_run hs h₀ i (by omega)
    have hp : 2 ^ s ≤ 2 ^ 20 := Nat.pow_le_pow_right (by omega) hs
    have hsz : a.data.length ≤ 2 ^ 31 - 2 ^ 18 := by
      have := h3.size
      have : (3 * s + 11) * i ≤ 71 * 2 ^ 20 := Nat.mul_le_mul (by omega) (by omega)
      omega
    obtain ⟨tail, rs, a1, a2, r, r', e1, d1, e2, d2, hv, a3, e3, h3'⟩ := h3.next (by omega) (by omega) hsz
    obtain ⟨b1, f1, r1⟩ := h2.step_small e1 (by rw [d1]; omega)
    have hbig : ∀ {l : List Op} {a1 a2 : ABuilder} {b1 : Builder} {rs : List (Option Nat)}, R b1 a1 → runA m a1 l = .ok (rs, a2) →
        (∀ op ∈ l, op.inBody = true) → a2.data.length ≤ 2 ^ 31 - 2 ^ 17 → ∃ b2, Butte.run m b1 l = .ok (rs, b2) ∧ R b2 a2 := by
      intro l
      induction l with
      | nil => rintro a1 a2 b1 rs hr e _ _; cases e; exact ⟨b1, rfl, hr⟩
      | cons op l ih =>
        intro a1 a2 b1 rs hr e hl hd
        obtain ⟨⟨r, a'⟩, g1, e⟩ := Res.bind_eq_ok.mp e
        obtain ⟨⟨rs', a''⟩, g2, e⟩ := Res.bind_eq_ok.mp e
        cases e
        obtain ⟨_, _, _, hx, _⟩ := body_spec g2 (fun op h => hl op (by simp [h])) (by omega)
        have := hx.len
        obtain ⟨b', f1, r1⟩ := hr.step_small g1 (by omega)
        obtain ⟨b'', f2, r2⟩ := ih r1 g2 (fun op h => hl op (by simp [h])) hd
        exact ⟨b'', by rw [Butte.run, f1]; show (Butte.run m b' l >>= _) = _; rw [f2]; rfl, r2⟩
    have hin : ∀ op ∈ (denseFields s i).map densePush, op.inBody = true := by
      intro op hop
      obtain ⟨t, k1, rfl⟩ := List.mem_map.mp hop
      exact dense_inBody (by have := (dense_mem.mp k1).1; omega)
    obtain ⟨b2, f2, r2⟩ := hbig r1 e2 hin d2
    obtain ⟨c3, t3, _⟩ := h3'.tracks
    obtain ⟨b3, f3, r3⟩ := r2.step_small e3 t3.len
    have hlast : i ≤ cells (step m b2 (.endTable tail)) := by
      have := endTable_least (m := m) b2 tail _ ((step_res m b2 _).trans f3)
      dsimp only at this
      rw [r3.vtables, r2.vtables, h3'.count, hv, h3.count] at this
      have hl := r3.len
      have hi : isizeMax = 2 ^ 63 - 1 := rfl
      exact this rfl (by omega)
    have g3 : Butte.run m b2 [.endTable tail] = .ok ([r'], b3) := run_singleton.mpr ⟨_, f3, rfl⟩
    have g2 : Butte.run m b1 ((denseFields s i).map densePush ++ [.endTable tail]) = .ok (rs ++ [r'], b3) :=
      run_append.mpr ⟨_, _, _, f2, g3, rfl⟩
    have g1 : Butte.run m b (denseTable s i tail) = .ok (r :: (rs ++ [r']), b3) := by
      unfold denseTable
      rw [Butte.run, f1]
      show (Butte.run m b1 _ >>= _) = _
      rw [g2]; rfl
    have hl := dense_len s i
    refine ⟨ops ++ denseTable s i tail, rets ++ (r :: (rs ++ [r'])), b3, a3, run_append.mpr ⟨_, _, _, h1, g1, rfl⟩, r3, h3', ?_, ?_, ?_, ?_⟩
    · rw [List.length_append, Nat.mul_add, Nat.mul_one]
      simp only [denseTable, List.length_cons, List.length_append, List.length_map, List.length_nil]
      omega
    · rw [run_append_cells h1 g1]
      have k1 : i ≤ cells (run m b (denseTable s i tail)) := by
        unfold denseTable
        rw [run_cons_cells f1 g2, run_append_cells f2 g3, run_cons_cells f3 (rfl : Butte.run m b3 [] = _)]
        omega
      have : (i + 1) * (i + 1) = i * i + 2 * i + 1 := by rw [Nat.add_mul, Nat.mul_add]; omega
      omega
    · intro op hop
      rcases List.mem_append.mp hop with hop | hop
      · exact h6 op hop
      · simp only [denseTable, List.mem_cons, List.mem_append, List.not_mem_nil, or_false] at hop
        rcases hop with rfl | hop | rfl
        · rfl
        · have := hin op hop
          cases op <;> first | rfl | cases this
        · rfl
    · have hz : (((denseFields s i).map densePush).map Op.vtablesAdded).sum = 0 := by
        have : ∀ op ∈ (denseFields s i).map densePush, op.vtablesAdded = 0 := by
          intro op hop
          have := hin op hop
          cases op <;> first | rfl | cases this
        rw [List.sum_eq_zero_iff_forall_eq_nat]
        simpa using this
      rw [List.map_append, List.sum_append, h7]
      simp only [denseTable, List.map_cons, List.map_append, List.sum_cons, List.sum_append, hz]
      rfl

/-- **C102**, the other way: what is gone over cannot be bounded by the data and the calls alone. For every `s` up to 20 there are
calls that build `2 ^ s` tables of at most `s` one-byte fields, at most `s + 2` calls and `3 * s + 11` bytes for each; with
each one of them the vtables of all the earlier ones are looked at. -/
theorem C102_quadratic (m : Mode) (cap : Nat) (b₀ : Builder) (h₀ : Builder.newWithCapacity cap = .ok b₀) (s : Nat) (hs : s ≤ 20) :
    ∃ ops rets b, Butte.run m b₀ ops = .ok (rets, b) ∧ NoReset ops ∧ (ops.map Op.vtablesAdded).sum = 2 ^ s ∧
      ops.length ≤ (s + 2) * 2 ^ s ∧ b.usedSpace ≤ (3 * s + 11) * 2 ^ s ∧
      2 ^ s * (2 ^ s - 1) ≤ 2 * cells (run m b₀ ops) := by
  obtain ⟨ops, rets, b, a, h1, h2, h3, h4, h5, h6, h7⟩ := dense_run (m := m) hs (new_R h₀) (2 ^ s) (Nat.le_refl _)
  refine ⟨ops, rets, b, h1, h6, h7, h4, by rw [h2.used]; exact h3.size, ?_⟩
  rw [Nat.mul_sub, Nat.mul_one]
  omega

/-- **C102** is not linear: there are calls (with at most 71 MiB of data) that go over more than 5000 cells for each call
and each byte of data. -/
theorem C102_refuted (m : Mode) (cap : Nat) (b₀ : Builder) (h₀ : Builder.newWithCapacity cap = .ok b₀) :
    ∃ ops rets b, Butte.run m b₀ ops = .ok (rets, b) ∧ NoReset ops ∧ 0 < ops.length ∧
      5000 * (ops.length + b.usedSpace) < cells (run m b₀ ops) := by
  obtain ⟨ops, rets, b, h1, h2, h3, h4, h5, h6⟩ := C102_quadratic m cap b₀ h₀ 20 (Nat.le_refl _)
  refine ⟨ops, rets, b, h1, h2, ?_, by omega⟩
  cases ops with
  | nil => simp at h3
  | cons op ops => simp

/-! ### Concrete cases -/

set_option maxRecDepth 8000

/-- The sample history, with a capacity that suffices: 14 cells are gone over (12 in a release build), the calls
are worth 27. -/
example (m : Mode) : ∃ b₀ rets b, Builder.newWithCapacity 64 = .ok b₀ ∧ Butte.run m b₀ sampleOps = .ok (rets, b) ∧
    SlotsWithin 8 sampleOps ∧ (∀ b', Passes m b₀ sampleOps b' → b'.usedSpace ≤ 32 ∧ b'.numWrittenVTables ≤ 1) ∧
    cells (run m b₀ sampleOps) = (match m with | .debug => 14 | .release => 12) ∧ (sampleOps.map (Op.accesses 8 1 32)).sum = 27 := by
  obtain ⟨b₀, r, b, h1, e1, p1⟩ := fromNew_ex (m := m) (cap := 64) (ops := sampleOps)
    (p := fun r => decide (r.2.usedSpace = 32)) (by cases m <;> kernel_rfl)
  refine ⟨b₀, r, b, h1, e1, by unfold SlotsWithin sampleOps sampleTable; simp [Op.slotUpTo], fun b' hp => ⟨?_, ?_⟩, ?_, ?_⟩
  · have := passes_used h1 (by decide) e1 hp
    have := of_decide_eq_true p1
    dsimp only at this
    omega
  · obtain ⟨pre, post, rs, e, h2⟩ := hp
    have h3 := run_vtables h2
    have : (sampleOps.map Op.vtablesAdded).sum = 1 := by decide
    rw [e] at this
    obtain ⟨_, -, h⟩ := Res.bind_eq_ok.mp h1
    cases h
    unfold Builder.numWrittenVTables
    simp at this h3 ⊢
    omega
  · obtain ⟨_, -, h⟩ := Res.bind_eq_ok.mp h1
    cases h
    cases m <;> kernel_rfl
  · decide +kernel

/-- New builders are there, for `C102_quadratic` and `C102_refuted`. -/
example : ∃ b₀, Builder.newWithCapacity 1024 = .ok b₀ := ⟨_, rfl⟩

end Butte.Mem
