import Verif.Props.Tables
import Verif.Rt.TableIn
import Verif.Rt.VTableEq
/-
Property C105: what a vtable says about its table.
-/
namespace Butte

set_option maxRecDepth 4000

/-- The exact layout of the table after any calls other than `reset`. -/
theorem BuildsTable.laterIn {m : Mode} {b b₁ b₂ : Builder} {body rest : List Op} {obj : Nat}
    {rets : List (Option Nat)} (h : BuildsTable m b body obj b₁) (hi : Idle m b)
    (e : run m b₁ rest = .ok (rets, b₂)) (hr : NoReset rest) (hs : b₂.usedSpace < 2 ^ 31) :
    ∃ a₂ vt u, R b₂ a₂ ∧ a₂.data.length < 2 ^ 31 ∧
      TblIn m a₂.data obj b.usedSpace u vt (body.filterMap Op.stored) := by
  have hle := (h.later hi e hr hs).choose_spec.choose_spec.2.2.2.2.1
  obtain ⟨a, hra, hfl⟩ := hi.toR
  obtain ⟨⟨tail, c₁, c₂, rets', e1, e2, e3⟩, hb, hso, hnd, hfit⟩ := h
  obtain ⟨a₁, f1, r1⟩ := hra.step e1
  obtain ⟨a₂, f2, r2⟩ := run_fwd body r1 e2
  obtain ⟨a₃, f3, r3⟩ := r2.step e3
  simp only [stepA] at f1 f3
  have hs' : a₃.data.length < 2 ^ 32 := by rw [← r3.used]; omega
  obtain ⟨-, -, -, -, -, -, -, -, -, -, k4, -⟩ := table_spec hfl hra.vtOk (withRetA_some f1) f2 (withRetA_some f3) hb hso
    hnd (by rw [← hra.used]; exact hfit) hs'
  obtain ⟨vt, u, t, -⟩ := table_in hfl hra.vtOk (withRetA_some f1) f2 (withRetA_some f3) hb hso hnd k4 hs'
  obtain ⟨a₄, f4, r4⟩ := run_fwd rest r3 e
  obtain ⟨y, hy⟩ := runA_ext f4 hr (by simp only; rw [← r4.used]; omega)
  refine ⟨a₄, vt, u, r4, by rw [← r4.used]; exact hs, ?_⟩
  rw [hy, hra.used]
  exact t.prepend y

/-! ### C105 -/

/-- **C105** The vtable found from a table that was built by any calls on distinct slots and then left alone by any calls
other than `reset`: `num_fields` is one more than the largest index stored (0 if none is), `num_bytes` is what these take,
`object_inline_num_bytes` is the size of all that was written between `start_table` and the offset to the vtable, the
offset included; `get_field` and `get` agree, are 0 just for the fields that are not stored, and otherwise give the
place where the value is, inside of the table and behind its offset; no two fields share a byte. -/
theorem C105_vtable (m : Mode) (b b₁ b₂ : Builder) (body rest : List Op) (obj : Nat)
    (rets : List (Option Nat)) (hi : Idle m b) (h : BuildsTable m b body obj b₁)
    (e : run m b₁ rest = .ok (rets, b₂)) (hr : NoReset rest) (hs : b₂.usedSpace < 2 ^ 31) :
    ∃ v n, Table.vtable m ⟨b₂.unfinishedData, b₂.usedSpace - obj⟩ = .ok v ∧
      v.numFields m = .ok n ∧ v.numBytes m = .ok (4 + 2 * n) ∧
      (∃ bs, v.asBytes m = .ok bs ∧ bs.length = 4 + 2 * n) ∧
      (∀ f ∈ body.filterMap Op.stored, f.slot < 4 + 2 * n) ∧
      (n ≠ 0 → ∃ f ∈ body.filterMap Op.stored, f.slot + 2 = 4 + 2 * n) ∧
      v.objectInlineNumBytes m = .ok (obj - b.usedSpace) ∧ b.usedSpace + 4 ≤ obj ∧
      (∀ i < n, ∃ o, v.getField m i = .ok (some o) ∧ v.get m (4 + 2 * i) = .ok (some o) ∧
        (o = 0 ↔ ∀ f ∈ body.filterMap Op.stored, f.slot ≠ 4 + 2 * i)) ∧
      (∀ i, n ≤ i → v.get m (4 + 2 * i) = .ok none) ∧
      (∀ f ∈ body.filterMap Op.stored, ∃ o, v.get m f.slot = .ok (some o) ∧ 4 ≤ o ∧
        o + f.p.size ≤ obj - b.usedSpace) ∧
      (∀ s t (x : PVal (.sc t)), ⟨s, .sc t, x⟩ ∈ body.filterMap Op.stored → ∀ o, v.get m s = .ok (some o) →
        FTy.follow m (.scalar t) b₂.unfinishedData (b₂.usedSpace - obj + o) = .ok x) ∧
      (∀ f ∈ body.filterMap Op.stored, ∀ g ∈ body.filterMap Op.stored, f.slot ≠ g.slot →
        ∀ o o', v.get m f.slot = .ok (some o) → v.get m g.slot = .ok (some o') →
          o + f.p.size ≤ o' ∨ o' + g.p.size ≤ o) := by
  obtain ⟨a, vt, u, r, hl, T⟩ := h.laterIn hi e hr hs
  rw [r.unfinished, r.used]
  have h4 := T.fmt.len4
  have hev := T.fmt.even
  have hle := T.at_.le
  have hlen := T.at_.len_le
  have hnum := numBytes_at (m := m) T.at_ T.fmt (by omega)
  have hget : ∀ s, s % 2 = 0 → VTable.get m ⟨a.data, a.data.length - u⟩ s = _ := fun s h =>
    vtget_at (m := m) T.at_ T.fmt (by omega) h
  have hnf : VTable.numFields m ⟨a.data, a.data.length - u⟩ = .ok ((vt.length - 4) / 2) := by
    unfold VTable.numFields
    rw [hnum]
    simp only [Res.ok_bind]
    rw [subU_ok (by omega)]
    congr 1
    omega
  have hin : ∀ f ∈ body.filterMap Op.stored, ∃ o, VTable.get m ⟨a.data, a.data.length - u⟩ f.slot = .ok (some o) ∧ 4 ≤ o ∧
      o + f.p.size ≤ obj - b.usedSpace ∧ o = leNat (two vt f.slot) ∧ PAt m a.data (obj - o) f.x := by
    intro f hf
    obtain ⟨k1, k2, off, k3, k4, k5, k6, -⟩ := T.stored f hf
    refine ⟨_, by rw [hget _ k1, if_pos k2], by omega, by omega, rfl, ?_⟩
    rw [k6, show obj - (obj - off) = off by omega]
    exact k3
  refine ⟨⟨a.data, a.data.length - u⟩, (vt.length - 4) / 2, vtable_at T.soff T.at_ hl, hnf, ?_, ?_, ?_, ?_, ?_, T.room,
    ?_, ?_, ?_, ?_, ?_⟩
  · rw [hnum]; congr 1; omega
  · exact ⟨vt, asBytes_at T.at_ T.fmt (by omega), by omega⟩
  · intro f hf
    have := (T.stored f hf).2.1
    omega
  · intro hn
    rcases T.len with ⟨k1, k2⟩ | ⟨f, k1, k2⟩
    · omega
    · exact ⟨f, k1, by omega⟩
  · unfold VTable.objectInlineNumBytes
    simp only
    rw [addU_ok (by omega)]
    simp only [Res.ok_bind]
    rw [show a.data.length - u + 2 = a.data.length - (u - 2) by omega,
      readNatAt_two (T.at_.two_at (o := 2) (by omega)) (two_length (by omega)) (by omega), T.size]
  · intro i hn
    refine ⟨leNat (two vt (4 + 2 * i)), ?_, by rw [hget _ (by omega), if_pos (by omega)], ?_⟩
    · unfold VTable.getField
      rw [hnf]
      simp only [Res.ok_bind]
      rw [if_neg (by omega), addU_ok (by omega)]
      simp only [Res.ok_bind]
      rw [addU_ok (by omega)]
      simp only [Res.ok_bind]
      have hm : mulU m 2 i = .ok (2 * i) := mulU_ok (by omega)
      rw [hm]
      simp only [Res.ok_bind]
      rw [addU_ok (by omega)]
      simp only [Res.ok_bind]
      rw [show a.data.length - u + 2 + 2 + 2 * i = a.data.length - (u - (4 + 2 * i)) by omega,
        readNatAt_two (T.at_.two_at (o := 4 + 2 * i) (by omega)) (two_length (by omega)) (by omega)]
      rfl
    · constructor
      · intro h0 f hf he
        obtain ⟨o, -, k2, -, k3, -⟩ := hin f hf
        rw [he] at k3
        omega
      · intro hn
        refine T.others _ (by omega) (by omega) ?_ (by omega)
        intro hm
        obtain ⟨f, hf, he⟩ := List.mem_map.mp hm
        exact hn f hf he
  · intro i hn
    rw [hget _ (by omega), if_neg (by omega)]
  · intro f hf
    obtain ⟨o, k1, k2, k3, -⟩ := hin f hf
    exact ⟨o, k1, k2, k3⟩
  · intro s t x hx o ho
    obtain ⟨o', k1, k2, k3, -, k5⟩ := hin _ hx
    simp only at k1 k3 k5
    rw [ho] at k1
    cases k1
    have hobj := T.soff.le
    rw [show a.data.length - obj + o = a.data.length - (obj - o) by omega]
    exact k5.scalar (by omega)
  · intro f hf g hg hne o o' ho ho'
    obtain ⟨_, k1, -, -, k2, -⟩ := hin f hf
    obtain ⟨_, l1, -, -, l2, -⟩ := hin g hg
    rw [ho] at k1; rw [ho'] at l1
    cases k1; cases l1
    rw [k2, l2]
    have key := List.pairwise_iff_getElem.mp T.apart
    obtain ⟨i, hi, rfl⟩ := List.getElem_of_mem hf
    obtain ⟨j, hj, rfl⟩ := List.getElem_of_mem hg
    rcases Nat.lt_trichotomy i j with hij | hij | hij
    · right; exact key i j hi hj hij
    · subst hij; exact absurd rfl hne
    · left; exact key j i hj hi hij

/-- C105: a table with four stored fields out of order, one of them 8 bytes wide, and one that has its default; a string
follows. -/
example (m : Mode) : ∃ b obj b₁ b₂ rets, Idle m b ∧
    BuildsTable m b [.pushSlotAlways 8 (.sc .u8) ⟨7, by decide⟩, .pushSlotAlways 4 .off (Builder.offVal 8),
      .pushSlot 6 (.sc .u16) ⟨3, by decide⟩ ⟨3, by decide⟩, .pushSlot 14 (.sc .u64) ⟨2 ^ 40, by decide⟩ ⟨0, by decide⟩,
      .pushSlotAlways 10 (.sc .i16) ⟨65535, by decide⟩] obj b₁ ∧
    run m b₁ [.createString "then"] = .ok (rets, b₂) ∧ b₂.usedSpace < 2 ^ 31 := by
  obtain ⟨b, obj, b', rets, b'', h1, h2, h3, h4⟩ := @sampleT_ex m 128 [.createString "hi"]
    [.pushSlotAlways 8 (.sc .u8) ⟨7, by decide⟩, .pushSlotAlways 4 .off (Builder.offVal 8),
      .pushSlot 6 (.sc .u16) ⟨3, by decide⟩ ⟨3, by decide⟩, .pushSlot 14 (.sc .u64) ⟨2 ^ 40, by decide⟩ ⟨0, by decide⟩,
      .pushSlotAlways 10 (.sc .i16) ⟨65535, by decide⟩] [.createString "then"]
    (fun b obj b' b'' => decide (b''.usedSpace < 2 ^ 31))
    ⟨[], [.createString "hi"], rfl, Or.inl rfl, by simp [Op.slot?]⟩ (by decide) (by decide) (by decide)
    (by cases m <;> decide +kernel)
  exact ⟨b, obj, b', b'', rets, h1, h2, h3, by simpa using h4⟩

/-- **C105**, equality of vtables in any bytes: comparing is reflexive, symmetric and transitive, unreadable vtables included, and equal vtables
that lie inside of their buffers have the same length, the same number of fields, and the same answer for every slot but the one
that ends behind the vtable (there is one only if the length is odd, or for odd slots). -/
theorem C105_equality (m : Mode) (v w x : VTable) (hv : v.buf.Valid) (hw : w.buf.Valid) (hd : m = .debug → v.loc + 2 < 2 ^ 64) :
    v.eqv m v = .ok true ∧ (v.eqv m w = .ok true ↔ w.eqv m v = .ok true) ∧
    (v.eqv m w = .ok true → w.eqv m x = .ok true → v.eqv m x = .ok true) ∧
    (∀ bs, v.eqv m w = .ok true → v.asBytes m = .ok bs → w.asBytes m = .ok bs ∧ v.numBytes m = w.numBytes m ∧
      v.numFields m = w.numFields m ∧ ∀ s, s + 1 ≠ bs.length → v.get m s = w.get m s) := by
  have key : ∀ a b : VTable, a.eqv m b = .ok true ↔ a.asBytes m = b.asBytes m ∧ a.asBytes m ≠ .panic := by
    intro a b
    unfold VTable.eqv
    cases a.asBytes m <;> cases b.asBytes m <;> simp
  simp only [key]
  refine ⟨⟨trivial, asBytes_panic hv hd⟩, ?_, ?_, ?_⟩
  · constructor
    · rintro ⟨h1, h2⟩; exact ⟨h1.symm, h1 ▸ h2⟩
    · rintro ⟨h1, h2⟩; exact ⟨h1.symm, h1 ▸ h2⟩
  · rintro ⟨h1, h2⟩ ⟨h3, -⟩
    exact ⟨h1.trans h3, h2⟩
  · rintro bs ⟨h1, -⟩ hb
    have hb' : w.asBytes m = .ok bs := by rw [← h1, hb]
    have e1 := (asBytes_ok hv hb).2.2.2
    have e2 := (asBytes_ok hw hb').2.2.2
    refine ⟨hb', by rw [e1, e2], by unfold VTable.numFields; rw [e1, e2], fun s hs => ?_⟩
    obtain ⟨a1, a2⟩ := get_asBytes hv hb s
    obtain ⟨b1, b2⟩ := get_asBytes hw hb' s
    by_cases hl : bs.length ≤ s
    · rw [a1 hl, b1 hl]
    · rw [a2 (by omega), b2 (by omega)]

/-- C105: equal vtables in different places, and an unreadable one. -/
example (m : Mode) : VTable.eqv m ⟨[6, 0, 8, 0, 4, 0, 9], 0⟩ ⟨[1, 6, 0, 8, 0, 4, 0], 1⟩ = .ok true ∧
    VTable.asBytes m ⟨[6, 0, 8, 0, 4, 0, 9], 0⟩ = .ok [6, 0, 8, 0, 4, 0] ∧
    VTable.eqv m ⟨[6, 0, 8], 0⟩ ⟨[], 5⟩ = .ok true ∧ VTable.eqv m ⟨[6, 0, 8], 0⟩ ⟨[2, 0], 0⟩ = .ok false := by
  cases m <;> decide +kernel

/-- C105: the exception. -/
example (m : Mode) : VTable.eqv m ⟨[5, 0, 8, 0, 4, 1], 0⟩ ⟨[5, 0, 8, 0, 4, 2], 0⟩ = .ok true ∧
    VTable.get m ⟨[5, 0, 8, 0, 4, 1], 0⟩ 4 ≠ VTable.get m ⟨[5, 0, 8, 0, 4, 2], 0⟩ 4 := by
  cases m <;> decide +kernel

end Butte
