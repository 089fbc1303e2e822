import Verif.Rt.Finish
/-
VTable de-duplication along histories.
-/
namespace Butte

theorem VTInv.ext {a a' : ABuilder} (h : VTInv a) (he : Ext a a') (hv : a'.vtables = a.vtables) : VTInv a' := by
  obtain ⟨y, hy⟩ := he
  refine ⟨?_, ?_, by rw [hv]; exact h.even⟩
  · intro r hr
    rw [hv] at hr
    obtain ⟨vt, k1, k2⟩ := h.le r hr
    exact ⟨vt, k1, by rw [hy]; exact k2.prepend y⟩
  · rw [hv]
    refine h.diff.imp_of_mem ?_
    intro r r' hr hr' hd vt h1 hf h2
    obtain ⟨v1, _, k1⟩ := h.le r hr
    obtain ⟨v2, _, k2⟩ := h.le r' hr'
    rw [hy] at h1 h2
    exact hd vt (h1.of_prepend k1.le) hf (h2.of_prepend k2.le)

theorem VTInv.bound {a : ABuilder} (h : VTInv a) : ∀ r ∈ a.vtables, r ≤ a.data.length := by
  intro r hr
  obtain ⟨vt, _, k⟩ := h.le r hr
  exact k.le

theorem writeVTable_obj4 {m : Mode} {a a' : ABuilder} {tail obj : Nat}
    (h : a.writeVTable m tail = .ok (obj, a')) (hs : a'.data.length < 2 ^ 32) : obj % 4 = 0 := by
  obtain ⟨vt', u, post, p1, p2, _⟩ := writeVTable_spec h hs
  have hl := (writeVTable_ext h hs).len
  simp only at hl
  have := padding_dvd (n := a.data.length + 4) (by omega) pow2_4
  rw [p2, p1]
  simp only [List.length_append, List.length_replicate]
  omega

theorem writeVTable_VTInv {m : Mode} {a a' : ABuilder} {tail obj : Nat}
    (h : a.writeVTable m tail = .ok (obj, a')) (hs : a'.data.length < 2 ^ 32)
    (hso : ∀ f ∈ a.fieldLocs, SlotOk f.id) (hi : VTInv a) : VTInv a' := by
  have hx := writeVTable_ext h hs
  obtain ⟨vt, _, w2, w3, w4⟩ := writeVTable_tab h hs hso hi.bound
  rcases w4 with ⟨_, w5, _⟩ | ⟨w5, w6, w7, w8⟩
  · exact hi.ext hx w5
  · obtain ⟨y, hy⟩ := hx
    simp only at hy
    refine ⟨?_, ?_, ?_⟩
    · intro r hr
      rw [w6] at hr
      rcases List.mem_append.mp hr with hr | hr
      · obtain ⟨v, k1, k2⟩ := hi.le r hr
        exact ⟨v, k1, by rw [hy]; exact k2.prepend y⟩
      · simp only [List.mem_singleton] at hr
        subst hr
        exact ⟨vt, w2, w7⟩
    · rw [w6, List.pairwise_append]
      refine ⟨?_, by simp, ?_⟩
      · refine hi.diff.imp_of_mem ?_
        intro r r' hr hr' hd v h1 hf h2
        obtain ⟨v1, _, k1⟩ := hi.le r hr
        obtain ⟨v2, _, k2⟩ := hi.le r' hr'
        rw [hy] at h1 h2
        exact hd v (h1.of_prepend k1.le) hf (h2.of_prepend k2.le)
      · intro r hr r' hr' v h1 hf h2
        simp only [List.mem_singleton] at hr'
        subst hr'
        obtain ⟨v1, _, k1⟩ := hi.le r hr
        rw [hy] at h1
        have h3 := h1.of_prepend k1.le
        -- both `v` and `vt` stand at the end position, and both carry their length
        have hv : v = vt := by
          have l1 := h2.two_at (o := 0) (by have := hf.len4; omega)
          have l2 := w7.two_at (o := 0) (by have := w2.len4; omega)
          have := l1.unique l2 (by rw [two_length (by have := hf.len4; omega), two_length (by have := w2.len4; omega)])
          rw [hf.hdr, w2.hdr] at this
          have hlen := congrArg leNat this
          rw [leNat_leBytes, leNat_leBytes] at hlen
          have := hf.lt
          have := w2.lt
          exact h2.unique w7 (by omega)
        subst hv
        exact w5 r hr h3
    · intro r hr
      rw [w6] at hr
      rcases List.mem_append.mp hr with hr | hr
      · exact hi.even r hr
      · simp only [List.mem_singleton] at hr
        have := writeVTable_obj4 h hs
        have := w2.even
        omega

/-- Every pending field uses a usable slot. -/
def FLOk (a : ABuilder) : Prop := ∀ f ∈ a.fieldLocs, SlotOk f.id

/-- Effect of a call on the pending fields and the recorded vtables. -/
theorem stepA_inv {m : Mode} {a : ABuilder} {op : Op} {r : Option Nat × ABuilder}
    (h : stepA m a op = .ok r) (hs : ∀ s, op.slot? = some s → SlotOk s) (hfl : FLOk a) (hi : VTInv a)
    (hl : r.2.data.length < 2 ^ 32) : FLOk r.2 ∧ VTInv r.2 := by
  cases hr : op.isReset with
  | true =>
    cases op <;> try (cases hr)
    simp only [stepA] at h
    cases h
    exact ⟨hfl, ⟨nofun, List.Pairwise.nil, nofun⟩⟩
  | false =>
  have hx := stepA_ext h hr hl
  have same : r.2.fieldLocs = a.fieldLocs → r.2.vtables = a.vtables → FLOk r.2 ∧ VTInv r.2 := by
    intro e1 e2
    exact ⟨by unfold FLOk; rw [e1]; exact hfl, hi.ext hx e2⟩
  have always : ∀ {s : Nat} {p : PTy} {x : PVal p} {a' : ABuilder}, SlotOk s → Ext a a' →
      a.pushSlotAlways m s x = .ok a' → FLOk a' ∧ VTInv a' := by
    intro s p x a' hso hx h1
    unfold ABuilder.pushSlotAlways at h1
    obtain ⟨_, _, h1⟩ := Res.bind_eq_ok.mp h1
    obtain ⟨r3, h3, h1⟩ := Res.bind_eq_ok.mp h1
    cases h1
    have k := push_fl h3
    refine ⟨?_, hi.ext hx k.2.1⟩
    intro f hf
    simp only [k.1, List.mem_append, List.mem_singleton] at hf
    rcases hf with hf | rfl
    · exact hfl f hf
    · exact hso
  cases op <;> simp only [stepA, withRetA, noRetA] at h
  case reset => cases hr
  case required => obtain ⟨_, _, h⟩ := Res.bind_eq_ok.mp h; cases h; exact ⟨hfl, hi⟩
  all_goals
    obtain ⟨r1, h1, h⟩ := Res.bind_eq_ok.mp h
    injection h with h
    subst h
  case push => have := push_fl h1; exact same this.1 this.2.1
  case pushSlot s p x d =>
    unfold ABuilder.pushSlot at h1
    obtain ⟨_, _, h1⟩ := Res.bind_eq_ok.mp h1
    split at h1
    · cases h1; exact ⟨hfl, hi⟩
    · exact always (hs s rfl) hx h1
  case pushSlotAlways s p x => exact always (hs s rfl) hx h1
  case startTable =>
    obtain ⟨_, e⟩ := startTable_spec h1
    exact same (by rw [e]) (by rw [e])
  case endTable t =>
    have hfl2 := endTable_fl h1
    unfold ABuilder.endTable at h1
    obtain ⟨_, _, h1⟩ := Res.bind_eq_ok.mp h1
    obtain ⟨r2, h2, h1⟩ := Res.bind_eq_ok.mp h1
    cases h1
    simp only at hl hx
    have := writeVTable_VTInv h2 hl hfl hi
    exact ⟨nofun, this.le, this.diff, this.even⟩
  case startVector =>
    unfold ABuilder.startVector at h1
    obtain ⟨_, _, h1⟩ := Res.bind_eq_ok.mp h1
    obtain ⟨_, _, h1⟩ := Res.bind_eq_ok.mp h1
    have := align_fl h1
    exact same this.1 this.2.1
  case endVector =>
    unfold ABuilder.endVector at h1
    obtain ⟨_, _, h1⟩ := Res.bind_eq_ok.mp h1
    have := push_fl h1
    exact same this.1 this.2.1
  case createString => have := createString_fl h1; exact same this.1 this.2.1
  case createByteString => have := createByteString_fl h1; exact same this.1 this.2.1
  case createVectorDirect => have := createVectorDirect_fl h1; exact same this.1 this.2.1
  case createVector => have := createVector_fl h1; exact same this.1 this.2.1
  case createVectorOfStrings => have := createVectorOfStrings_fl h1; exact same this.1 this.2.1
  case finish => 
    have := finishWithOpts_fl h1
    refine ⟨by unfold FLOk; rw [this.1]; exact hfl, ?_, ?_, ?_⟩
    · rw [this.2.1]; intro r hr; cases hr
    · rw [this.2.1]; exact List.Pairwise.nil
    · rw [this.2.1]; intro r hr; cases hr

theorem runA_inv {m : Mode} : ∀ {ops : List Op} {a : ABuilder} {r : List (Option Nat) × ABuilder},
    runA m a ops = .ok r → (∀ op ∈ ops, ∀ s, op.slot? = some s → SlotOk s) → FLOk a → VTInv a →
    (∀ k rets a'', runA m a (ops.take k) = .ok (rets, a'') → a''.data.length < 2 ^ 32) → FLOk r.2 ∧ VTInv r.2
  | [], a, r, h, _, h1, h2, _ => by cases h; exact ⟨h1, h2⟩
  | op :: ops, a, r, h, hs, h1, h2, hb => by
    unfold runA at h
    obtain ⟨⟨o1, a1⟩, e1, h⟩ := Res.bind_eq_ok.mp h
    obtain ⟨r2, e2, h⟩ := Res.bind_eq_ok.mp h
    cases h
    have hl : a1.data.length < 2 ^ 32 := by
      refine hb 1 [o1] a1 ?_
      simp only [List.take_succ_cons, List.take_zero, runA]
      rw [e1]; rfl
    obtain ⟨k1, k2⟩ := stepA_inv e1 (hs op (List.mem_cons_self ..)) h1 h2 hl
    refine runA_inv (r := r2) e2 (fun o ho => hs o (List.mem_cons_of_mem _ ho)) k1 k2 ?_
    intro k rets a'' hk
    refine hb (k + 1) (o1 :: rets) a'' ?_
    simp only [List.take_succ_cons, runA]
    rw [e1]; simp only [Res.ok_bind]; rw [hk]; rfl

end Butte
