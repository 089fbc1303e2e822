import Verif.Rt.RefineOps
/-
Simulation of `write_vtable` / `end_table`, of single calls and of whole histories.
-/
namespace Butte
open ABuilder (Big)

theorem writeVTableByteLength_length {m : Mode} {buf buf' : Bytes} {n : Nat}
    (h : VTableWriter.writeVTableByteLength m buf n = .ok buf') : buf'.length = buf.length := by
  unfold VTableWriter.writeVTableByteLength at h
  split at h
  · obtain ⟨_, _, h⟩ := Res.bind_eq_ok.mp h
    cases h
    rw [splice_length]; simp; omega
  · cases h

theorem writeObjectInlineSize_length {buf buf' : Bytes} {n : Nat}
    (h : VTableWriter.writeObjectInlineSize buf n = .ok buf') : buf'.length = buf.length := by
  unfold VTableWriter.writeObjectInlineSize at h
  split at h
  · cases h
    rw [splice_length]; simp; omega
  · cases h

theorem writeFieldOffset_length {buf buf' : Bytes} {o n : Nat}
    (h : VTableWriter.writeFieldOffset buf o n = .ok buf') : buf'.length = buf.length := by
  unfold VTableWriter.writeFieldOffset at h
  split at h
  · cases h
    rw [splice_length]; simp; omega
  · cases h

/-- The debug-only double-write check inside the field loop. -/
def fieldCheck (m : Mode) (buf : Bytes) (id : Nat) : Res Unit :=
  if m = .debug then do
    let x ← VTableWriter.getFieldOffset m buf id
    debugAssert m (x == 0)
  else .ok ()

theorem writeFields_cons (m : Mode) (obj : Nat) (fl : FieldLoc) (rest : List FieldLoc) (buf : Bytes) :
    VTableWriter.writeFields m obj (fl :: rest) buf = (do
      let d ← subW 32 m obj fl.off
      fieldCheck m buf fl.id
      let buf' ← VTableWriter.writeFieldOffset buf fl.id (d % 2 ^ 16)
      VTableWriter.writeFields m obj rest buf') := by
  rw [VTableWriter.writeFields]
  unfold fieldCheck
  cases m <;> simp [bind_assoc]

theorem writeFields_length {m : Mode} {obj : Nat} : ∀ {fls : List FieldLoc} {buf buf' : Bytes},
    VTableWriter.writeFields m obj fls buf = .ok buf' → buf'.length = buf.length
  | [], buf, buf', h => by cases h; rfl
  | fl :: rest, buf, buf', h => by
    rw [writeFields_cons] at h
    obtain ⟨d, _, h⟩ := Res.bind_eq_ok.mp h
    obtain ⟨_, _, h⟩ := Res.bind_eq_ok.mp h
    obtain ⟨b1, h1, h⟩ := Res.bind_eq_ok.mp h
    rw [writeFields_length h, writeFieldOffset_length h1]

theorem vtableBytes_length {m : Mode} {fls : List FieldLoc} {obj tail : Nat} {vt : Bytes}
    (h : ABuilder.vtableBytes m fls obj tail = .ok vt) : vt.length = vtableByteLen fls := by
  unfold ABuilder.vtableBytes at h
  obtain ⟨_, _, h⟩ := Res.bind_eq_ok.mp h
  obtain ⟨_, _, h⟩ := Res.bind_eq_ok.mp h
  obtain ⟨s1, h1, h⟩ := Res.bind_eq_ok.mp h
  obtain ⟨s2, h2, h⟩ := Res.bind_eq_ok.mp h
  rw [writeFields_length h, writeObjectInlineSize_length h2, writeVTableByteLength_length h1]
  simp

theorem foldl_max_lt {k : Nat} : ∀ (l : List FieldLoc) (i : Nat), i < k → (∀ f ∈ l, f.id < k) →
    l.foldl (fun acc f => max acc f.id) i < k
  | [], i, hi, _ => hi
  | f :: l, i, hi, h => by
    simp only [List.foldl_cons]
    refine foldl_max_lt l _ ?_ (fun g hg => h g (List.mem_cons_of_mem _ hg))
    have := h f (List.mem_cons_self ..)
    omega

theorem vtableByteLen_lt {fls : List FieldLoc} (h : ∀ f ∈ fls, f.id < 65536) : vtableByteLen fls < 65538 := by
  cases fls with
  | nil => decide
  | cons f l =>
    have := foldl_max_lt l f.id (h f (List.mem_cons_self ..)) (fun g hg => h g (List.mem_cons_of_mem _ hg))
    simp only [vtableByteLen]; omega

theorem patch_length {m : Mode} {data d : Bytes} {vtUse obj : Nat}
    (h : ABuilder.patch m data vtUse obj = .ok d) : d.length = data.length := by
  unfold ABuilder.patch at h
  obtain ⟨saw, h1, h⟩ := Res.bind_eq_ok.mp h
  obtain ⟨_, _, h⟩ := Res.bind_eq_ok.mp h
  obtain ⟨_, _, h⟩ := Res.bind_eq_ok.mp h
  cases h
  apply splice_length
  rw [leBytes_length]
  -- the read succeeded, so four bytes are there
  have h1' : readNatAt m .u32 data (data.length - obj) = .ok saw := by
    cases hr : readNatAt m .u32 data (data.length - obj) <;> rw [hr] at h1 <;> simp [Res.expect] at h1
    rw [h1]
  unfold readNatAt readScalarAt at h1'
  obtain ⟨v, h2, _⟩ := Res.bind_eq_ok.mp h1'
  obtain ⟨e, he, h2⟩ := Res.bind_eq_ok.mp h2
  obtain ⟨s, hs, h2⟩ := Res.bind_eq_ok.mp h2
  unfold sliceGet at hs
  split at hs
  · rename_i hle
    cases hs
    unfold readScalar at h2
    split at h2
    · rename_i h4
      simp [STy.size] at h4
      omega
    · cases h2
  · cases hs

theorem writeVTable_len {m : Mode} {a : ABuilder} {tail : Nat} {r : Nat × ABuilder}
    (h : a.writeVTable m tail = .ok r) : a.data.length ≤ r.2.data.length := by
  unfold ABuilder.writeVTable at h
  obtain ⟨_, _, h⟩ := Res.bind_eq_ok.mp h
  obtain ⟨⟨obj, a1⟩, h1, h⟩ := Res.bind_eq_ok.mp h
  have := (push_ext h1).len
  obtain ⟨vt, h2, h⟩ := Res.bind_eq_ok.mp h
  obtain ⟨dup, h3, h⟩ := Res.bind_eq_ok.mp h
  cases dup with
  | some n =>
    obtain ⟨d, h4, h⟩ := Res.bind_eq_ok.mp h
    cases h
    have := patch_length h4
    simp only at *; omega
  | none =>
    obtain ⟨d, h4, h⟩ := Res.bind_eq_ok.mp h
    cases h
    have := patch_length h4
    simp only [List.length_append] at *; omega

theorem findDuplicate_eq {m : Mode} {b : Builder} {a : ABuilder} (h : R b a) : ∀ (revs : List Nat),
    (∀ r ∈ revs, r ≤ a.data.length) →
    b.findDuplicate m ⟨b.buf, b.head⟩ revs = ABuilder.findDuplicate m a.data revs
  | [], _ => rfl
  | r :: rest, hr => by
    unfold Builder.findDuplicate ABuilder.findDuplicate
    have hl := h.bufLen
    have hle := h.len
    have hi : isizeMax = 2 ^ 63 - 1 := rfl
    have hr1 := hr r (List.mem_cons_self ..)
    have hu := h.used
    rw [subU_ok (by omega)]
    simp only [Res.ok_bind]
    have e1 : VTable.eqv m ⟨b.buf, b.head⟩ ⟨b.buf, b.head + b.usedSpace - r⟩ =
        VTable.eqv m ⟨a.data, 0⟩ ⟨a.data, a.data.length - r⟩ := by
      unfold VTable.eqv
      have k1 := asBytes_shift m (List.replicate b.head 0) a.data 0 (by simp; omega)
      have k2 := asBytes_shift m (List.replicate b.head 0) a.data (a.data.length - r) (by simp; omega)
      rw [← h.buf] at k1 k2
      simp only [List.length_replicate, Nat.add_zero] at k1 k2
      rw [k1, show b.head + b.usedSpace - r = b.head + (a.data.length - r) by omega, k2]
    rw [e1]
    rw [findDuplicate_eq h rest (fun r' hr' => hr r' (List.mem_cons_of_mem _ hr'))]

theorem sliceIdx_head {b : Builder} {a : ABuilder} {n : Nat} (h : R b (a.prepend (List.replicate n 0))) :
    sliceIdx b.buf b.head (b.head + n) = .ok (List.replicate n 0) := by
  have hb := h.buf
  simp only [ABuilder.prepend] at hb
  have hl : b.buf.length = b.head + (n + a.data.length) := by rw [hb]; simp
  unfold sliceIdx sliceGet
  rw [if_pos (by omega)]
  simp only [Res.expect]
  rw [hb, List.drop_left' (by simp)]
  simp

theorem patch_sim {m : Mode} {b : Builder} {a : ABuilder} (h : R b a) {vtUse obj : Nat}
    (ho : obj ≤ a.data.length) : Sim1 (b.patchVTable m vtUse obj) (do
      let d ← ABuilder.patch m a.data vtUse obj
      return (obj, { a with data := d, fieldLocs := [] })) := by
  unfold Builder.patchVTable ABuilder.patch
  have hl := h.bufLen
  have hle := h.len
  have hi : isizeMax = 2 ^ 63 - 1 := rfl
  have hu := h.used
  rw [subU_ok (by omega)]
  simp only [Res.ok_bind, bind_assoc]
  have k := readNatAt_shift m .u32 (List.replicate b.head 0) a.data (a.data.length - obj) (by simp; omega)
  rw [← h.buf] at k
  simp only [List.length_replicate] at k
  rw [show b.head + b.usedSpace - obj = b.head + (a.data.length - obj) by omega, k]
  refine Sim.same fun saw hsaw => Sim.same fun _ hd => Sim.same fun d hd2 => ?_
  have hpl : ABuilder.patch m a.data vtUse obj = .ok (splice a.data (a.data.length - obj) (leBytes 4 (ofSigned 32 d))) := by
    unfold ABuilder.patch
    simp only
    rw [hsaw]; simp only [Res.ok_bind]; rw [hd, hd2]; rfl
  have hlen := patch_length hpl
  have h4 : 4 ≤ obj := by
    unfold splice at hlen
    simp at hlen
    omega
  rw [if_pos (by omega)]
  refine Sim.pure ⟨rfl, ?_⟩
  have hs : splice b.buf (b.head + (a.data.length - obj)) (leBytes 4 (ofSigned 32 d)) =
      List.replicate b.head 0 ++ splice a.data (a.data.length - obj) (leBytes 4 (ofSigned 32 d)) := by
    conv => lhs; rw [h.buf]
    have := splice_shift (List.replicate b.head 0) a.data (leBytes 4 (ofSigned 32 d)) (a.data.length - obj)
    simpa using this
  refine ⟨hs, ?_, rfl, h.vtables, h.nested, h.finished, h.minAlign, ?_, by simp⟩
  · simp only [hs]
    simp only [List.length_append, List.length_replicate, hlen]; omega
  · simp only [hlen]; exact h.vtOk

theorem writeVTable_sim {m : Mode} {b : Builder} {a : ABuilder} (h : R b a) (tail : Nat) :
    Sim1 (b.writeVTable m tail) (a.writeVTable m tail) := by
  unfold Builder.writeVTable ABuilder.writeVTable Builder.assertNested
  rw [h.nested]
  refine Sim.same fun _ _ => (push_sim h _).bind ?_ ?_
  · rintro ⟨obj, b1⟩ ⟨obj', a1⟩ hp ⟨ho, h1⟩
    simp only at ho h1 ⊢
    subst ho
    have hobj : obj ≤ a1.data.length := by
      have := push_ret hp
      simp only at this
      rw [this]; exact Nat.mod_le _ _
    rw [h1.fieldLocs]
    refine (makeSpace_sim' h1 (vtableByteLen a1.fieldLocs)).bindLeft ?_ ?_
    · intro b2 h2
      rw [sliceIdx_head h2]
      unfold ABuilder.vtableBytes
      simp only [Res.ok_bind, bind_assoc]
      have hfl : b2.fieldLocs = a1.fieldLocs := h2.fieldLocs
      have hvt : b2.vtables = a1.vtables := h2.vtables
      rw [hfl, hvt]
      refine Sim.same fun objSize e1 => Sim.same fun _ e2 => Sim.same fun s1 e3 => Sim.same fun s2 e4 =>
        Sim.same fun vt e5 => ?_
      have hvl : vt.length = vtableByteLen a1.fieldLocs := by
        rw [writeFields_length e5, writeObjectInlineSize_length e4, writeVTableByteLength_length e3]; simp
      have h3 := h2.write vt hvl
      rw [hfl, hvt] at h3
      have hfd := findDuplicate_eq (m := m) h3 a1.vtables.reverse (by
        intro r hr
        have := h1.vtOk r (List.mem_reverse.mp hr)
        simp [ABuilder.prepend]; omega)
      simp only [ABuilder.prepend] at hfd
      rw [hfd]
      refine Sim.same fun dup e6 => ?_
      cases dup with
      | some n =>
        -- clear the vtable and give the space back
        refine patch_sim (a := a1) ?_ hobj
        have hb := h3.buf
        simp only [ABuilder.prepend] at hb
        refine ⟨?_, ?_, rfl, rfl, h2.nested, h2.finished, h2.minAlign, h1.vtOk, h1.flOk⟩
        · simp only [hb]
          rw [splice_append' _ _ _ _ _ (by simp) (by simp [hvl]), ← List.append_assoc,
            List.replicate_append_replicate]
        · simp only
          have hll := h3.len
          have := h3.bufLen
          simp only [ABuilder.prepend, List.length_append] at hll this
          rw [splice_length _ _ _ (by simp; omega)]
          exact hll
      | none =>
        have hu := h3.used
        have h4 : R { b2 with
              buf := splice b2.buf b2.head vt,
              fieldLocs := a1.fieldLocs,
              vtables := a1.vtables ++ [(vt ++ a1.data).length % 2 ^ 32] }
              { (a1.prepend vt) with vtables := a1.vtables ++ [(vt ++ a1.data).length % 2 ^ 32] } := by
          refine ⟨h3.buf, h3.len, rfl, rfl, h2.nested, h2.finished, h2.minAlign, ?_, h1.flOk⟩
          intro r hr
          rcases List.mem_append.mp hr with hr | hr
          · exact h3.vtOk r hr
          · simp only [List.mem_singleton] at hr
            rw [hr]; exact Nat.mod_le _ _
        have := patch_sim (m := m) h4 (vtUse := (vt ++ a1.data).length % 2 ^ 32)
          (obj := obj) (by simp [ABuilder.prepend]; omega)
        simp only [ABuilder.prepend] at this hu
        simp only
        rw [hu]
        exact this
    · intro c' hb e'
      have hvl := vtableByteLen_lt h1.flOk
      simp only [ABuilder.prepend, List.length_append, List.length_replicate] at hb
      obtain ⟨vt, h2, e'⟩ := Res.bind_eq_ok.mp e'
      obtain ⟨dup, h3, e'⟩ := Res.bind_eq_ok.mp e'
      cases dup with
      | some n =>
        obtain ⟨d, h4, e'⟩ := Res.bind_eq_ok.mp e'
        cases e'
        have := patch_length h4
        simp only [Big1, Big]; omega
      | none =>
        obtain ⟨d, h4, e'⟩ := Res.bind_eq_ok.mp e'
        cases e'
        have := patch_length h4
        simp only [List.length_append] at this
        simp only [Big1, Big]; omega
  · rintro ⟨obj, a1⟩ c' _ hb e'
    simp only at e'
    simp only [Big1, Big] at hb
    obtain ⟨vt, h2, e'⟩ := Res.bind_eq_ok.mp e'
    obtain ⟨dup, h3, e'⟩ := Res.bind_eq_ok.mp e'
    cases dup with
    | some n =>
      obtain ⟨d, h4, e'⟩ := Res.bind_eq_ok.mp e'
      cases e'
      have := patch_length h4
      simp only [Big1, Big]; omega
    | none =>
      obtain ⟨d, h4, e'⟩ := Res.bind_eq_ok.mp e'
      cases e'
      have := patch_length h4
      simp only [List.length_append] at this
      simp only [Big1, Big]; omega

theorem endTable_sim {m : Mode} {b : Builder} {a : ABuilder} (h : R b a) (tail : Nat) :
    Sim1 (b.endTable m tail) (a.endTable m tail) := by
  unfold Builder.endTable ABuilder.endTable Builder.assertNested
  rw [h.nested]
  refine Sim.same fun _ _ => (writeVTable_sim h tail).bind ?_ ?_
  · rintro ⟨o, b1⟩ ⟨o', a1⟩ _ ⟨ho, h1⟩
    exact Sim.pure ⟨ho, (h1.withNested false).withFieldLocs [] (by simp)⟩
  · rintro ⟨o, a1⟩ c' _ hb e
    cases e; exact hb

theorem required_eq {m : Mode} {b : Builder} {a : ABuilder} (h : R b a) (tab slot : Nat) :
    b.required m tab slot = a.required m tab slot := by
  unfold Builder.required ABuilder.required
  rw [h.used, h.data]
  rfl

theorem withRet_sim {m : Res (Nat × Builder)} {g : Res (Nat × ABuilder)} (h : Sim1 m g) :
    Sim1 (withRet m) (withRetA g) := by
  unfold withRet withRetA
  refine h.bind ?_ ?_
  · rintro ⟨o, b⟩ ⟨o', a⟩ _ ⟨ho, h⟩
    exact Sim.pure ⟨by simpa using ho, h⟩
  · rintro ⟨o, a⟩ c _ hb e
    cases e; exact hb

theorem noRet_sim {m : Res Builder} {g : Res ABuilder} (h : Sim0 m g) :
    Sim1 (noRet m) (noRetA g) := by
  unfold noRet noRetA
  refine h.bind ?_ ?_
  · intro b a _ h
    exact Sim.pure ⟨rfl, h⟩
  · intro a c _ hb e
    cases e; exact hb

/-- Every public call on the concrete builder simulates the abstract one. -/
theorem step_sim {m : Mode} {b : Builder} {a : ABuilder} (h : R b a) (op : Op) :
    Sim1 (step m b op) (stepA m a op) := by
  cases op with
  | push p x => exact withRet_sim (push_sim h x)
  | pushSlot s p x d => exact noRet_sim (pushSlot_sim h s.isLt x d)
  | pushSlotAlways s p x => exact noRet_sim (pushSlotAlways_sim h s.isLt x)
  | startTable => exact withRet_sim (startTable_sim h)
  | endTable t => exact withRet_sim (endTable_sim h t)
  | startVector p n => exact noRet_sim (startVector_sim h p n)
  | endVector n => exact withRet_sim (endVector_sim h n)
  | createString s => exact withRet_sim (createString_sim h s)
  | createByteString bs => exact withRet_sim (createByteString_sim h bs)
  | createVectorDirect t xs => exact withRet_sim (createVectorDirect_sim h xs)
  | createVector p xs => exact withRet_sim (createVector_sim h xs)
  | createVectorOfStrings xs => exact withRet_sim (createVectorOfStrings_sim h xs)
  | required t s =>
    simp only [step, stepA]
    rw [required_eq h]
    exact Sim.same fun _ _ => Sim.pure ⟨rfl, h⟩
  | finish r i sp => exact noRet_sim (finishWithOpts_sim h r i sp)
  | reset => exact Sim.pure ⟨rfl, reset_R h⟩

/-- Forward simulation of whole histories. -/
theorem run_fwd {m : Mode} : ∀ (ops : List Op) {b b' : Builder} {a : ABuilder} {rets : List (Option Nat)},
    R b a → run m b ops = .ok (rets, b') → ∃ a', runA m a ops = .ok (rets, a') ∧ R b' a'
  | [], b, b', a, rets, h, e => by cases e; exact ⟨a, rfl, h⟩
  | op :: ops, b, b', a, rets, h, e => by
    unfold run at e
    obtain ⟨⟨r, b1⟩, e1, e⟩ := Res.bind_eq_ok.mp e
    obtain ⟨⟨rs, b2⟩, e2, e⟩ := Res.bind_eq_ok.mp e
    cases e
    obtain ⟨⟨r', a1⟩, f1, hr, h1⟩ := (step_sim h op).fwd _ e1
    simp only at hr h1
    subst hr
    obtain ⟨a2, f2, h2⟩ := run_fwd ops h1 e2
    refine ⟨a2, ?_, h2⟩
    unfold runA
    rw [f1]; simp only [Res.ok_bind]; rw [f2]; rfl

/-- A new builder represents the empty data. -/
theorem new_R {cap : Nat} {b : Builder} (h : Builder.newWithCapacity cap = .ok b) : R b ABuilder.init := by
  unfold Builder.newWithCapacity assert at h
  split at h
  · rename_i hc
    cases h
    have hc := of_decide_eq_true hc
    unfold maxBufferSize at hc
    refine ⟨by simp [ABuilder.init], ?_, rfl, rfl, rfl, rfl, rfl, by simp [ABuilder.init], by simp [ABuilder.init]⟩
    simp [isizeMax]; omega
  · cases h

theorem Reachable.toR {m : Mode} {b : Builder} (h : Reachable m b) : ∃ a, R b a := by
  obtain ⟨cap, b0, ops, rets, h0, h1⟩ := h
  obtain ⟨a, _, h2⟩ := run_fwd ops (new_R h0) h1
  exact ⟨a, h2⟩

end Butte
