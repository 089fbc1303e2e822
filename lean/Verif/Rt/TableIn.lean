import Verif.Rt.VTHist
/-
The exact layout of a table: like `TblAt`, with the size of the table, the room of every field and the parity of the
position of the vtable.
-/
namespace Butte

/-- The vtable `vt` of the table at end-relative position `obj` stands at `u`; the fields `flds` are stored between
`base` and the table's offset to its vtable. -/
structure TblIn (m : Mode) (d : Bytes) (obj base u : Nat) (vt : Bytes) (flds : List Fld) : Prop where
  fmt : VtFmt vt
  soff : At d obj (leBytes 4 (ofSigned 32 ((u : Int) - obj)))
  at_ : At d u vt
  size : leNat (two vt 2) = obj - base
  room : base + 4 ≤ obj
  stored : ∀ f ∈ flds, f.slot % 2 = 0 ∧ f.slot < vt.length ∧ ∃ off, PAt m d off f.x ∧ base + f.p.size ≤ off ∧
    off + 4 ≤ obj ∧ leNat (two vt f.slot) = obj - off ∧ off % f.p.size = 0
  apart : flds.Pairwise (fun f g => leNat (two vt g.slot) + g.p.size ≤ leNat (two vt f.slot))
  len : (flds = [] ∧ vt.length = 4) ∨ ∃ f ∈ flds, vt.length = f.slot + 2
  others : ∀ s, s % 2 = 0 → 4 ≤ s → s ∉ flds.map Fld.slot → s < vt.length → leNat (two vt s) = 0

theorem TblIn.prepend {m : Mode} {d : Bytes} {obj base u : Nat} {vt : Bytes} {flds : List Fld}
    (h : TblIn m d obj base u vt flds) (y : Bytes) : TblIn m (y ++ d) obj base u vt flds := by
  refine ⟨h.fmt, h.soff.prepend y, h.at_.prepend y, h.size, h.room, fun f hf => ?_, h.apart, h.len, h.others⟩
  obtain ⟨k1, k2, off, k3, k4⟩ := h.stored f hf
  exact ⟨k1, k2, off, k3.prepend y, k4⟩

/-- Where the vtable is that `write_vtable` uses. -/
theorem writeVTable_use {m : Mode} {a a' : ABuilder} {tail obj : Nat}
    (h : a.writeVTable m tail = .ok (obj, a')) (hs : a'.data.length < 2 ^ 32)
    (hso : ∀ f ∈ a.fieldLocs, SlotOk f.id) (hvt : ∀ r ∈ a.vtables, r ≤ a.data.length) :
    ∃ (vt : Bytes) (u : Nat), ABuilder.vtableBytes m a.fieldLocs obj tail = .ok vt ∧
      At a'.data obj (leBytes 4 (ofSigned 32 ((u : Int) - obj))) ∧ At a'.data u vt ∧
      a.data.length + 4 ≤ obj ∧ (u ∈ a.vtables ∨ u = vt.length + obj) := by
  obtain ⟨vt, u, post, hp, ho, hb, _, _, _, _, hd⟩ := writeVTable_spec h hs
  have hf := (vtableBytes_fmt hb hso).1
  have hlt := hf.lt
  have hpl : a.data.length ≤ post.length := by rw [hp]; simp
  refine ⟨vt, u, hb, ?_⟩
  rcases hd with ⟨hu, hv, hda, mk, hmk, he⟩ | ⟨hu, hv, hda, mk, hmk, he⟩
  · have hge : a'.data.length ≥ 4 + post.length := by rw [hda]; simp
    have h0 := asBytes_at (m := m) (At.head vt (mk ++ post)) hf (by simp only [List.length_append]; omega)
    rw [Nat.sub_self] at h0
    have h1 := eqv_true he h0
    have h2 := hvt u hu
    have h3 := asBytes_at_inv (by simp only [List.length_append]; omega) h1
    have h4 := (h3.of_prepend (by simp; omega)).of_prepend (by omega)
    refine ⟨?_, ?_, by omega, Or.inl hu⟩
    · rw [hda, ho]
      have := At.head (leBytes 4 (ofSigned 32 ((u : Int) - obj))) post
      simpa [ho] using this
    · rw [hda]; exact h4.prepend _
  · refine ⟨?_, ?_, by omega, Or.inr ?_⟩
    · rw [hda]
      have := (At.head (leBytes 4 (ofSigned 32 ((u : Int) - obj))) post).prepend vt
      simpa [ho] using this
    · rw [hu, hda]; exact At.head _ _
    · rw [hu, hda, ho]; simp

/-- From `start_table` to `end_table`. -/
theorem table_in {m : Mode} {a a₁ a₂ a₃ : ABuilder} {tail obj : Nat} {body : List Op} {rets : List (Option Nat)}
    (hfl : a.fieldLocs = []) (hvt : ∀ r ∈ a.vtables, r ≤ a.data.length)
    (h1 : a.startTable m = .ok (tail, a₁)) (h2 : runA m a₁ body = .ok (rets, a₂))
    (h3 : a₂.endTable m tail = .ok (obj, a₃)) (hb : ∀ op ∈ body, op.inBody = true)
    (hso : ∀ f ∈ body.filterMap Op.stored, SlotOk f.slot)
    (hnd : ((body.filterMap Op.stored).map Fld.slot).Nodup)
    (hfit : obj - a.data.length < 65536) (hs : a₃.data.length < 2 ^ 32) :
    ∃ vt u, TblIn m a₃.data obj a.data.length u vt (body.filterMap Op.stored) ∧
      ((∀ r ∈ a.vtables, r % 2 = 0) → u % 2 = 0) ∧ obj % 4 = 0 := by
  obtain ⟨e1, rfl⟩ := startTable_spec h1
  have hx3 := endTable_ext h3 hs
  have hl3 := hx3.len
  simp only at hl3
  obtain ⟨locs, q1, q2, q3, q4, q5, q6, q7, q8⟩ := body_spec h2 hb (by omega)
  simp only at q1 q2 q4 q5 q6 q7
  have hxa : Ext a a₂ := q3
  have hl2 := hxa.len
  unfold ABuilder.endTable at h3
  obtain ⟨_, _, h3⟩ := Res.bind_eq_ok.mp h3
  obtain ⟨⟨o, a4⟩, h4, h3⟩ := Res.bind_eq_ok.mp h3
  cases h3
  simp only at hs hx3 hl3 ⊢
  rw [hfl, List.nil_append] at q1
  have hid : ∀ f ∈ a₂.fieldLocs, ∃ g ∈ body.filterMap Op.stored, f.id = g.slot := by
    intro l hl
    rw [q1] at hl
    obtain ⟨i, hi, rfl⟩ := List.getElem_of_mem hl
    have := List.forall₂_iff_get.mp q2
    have h7 := this.2 i (by rw [this.1]; exact hi) hi
    exact ⟨_, List.get_mem _ _, h7.1⟩
  have hids : a₂.fieldLocs.map FieldLoc.id = (body.filterMap Op.stored).map Fld.slot := by
    rw [q1]
    have := List.forall₂_iff_get.mp q2
    apply List.ext_getElem
    · simp [this.1]
    · intro i g1 g2
      simp only [List.length_map] at g1 g2
      have h7 := (this.2 i g2 g1).1
      simpa using h7
  have hso' : ∀ f ∈ a₂.fieldLocs, SlotOk f.id := by
    intro f hf
    obtain ⟨g, hg, e⟩ := hid f hf
    rw [e]; exact hso g hg
  obtain ⟨vt, u, w1, w2, w3, w4, w5⟩ := writeVTable_use h4 hs hso' (by
    intro r hr
    rw [q4] at hr
    have := hvt r hr
    omega)
  obtain ⟨f1, f2, f3, f4, f5⟩ := vtableBytes_fmt w1 hso'
  have hobj4 := writeVTable_obj4 h4 hs
  have hole : obj ≤ a4.data.length := w2.le
  refine ⟨vt, u, ⟨f1, w2, w3, ?_, by omega, ?_, ?_, ?_, ?_⟩, ?_, hobj4⟩
  · obtain ⟨d, d1, d2⟩ := f3
    rw [d2, leNat_leBytes]
    rw [e1, Nat.mod_eq_of_lt (by omega)] at d1
    unfold subW at d1
    rw [if_pos (by omega)] at d1
    injection d1 with d1
    rw [← d1]
    omega
  · intro f hf
    obtain ⟨i, hi, rfl⟩ := List.getElem_of_mem hf
    have h8 := List.forall₂_iff_get.mp q2
    have hil : i < locs.length := by rw [← h8.1]; exact hi
    obtain ⟨g1, g2, g3, g4, g5, g6, g7⟩ := h8.2 i hi hil
    simp only [List.get_eq_getElem] at g1 g2 g3 g4 g5 g6 g7
    have hmem : locs[i] ∈ a₂.fieldLocs := by rw [q1]; exact List.getElem_mem _
    have hnd' : (a₂.fieldLocs.map FieldLoc.id).Nodup := by rw [hids]; exact hnd
    obtain ⟨d, d1, d2⟩ := f4 hnd' _ hmem
    have hlen := vtableByteLen_ge _ hmem
    refine ⟨(hso _ hf).1, by rw [← g1]; omega, locs[i].off, g2.ext hx3, g7, by omega, ?_, g5⟩
    rw [← g1, d2, leNat_leBytes]
    unfold subW at d1
    rw [if_pos (by omega)] at d1
    injection d1 with d1
    rw [← d1]
    omega
  · have hnd' : (a₂.fieldLocs.map FieldLoc.id).Nodup := by rw [hids]; exact hnd
    have hlen : (body.filterMap Op.stored).length = locs.length := q2.length_eq
    have hz : ∀ p ∈ (body.filterMap Op.stored).zip locs, leNat (two vt p.1.slot) = obj - p.2.off ∧ p.2.off ≤ obj := by
      rintro ⟨f, l⟩ hp
      obtain ⟨g1, g2, g3, g4, g5, g6, g7⟩ := List.forall₂_zip q2 hp
      have hmem : l ∈ a₂.fieldLocs := by rw [q1]; exact (List.of_mem_zip hp).2
      obtain ⟨d, d1, d2⟩ := f4 hnd' _ hmem
      refine ⟨?_, by simp only; omega⟩
      simp only
      rw [← g1, d2, leNat_leBytes]
      unfold subW at d1
      rw [if_pos (by omega)] at d1
      injection d1 with d1
      rw [← d1]
      omega
    have e : body.filterMap Op.stored = ((body.filterMap Op.stored).zip locs).map Prod.fst := by
      rw [List.map_fst_zip (by omega)]
    rw [e, List.pairwise_map]
    refine (List.Pairwise.and_mem.mp q8).imp ?_
    rintro p q ⟨hp, hq, hpq⟩
    have g1 := hz p hp
    have g2 := hz q hq
    omega
  · rcases vtableByteLen_mem a₂.fieldLocs with ⟨k1, k2⟩ | ⟨l, k1, k2⟩
    · left
      rw [k1] at hids
      exact ⟨List.map_eq_nil_iff.mp hids.symm, by rw [f2, k2]⟩
    · right
      obtain ⟨g, g1, g2⟩ := hid l k1
      exact ⟨g, g1, by rw [f2, k2, g2]⟩
  · intro s he h4' hn hlt
    have hev := f1.even
    have hlt' := f1.lt
    have := f5 s ⟨he, h4', by omega⟩ hlt (by rw [hids]; exact hn)
    rw [this, leNat_leBytes]
  · intro hev
    rcases w5 with w5 | w5
    · exact hev u (by rw [← q4]; exact w5)
    · have := f1.even
      omega

end Butte
