import Verif.Rt.History
/-
A complete table: what stands in the data after `start_table … end_table`, and what its slots read as.
-/
namespace Butte

/-- A table at end-relative position `obj` whose stored fields are `flds`, all laid out above `base`. -/
def TblAt (m : Mode) (d : Bytes) (obj base : Nat) (flds : List Fld) : Prop :=
  ∃ vt, VtFmt vt ∧ TabAt d obj vt ∧
    (∀ f ∈ flds, f.slot % 2 = 0 ∧ f.slot < vt.length ∧
      ∃ off, PAt m d off f.x ∧ base < off ∧ off < obj ∧ leNat (two vt f.slot) = obj - off ∧ off % f.p.size = 0) ∧
    (∀ s, s % 2 = 0 → 4 ≤ s → s ∉ flds.map Fld.slot → s < vt.length → leNat (two vt s) = 0)

theorem TblAt.prepend {m : Mode} {d : Bytes} {obj base : Nat} {flds : List Fld} (h : TblAt m d obj base flds)
    (y : Bytes) : TblAt m (y ++ d) obj base flds := by
  obtain ⟨vt, h1, h2, h3, h4⟩ := h
  refine ⟨vt, h1, h2.prepend y, fun f hf => ?_, h4⟩
  obtain ⟨k1, k2, off, k3, k4⟩ := h3 f hf
  exact ⟨k1, k2, off, k3.prepend y, k4⟩

theorem TblAt.ext {m : Mode} {a a' : ABuilder} {obj base : Nat} {flds : List Fld}
    (h : TblAt m a.data obj base flds) (he : Ext a a') : TblAt m a'.data obj base flds := by
  obtain ⟨y, hy⟩ := he
  rw [hy]; exact h.prepend y

theorem TblAt.le {m : Mode} {d : Bytes} {obj base : Nat} {flds : List Fld} (h : TblAt m d obj base flds) :
    obj ≤ d.length := by
  obtain ⟨vt, _, ⟨u, h2, _⟩, _⟩ := h
  exact h2.le

/-- Reading a stored slot follows the value that was pushed. -/
theorem TblAt.get {m : Mode} {d : Bytes} {obj base : Nat} {flds : List Fld} (h : TblAt m d obj base flds)
    (hl : d.length < 2 ^ 31) {f : Fld} (hf : f ∈ flds) :
    ∃ off, PAt m d off f.x ∧ base < off ∧ off ≤ d.length ∧ ∀ (F : FTy) (dflt : Option F.Inner),
      Table.get m ⟨d, d.length - obj⟩ F f.slot dflt = (do
        let y ← F.follow m d (d.length - off)
        return some y) := by
  have hle := h.le
  obtain ⟨vt, h1, h2, h3, h4⟩ := h
  obtain ⟨k1, k2, off, k3, k4, k5, k6, _⟩ := h3 f hf
  refine ⟨off, k3, k4, by omega, fun F dflt => ?_⟩
  rw [tableGet_at h2 h1 hl k1, if_pos ⟨k2, by omega⟩, k6]
  rw [show d.length - obj + (obj - off) = d.length - off by omega]

theorem TblAt.get_scalar {m : Mode} {d : Bytes} {obj base : Nat} {flds : List Fld} (h : TblAt m d obj base flds)
    (hl : d.length < 2 ^ 31) {s : Nat} {t : STy} {x : PVal (.sc t)} (hf : ⟨s, .sc t, x⟩ ∈ flds)
    (dflt : Option (SVal t)) : Table.get m ⟨d, d.length - obj⟩ (.scalar t) s dflt = .ok (some x) := by
  obtain ⟨off, k1, _, _, k2⟩ := h.get hl hf
  have := k2 (.scalar t) dflt
  simp only at this
  rw [this, k1.scalar (by omega)]
  rfl

theorem TblAt.get_enum {m : Mode} {d : Bytes} {obj base : Nat} {flds : List Fld} (h : TblAt m d obj base flds)
    (hl : d.length < 2 ^ 31) {s : Nat} {t : STy} {x : PVal (.sc t)} (hf : ⟨s, .sc t, x⟩ ∈ flds)
    (vals : List Nat) (dflt : Option Nat) :
    Table.get m ⟨d, d.length - obj⟩ (.enum t vals) s dflt = (do
      let y ← enumTryFrom vals x.val
      return some y) := by
  obtain ⟨off, k1, _, _, k2⟩ := h.get hl hf
  have := k2 (.enum t vals) dflt
  simp only at this
  rw [this]
  have h3 := k1.scalar (by omega)
  simp only [FTy.follow] at h3 ⊢
  rw [h3]
  rfl

theorem TblAt.get_off {m : Mode} {d : Bytes} {obj base : Nat} {flds : List Fld} (h : TblAt m d obj base flds)
    (hl : d.length < 2 ^ 31) {s : Nat} {x : PVal .off} (hf : ⟨s, .off, x⟩ ∈ flds) (hx : x.val ≤ base) (F : FTy)
    (dflt : Option F.Inner) : Table.get m ⟨d, d.length - obj⟩ (.fwdU F) s dflt = (do
        let y ← F.follow m d (d.length - x.val)
        return some y) := by
  obtain ⟨off, k1, k3, _, k2⟩ := h.get hl hf
  have := k2 (.fwdU F) dflt
  simp only at this
  simp only at k1
  rw [this, k1.off hl (by omega)]
  rfl

theorem TblAt.get_absent {m : Mode} {d : Bytes} {obj base : Nat} {flds : List Fld} (h : TblAt m d obj base flds)
    (hl : d.length < 2 ^ 31) {s : Nat} (he : s % 2 = 0) (h4 : 4 ≤ s) (hf : s ∉ flds.map Fld.slot) (F : FTy)
    (dflt : Option F.Inner) : Table.get m ⟨d, d.length - obj⟩ F s dflt = .ok dflt := by
  obtain ⟨vt, h1, h2, _, h5⟩ := h
  rw [tableGet_at h2 h1 hl he, if_neg]
  rintro ⟨h6, h7⟩
  exact h7 (h5 s he h4 hf h6)

/-- The raw offset found in the vtable. -/
theorem TblAt.vtget {m : Mode} {d : Bytes} {obj base : Nat} {flds : List Fld} (h : TblAt m d obj base flds)
    (hl : d.length < 2 ^ 31) :
    ∃ v, Table.vtable m ⟨d, d.length - obj⟩ = .ok v ∧
      (∀ f ∈ flds, ∃ o, v.get m f.slot = .ok (some o) ∧ o ≠ 0) ∧
      (∀ s, s % 2 = 0 → 4 ≤ s → s ∉ flds.map Fld.slot →
        v.get m s = .ok (some 0) ∨ v.get m s = .ok none) := by
  obtain ⟨vt, h1, ⟨u, h2, h2'⟩, h3, h4⟩ := h
  refine ⟨_, vtable_at h2 h2' hl, ?_, ?_⟩
  · intro f hf
    obtain ⟨k1, k2, off, k3, k4, k5, k6, _⟩ := h3 f hf
    refine ⟨leNat (two vt f.slot), ?_, by omega⟩
    rw [vtget_at h2' h1 (by omega) k1, if_pos k2]
  · intro s he h4' hn
    rw [vtget_at h2' h1 (by omega) he]
    by_cases hc : s < vt.length
    · left; rw [if_pos hc, h4 s he h4' hn hc]
    · right; rw [if_neg hc]

theorem startTable_spec {m : Mode} {a a' : ABuilder} {o : Nat} (h : a.startTable m = .ok (o, a')) :
    o = a.data.length % 2 ^ 32 ∧ a' = { a with nested := true } := by
  unfold ABuilder.startTable at h
  obtain ⟨_, _, h⟩ := Res.bind_eq_ok.mp h
  cases h; exact ⟨rfl, rfl⟩

/-- From `start_table` to `end_table`. -/
theorem table_spec {m : Mode} {a a₁ a₂ a₃ : ABuilder} {tail obj : Nat} {body : List Op} {rets : List (Option Nat)}
    (hfl : a.fieldLocs = []) (hvt : ∀ r ∈ a.vtables, r ≤ a.data.length)
    (h1 : a.startTable m = .ok (tail, a₁)) (h2 : runA m a₁ body = .ok (rets, a₂))
    (h3 : a₂.endTable m tail = .ok (obj, a₃)) (hb : ∀ op ∈ body, op.inBody = true)
    (hso : ∀ f ∈ body.filterMap Op.stored, SlotOk f.slot)
    (hnd : ((body.filterMap Op.stored).map Fld.slot).Nodup)
    (hfit : m = .release → obj - a.data.length < 65536) (hs : a₃.data.length < 2 ^ 32) :
    TblAt m a₃.data obj a.data.length (body.filterMap Op.stored) ∧ Ext a a₃ ∧ a.data.length < obj ∧
      obj ≤ a₃.data.length ∧ obj % 4 = 0 ∧ a₃.fieldLocs = [] ∧ a₃.nested = false ∧ a₃.finished = a.finished ∧
      4 ≤ a₃.minAlign ∧ (∀ f ∈ body.filterMap Op.stored, f.p.size ≤ a₃.minAlign) ∧ obj - a.data.length < 65536 ∧
      ∃ vt, VtFmt vt ∧ TabAt a₃.data obj vt ∧
        (((∃ r ∈ a.vtables, At a.data r vt) ∧ a₃.vtables = a.vtables ∧ a₃.data.length = obj) ∨
         ((∀ r ∈ a.vtables, ¬ At a.data r vt) ∧ a₃.vtables = a.vtables ++ [a₃.data.length] ∧
           At a₃.data a₃.data.length vt ∧ a₃.data.length = vt.length + obj)) := by
  obtain ⟨e1, rfl⟩ := startTable_spec h1
  have hx3 := endTable_ext h3 hs
  have hl3 := hx3.len
  simp only at hl3
  obtain ⟨locs, q1, q2, q3, q4, q5, q6, q7⟩ := body_spec h2 hb (by omega)
  simp only at q1 q2 q4 q5 q6 q7
  have hxa : Ext a a₂ := q3
  have hl2 := hxa.len
  have hfl3 := endTable_fl h3
  unfold ABuilder.endTable at h3
  obtain ⟨_, _, h3⟩ := Res.bind_eq_ok.mp h3
  obtain ⟨⟨o, a4⟩, h4, h3⟩ := Res.bind_eq_ok.mp h3
  cases h3
  simp only at hs hx3 hl3 ⊢
  rw [hfl, List.nil_append] at q1
  have hid : ∀ f ∈ a₂.fieldLocs, ∃ g ∈ body.filterMap Op.stored, f.id = g.slot := by
    intro l hl
    rw [q1] at hl
    obtain ⟨i, hi, rfl⟩ := List.getElem_of_mem hl
    have := List.forall₂_iff_get.mp q2
    have h7 := this.2 i (by rw [this.1]; exact hi) hi
    exact ⟨_, List.get_mem _ _, h7.1⟩
  have hids : a₂.fieldLocs.map FieldLoc.id = (body.filterMap Op.stored).map Fld.slot := by
    rw [q1]
    have := List.forall₂_iff_get.mp q2
    apply List.ext_getElem
    · simp [this.1]
    · intro i g1 g2
      simp only [List.length_map] at g1 g2
      have h7 := (this.2 i g2 g1).1
      simpa using h7
  have hso' : ∀ f ∈ a₂.fieldLocs, SlotOk f.id := by
    intro f hf
    obtain ⟨g, hg, e⟩ := hid f hf
    rw [e]; exact hso g hg
  obtain ⟨vt, w1, w2, w3, w4⟩ := writeVTable_tab h4 hs hso' (by
    intro r hr
    rw [q4] at hr
    have := hvt r hr
    omega)
  obtain ⟨vt', u, post, p1, p2, p3, p4, p5, p6, p7, p8⟩ := writeVTable_spec h4 hs
  have hpl : a₂.data.length ≤ post.length := by rw [p1]; simp
  obtain ⟨f1, f2, f3, f4, f5⟩ := vtableBytes_fmt w1 hso'
  have hobj4 : obj % 4 = 0 := by
    have := padding_dvd (n := a₂.data.length + 4) (by omega) pow2_4
    rw [p2, p1]
    simp only [List.length_append, List.length_replicate]
    omega
  have hole : obj ≤ a4.data.length := by
    obtain ⟨u, k, _⟩ := w3
    exact k.le
  have hx24 : Ext a₂ a4 := hx3
  have hfit' : obj - a.data.length < 65536 := by
    cases m with
    | release => exact hfit rfl
    | debug =>
      unfold ABuilder.vtableBytes at w1
      obtain ⟨sz, s1, w1⟩ := Res.bind_eq_ok.mp w1
      obtain ⟨_, s2, w1⟩ := Res.bind_eq_ok.mp w1
      rw [e1, Nat.mod_eq_of_lt (by omega)] at s1
      unfold subW at s1
      rw [if_pos (by omega)] at s1
      injection s1 with s1
      unfold debugAssert at s2
      split at s2
      · cases s2
      · rename_i hc
        simp at hc
        omega
  refine ⟨⟨vt, w2, w3, ?_, ?_⟩, hxa.trans hx24, by omega, hole, hobj4, trivial, trivial, by rw [p6, q6], by omega, ?_, hfit', vt, w2, w3, ?_⟩
  · intro f hf
    obtain ⟨i, hi, rfl⟩ := List.getElem_of_mem hf
    have h8 := List.forall₂_iff_get.mp q2
    have hil : i < locs.length := by rw [← h8.1]; exact hi
    obtain ⟨g1, g2, g3, g4, g5, g6⟩ := h8.2 i hi hil
    simp only [List.get_eq_getElem] at g1 g2 g3 g4 g5 g6
    have hmem : locs[i] ∈ a₂.fieldLocs := by rw [q1]; exact List.getElem_mem _
    have hnd' : (a₂.fieldLocs.map FieldLoc.id).Nodup := by rw [hids]; exact hnd
    obtain ⟨d, d1, d2⟩ := f4 hnd' _ hmem
    have hlen := vtableByteLen_ge _ hmem
    refine ⟨(hso _ hf).1, by rw [← g1]; omega, locs[i].off, g2.ext hx24, g3, by omega, ?_, g5⟩
    rw [← g1, d2, leNat_leBytes]
    unfold subW at d1
    rw [if_pos (by omega)] at d1
    injection d1 with d1
    rw [← d1]
    omega
  · intro s he h4' hn hlt
    have hev := w2.even
    have hlt' := w2.lt
    have := f5 s ⟨he, h4', by omega⟩ hlt (by rw [hids]; exact hn)
    rw [this, leNat_leBytes]
  · intro f hf
    obtain ⟨i, hi, rfl⟩ := List.getElem_of_mem hf
    have h8 := List.forall₂_iff_get.mp q2
    have hil : i < locs.length := by rw [← h8.1]; exact hi
    obtain ⟨g1, g2, g3, g4, g5, g6⟩ := h8.2 i hi hil
    simp only [List.get_eq_getElem] at g6
    omega
  · rw [q4] at w4
    obtain ⟨y, hy⟩ := hxa
    have conv : ∀ r ∈ a.vtables, At a₂.data r vt ↔ At a.data r vt := by
      intro r hr
      rw [hy]
      exact ⟨fun h => h.of_prepend (hvt r hr), fun h => h.prepend y⟩
    rcases w4 with ⟨⟨r, hr, hat⟩, w5, w6⟩ | ⟨w5, w6, w7, w8⟩
    · exact Or.inl ⟨⟨r, hr, (conv r hr).mp hat⟩, w5, w6⟩
    · exact Or.inr ⟨fun r hr h => w5 r hr ((conv r hr).mpr h), w6, w7, w8⟩

end Butte
