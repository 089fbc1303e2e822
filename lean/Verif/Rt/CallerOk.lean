import Verif.Rt.AProgress
import Verif.Rt.FinishRead
import Verif.Props.Values
/-
A caller that follows the protocol never makes the abstract builder panic.
-/
namespace Butte

/-- The caller's view agrees with the builder. -/
structure Tracks (m : Mode) (c : Caller) (a : ABuilder) : Prop where
  len : a.data.length ≤ 2 ^ 31 - 2 ^ 17
  nested : a.nested = match c.building with | .nothing => false | _ => true
  finished : a.finished = c.finished
  known : ∀ o ∈ c.known, o ≤ a.data.length ∧ a.minAlign ≠ 0
  tables : ∀ t slots, (t, slots) ∈ c.tables → ∃ base flds, TblAt m a.data t base flds ∧ flds.map Fld.slot = slots
  ma : MAOk a.minAlign
  vt : VTInv a
  fl : FLOk a
  pending : match c.building with
    | .table tail body => ∃ (a0 a1 : ABuilder) (rets : List (Option Nat)), a0.fieldLocs = [] ∧ (∀ r ∈ a0.vtables, r ≤ a0.data.length) ∧
        a0.startTable m = .ok (tail, a1) ∧ runA m a1 body = .ok (rets, a) ∧ (∀ op ∈ body, op.inBody = true) ∧
        (∀ f ∈ body.filterMap Op.stored, SlotOk f.slot) ∧ (body.filterMap Op.slot?).Nodup
    | _ => a.fieldLocs = []

theorem Tracks.start (m : Mode) : Tracks m .start .init := by
  refine ⟨by decide, rfl, rfl, nofun, nofun, Or.inl rfl, ⟨nofun, List.Pairwise.nil, nofun⟩, nofun, rfl⟩

theorem Tracks.valOk {m : Mode} {c : Caller} {a : ABuilder} (h : Tracks m c a) {p : PTy} {x : PVal p}
    (hx : c.knows x) : ValOk a x := by
  cases p with
  | sc t => trivial
  | off => exact (h.known _ hx).1

/-- Offsets returned by a call point into the data, which is then not empty. -/
theorem stepA_ret {m : Mode} {a a' : ABuilder} {op : Op} {o : Nat} (h : stepA m a op = .ok (some o, a'))
    (hne : op ≠ .startTable) (hs : a'.data.length < 2 ^ 32) : o ≤ a'.data.length ∧ a'.minAlign ≠ 0 := by
  by_cases hw : op.wide = true
  · have h4 := stepA_wide h hw hs
    simp only at h4
    refine ⟨?_, by omega⟩
    cases op <;> simp only [stepA] at h <;> try (simp [Op.wide] at hw; done)
    case push p x =>
      have h1 := withRetA_some h
      exact Nat.le_of_eq (push_pat h1 hs).1
    case endTable t =>
      have h1 := withRetA_some h
      unfold ABuilder.endTable at h1
      obtain ⟨_, _, h1⟩ := Res.bind_eq_ok.mp h1
      obtain ⟨⟨o', a1⟩, h2, h1⟩ := Res.bind_eq_ok.mp h1
      cases h1
      obtain ⟨vt, u, post, hp, ho, _, _, _, _, _, hd⟩ := writeVTable_spec h2 hs
      simp only
      rcases hd with ⟨_, _, hd, _⟩ | ⟨_, _, hd, _⟩ <;> rw [hd, ho] <;> simp
    case endVector =>
      have h1 := withRetA_some h
      unfold ABuilder.endVector at h1
      obtain ⟨_, _, h1⟩ := Res.bind_eq_ok.mp h1
      exact Nat.le_of_eq (push_pat h1 hs).1
    case createString s =>
      have h1 := withRetA_some h
      unfold ABuilder.createString ABuilder.createByteString at h1
      obtain ⟨_, _, h1⟩ := Res.bind_eq_ok.mp h1
      obtain ⟨_, _, h1⟩ := Res.bind_eq_ok.mp h1
      obtain ⟨_, _, h1⟩ := Res.bind_eq_ok.mp h1
      obtain ⟨_, _, h1⟩ := Res.bind_eq_ok.mp h1
      obtain ⟨_, _, h1⟩ := Res.bind_eq_ok.mp h1
      exact Nat.le_of_eq (push_pat h1 hs).1
    case createByteString s =>
      have h1 := withRetA_some h
      unfold ABuilder.createByteString at h1
      obtain ⟨_, _, h1⟩ := Res.bind_eq_ok.mp h1
      obtain ⟨_, _, h1⟩ := Res.bind_eq_ok.mp h1
      obtain ⟨_, _, h1⟩ := Res.bind_eq_ok.mp h1
      obtain ⟨_, _, h1⟩ := Res.bind_eq_ok.mp h1
      exact Nat.le_of_eq (push_pat h1 hs).1
    case createVectorDirect t xs =>
      have h1 := withRetA_some h
      unfold ABuilder.createVectorDirect at h1
      obtain ⟨_, _, h1⟩ := Res.bind_eq_ok.mp h1
      obtain ⟨_, _, h1⟩ := Res.bind_eq_ok.mp h1
      obtain ⟨_, _, h1⟩ := Res.bind_eq_ok.mp h1
      exact Nat.le_of_eq (push_pat h1 hs).1
    case createVector p xs =>
      have h1 := withRetA_some h
      unfold ABuilder.createVector at h1
      obtain ⟨_, _, h1⟩ := Res.bind_eq_ok.mp h1
      obtain ⟨_, _, h1⟩ := Res.bind_eq_ok.mp h1
      obtain ⟨_, _, h1⟩ := Res.bind_eq_ok.mp h1
      exact Nat.le_of_eq (push_pat h1 hs).1
    case createVectorOfStrings xs =>
      have h1 := withRetA_some h
      unfold ABuilder.createVectorOfStrings at h1
      obtain ⟨_, _, h1⟩ := Res.bind_eq_ok.mp h1
      obtain ⟨_, _, h1⟩ := Res.bind_eq_ok.mp h1
      unfold ABuilder.createVector at h1
      obtain ⟨_, _, h1⟩ := Res.bind_eq_ok.mp h1
      obtain ⟨_, _, h1⟩ := Res.bind_eq_ok.mp h1
      obtain ⟨_, _, h1⟩ := Res.bind_eq_ok.mp h1
      exact Nat.le_of_eq (push_pat h1 hs).1
    all_goals (simp only [noRetA] at h; obtain ⟨_, _, h⟩ := Res.bind_eq_ok.mp h; cases h)
  · cases op <;> simp only [stepA] at h <;> try (simp [Op.wide] at hw; done)
    case startTable => exact absurd rfl hne
    case push p x =>
      have h1 := withRetA_some h
      have h2 := (push_MA h1).2
      have := p.size_pos
      simp only at h2
      exact ⟨Nat.le_of_eq (push_pat h1 hs).1, by omega⟩
    case reset => cases h
    case required => obtain ⟨_, _, h⟩ := Res.bind_eq_ok.mp h; cases h
    all_goals (simp only [noRetA] at h; obtain ⟨_, _, h⟩ := Res.bind_eq_ok.mp h; cases h)

/-- What any completed call other than `reset` preserves. -/
theorem Tracks.common {m : Mode} {c : Caller} {a a' : ABuilder} {op : Op} {r : Option Nat} (h : Tracks m c a)
    (e : stepA m a op = .ok (r, a')) (hr : op.isReset = false) (hso : ∀ s, op.slot? = some s → SlotOk s)
    (hl : a'.data.length ≤ 2 ^ 31 - 2 ^ 17) :
    Ext a a' ∧ MAOk a'.minAlign ∧ VTInv a' ∧ FLOk a' ∧ (∀ o ∈ c.known, o ≤ a'.data.length ∧ a'.minAlign ≠ 0) ∧
    (∀ t slots, (t, slots) ∈ c.tables → ∃ base flds, TblAt m a'.data t base flds ∧ flds.map Fld.slot = slots) ∧
    (op ≠ .startTable → ∀ o ∈ r.toList ++ c.known, o ≤ a'.data.length ∧ a'.minAlign ≠ 0) := by
  have hx := stepA_ext e hr (by simp only; omega)
  have hma := stepA_MA e hr
  obtain ⟨i1, i2⟩ := stepA_inv e hso h.fl h.vt (by simp only; omega)
  simp only at hx hma i1 i2
  have hlen := hx.len
  have hk : ∀ o ∈ c.known, o ≤ a'.data.length ∧ a'.minAlign ≠ 0 := by
    intro o ho
    have := h.known o ho
    have := hma.1
    omega
  refine ⟨hx, hma.2 h.ma, i2, i1, hk, ?_, ?_⟩
  · intro t slots ht
    obtain ⟨base, flds, k1, k2⟩ := h.tables t slots ht
    exact ⟨base, flds, k1.ext hx, k2⟩
  · intro hne o ho
    rcases List.mem_append.mp ho with ho | ho
    · cases r with
      | none => cases ho
      | some o' =>
        have : o = o' := by simpa using ho
        subst this
        exact stepA_ret e hne (by omega)
    · exact hk o ho

/-- Calls made while no table is under construction and that leave the pending fields alone. -/
theorem Tracks.plain {m : Mode} {c c' : Caller} {a a' : ABuilder} {op : Op} {r : Option Nat} (h : Tracks m c a)
    (e : stepA m a op = .ok (r, a')) (hr : op.isReset = false) (hso : op.slot? = none)
    (hl : a'.data.length ≤ 2 ^ 31 - 2 ^ 17) (hfl : a.fieldLocs = [])
    (hn : a'.nested = match c'.building with | .nothing => false | _ => true) (hf : a'.finished = c'.finished)
    (hb : ∀ t body, c'.building ≠ .table t body)
    (hne : op ≠ .startTable) (hk : c'.known = r.toList ++ c.known ∨ c'.known = c.known)
    (ht : c'.tables = c.tables) : Tracks m c' a' := by
  obtain ⟨hx, k1, k2, k3, k4, k5, k6⟩ := h.common e hr (by rw [hso]; nofun) hl
  have hfl' := stepA_fl e hso hfl
  refine ⟨hl, hn, hf, ?_, by rw [ht]; exact k5, k1, k2, k3, ?_⟩
  · rcases hk with hk | hk
    · rw [hk]; exact k6 hne
    · rw [hk]; exact k4
  · cases hc : c'.building with
    | table t body => exact absurd hc (hb t body)
    | nothing => exact hfl'
    | vector => exact hfl'

theorem stored_slot? {op : Op} {f : Fld} (h : op.stored = some f) : op.slot? = some f.slot := by
  cases op <;> simp only [Op.stored, reduceCtorEq, Option.some.injEq] at h
  case pushSlot s p x d =>
    split at h
    · cases h
    · cases h; rfl
  case pushSlotAlways => subst h; rfl

theorem stored_sublist : ∀ (body : List Op),
    ((body.filterMap Op.stored).map Fld.slot).Sublist (body.filterMap Op.slot?)
  | [] => by simp
  | op :: body => by
    have ih := stored_sublist body
    cases h : op.stored with
    | none =>
      rw [List.filterMap_cons_none h]
      cases h2 : op.slot? with
      | none => rw [List.filterMap_cons_none h2]; exact ih
      | some s => rw [List.filterMap_cons_some h2]; exact ih.cons _
    | some f =>
      rw [List.filterMap_cons_some h, List.filterMap_cons_some (stored_slot? h), List.map_cons]
      exact ih.cons_cons _

/-- Calls of a table's body. -/
theorem Tracks.body {m : Mode} {c : Caller} {a a' : ABuilder} {op : Op} {r : Option Nat} {t : Nat} {body : List Op}
    (h : Tracks m c a) (hc : c.building = .table t body)
    (e : stepA m a op = .ok (r, a')) (hib : op.inBody = true) (hso : ∀ s, op.slot? = some s → SlotOk s ∧ s ∉ body.filterMap Op.slot?)
    (hl : a'.data.length ≤ 2 ^ 31 - 2 ^ 17) :
    Tracks m { c with building := .table t (body ++ [op]), known := r.toList ++ c.known } a' := by
  have hr : op.isReset = false := by cases op <;> first | rfl | cases hib
  have hne : op ≠ .startTable := by rintro rfl; cases hib
  obtain ⟨hx, k1, k2, k3, k4, k5, k6⟩ := h.common e hr (fun s hs => (hso s hs).1) hl
  have hp := h.pending
  rw [hc] at hp
  obtain ⟨a0, a1, rets, p1, p2, p3, p4, p5, p6, p7⟩ := hp
  have e' : runA m a [op] = .ok ([r], a') := by
    simp only [runA]; rw [e]; rfl
  have hrun : runA m a1 (body ++ [op]) = .ok (rets ++ [r], a') := runA_append.mpr ⟨_, _, _, p4, e', rfl⟩
  have hb' : ∀ o ∈ [op], o.inBody = true := by
    intro o ho
    have : o = op := by simpa using ho
    rw [this]; exact hib
  have hbs := body_spec e' hb' (by omega)
  obtain ⟨locs, _, _, _, _, q1, q2, _⟩ := hbs
  refine ⟨hl, ?_, ?_, k6 hne, k5, k1, k2, k3, ?_⟩
  · simp only; rw [q1, h.nested, hc]
  · simp only; rw [q2]; exact h.finished
  · refine ⟨a0, a1, _, p1, p2, p3, hrun, ?_, ?_, ?_⟩
    · intro o ho
      rcases List.mem_append.mp ho with ho | ho
      · exact p5 o ho
      · exact hb' o ho
    · intro f hf
      rw [List.filterMap_append] at hf
      rcases List.mem_append.mp hf with hf | hf
      · exact p6 f hf
      · obtain ⟨o, ho, hf2⟩ := List.mem_filterMap.mp hf
        have : o = op := by simpa using ho
        subst this
        exact (hso _ (stored_slot? hf2)).1
    · rw [List.filterMap_append]
      cases hs : op.slot? with
      | none => rw [List.filterMap_cons_none hs]; simpa using p7
      | some s =>
        rw [List.filterMap_cons_some hs]
        refine List.nodup_append.mpr ⟨p7, by simp, ?_⟩
        intro x hx y hy
        have : y = s := by simpa using hy
        subst this
        rintro rfl
        exact (hso _ hs).2 hx

theorem withRetA_ok {r : Nat × ABuilder} {x : Res (Nat × ABuilder)} (h : x = .ok r) :
    withRetA x = .ok (some r.1, r.2) := by subst h; rfl

theorem noRetA_ok {r : ABuilder} {x : Res ABuilder} (h : x = .ok r) : noRetA x = .ok (none, r) := by subst h; rfl

theorem Tracks.endTable {m : Mode} {c : Caller} {a : ABuilder} {t : Fin (2 ^ 32)} {body : List Op} (h : Tracks m c a)
    (hc : c.building = .table t body) (hn : a.data.length + 65544 ≤ 2 ^ 31 - 2 ^ 17)
    (hf : a.data.length + 7 < t + 65536) :
    ∃ r a', stepA m a (.endTable t) = .ok (r, a') ∧ Tracks m (c.next (.endTable t) r) a' := by
  have hp := h.pending
  rw [hc] at hp
  obtain ⟨a0, a1, rets, p1, p2, p3, p4, p5, p6, p7⟩ := hp
  have hnest : a.nested = true := by rw [h.nested, hc]
  obtain ⟨st1, st2⟩ := startTable_spec p3
  have hd0 : a1.data = a0.data := by rw [st2]
  obtain ⟨locs, q1, q2, q3, q4, _⟩ := body_spec p4 p5 (by omega)
  have hl0 := q3.len
  rw [hd0] at hl0
  rw [Nat.mod_eq_of_lt (by omega)] at st1
  have hfl1 : a1.fieldLocs = [] := by rw [st2]; exact p1
  rw [hfl1, List.nil_append] at q1
  have hg := List.forall₂_iff_get.mp q2
  have hids : a.fieldLocs.map FieldLoc.id = (body.filterMap Op.stored).map Fld.slot := by
    rw [q1]
    apply List.ext_getElem
    · simp [hg.1]
    · intro i g1 g2
      simp only [List.length_map] at g1 g2
      have h7 := (hg.2 i g2 g1).1
      simpa using h7
  have hnd : ((body.filterMap Op.stored).map Fld.slot).Nodup := (stored_sublist body).nodup p7
  obtain ⟨o, a', e, hlen⟩ := endTable_okA (m := m) (a := a) (tail := t) hnest (by omega) hf (by omega)
    (by
      intro f hf
      refine ⟨h.fl f hf, ?_⟩
      rw [q1] at hf
      obtain ⟨i, hi, rfl⟩ := List.getElem_of_mem hf
      have := hg.2 i (by rw [hg.1]; exact hi) hi
      exact this.2.2.2.1)
    (by rw [hids]; exact hnd) h.vt
  have es : stepA m a (.endTable t) = .ok (some o, a') := withRetA_ok e
  refine ⟨some o, a', es, ?_⟩
  have hl : a'.data.length ≤ 2 ^ 31 - 2 ^ 17 := by omega
  obtain ⟨hx, k1, k2, k3, k4, k5, k6⟩ := h.common es rfl nofun hl
  have hofit : o - a0.data.length < 65536 := by
    unfold ABuilder.endTable at e
    obtain ⟨_, _, e⟩ := Res.bind_eq_ok.mp e
    obtain ⟨⟨o', a2⟩, h2, e⟩ := Res.bind_eq_ok.mp e
    cases e
    obtain ⟨vt, u, post, hp, ho, _⟩ := writeVTable_spec h2 (by simp only at hl; omega)
    have := padding_lt (n := a.data.length + 4) (by omega) pow2_4
    rw [ho, hp]
    simp only [List.length_append, List.length_replicate]
    omega
  obtain ⟨w1, w2, w3, w4, _, w5, w6, w7, _⟩ := table_spec p1 p2 p3 p4 e p5 p6 hnd (fun _ => hofit) (by omega)
  simp only [Caller.next, hc]
  refine ⟨hl, w6, ?_, k6 (by simp), ?_, k1, k2, k3, w5⟩
  · simp only
    rw [w7]
    have : a.finished = a0.finished := by
      obtain ⟨_, _, _, _, _, _, q5, _⟩ := body_spec p4 p5 (by omega)
      rw [q5, st2]
    rw [← this]; exact h.finished
  · intro t' slots ht
    rcases List.mem_append.mp ht with ht | ht
    · have : t' = o ∧ slots = (body.filterMap Op.stored).map Fld.slot := by simpa using ht
      obtain ⟨rfl, rfl⟩ := this
      exact ⟨_, _, w1, rfl⟩
    · exact k5 t' slots ht

theorem Tracks.step {m : Mode} {c : Caller} {a : ABuilder} {op : Op} (h : Tracks m c a) (ha : c.allows op)
    (hn : a.data.length + op.need ≤ 2 ^ 31 - 2 ^ 17)
    (hf : ∀ t, op = .endTable t → a.data.length + 7 < t + 65536) :
    ∃ r a', stepA m a op = .ok (r, a') ∧ Tracks m (c.next op r) a' := by
  have hlen := h.len
  cases op with
  | endTable t =>
    obtain ⟨body, hc⟩ := ha
    exact h.endTable hc hn (hf t rfl)
  | push p x =>
    simp only [Caller.allows] at ha
    simp only [Op.need] at hn
    obtain ⟨o, a', e, hl, _⟩ := push_okA (m := m) (a := a) (x := x) (by omega) (h.valOk ha)
    have es : stepA m a (.push p x) = .ok (some o, a') := withRetA_ok e
    have hfl := push_fl e
    simp only at hfl
    refine ⟨some o, a', es, ?_⟩
    cases hc : c.building with
    | table t body =>
      have := h.body hc es rfl nofun (by omega)
      simpa only [Caller.next, hc] using this
    | nothing =>
      have hp := h.pending
      rw [hc] at hp
      refine h.plain es rfl rfl (by omega) hp ?_ ?_ ?_ (by simp) ?_ ?_ <;> simp only [Caller.next, hc]
      · rw [hfl.2.2.1, h.nested, hc]
      · rw [hfl.2.2.2, h.finished]
      · nofun
      · exact Or.inl trivial
    | vector =>
      have hp := h.pending
      rw [hc] at hp
      refine h.plain es rfl rfl (by omega) hp ?_ ?_ ?_ (by simp) ?_ ?_ <;> simp only [Caller.next, hc]
      · rw [hfl.2.2.1, h.nested, hc]
      · rw [hfl.2.2.2, h.finished]
      · nofun
      · exact Or.inl trivial
  | pushSlot s p x d =>
    obtain ⟨h1, h2, t, body, hc, h3⟩ := ha
    simp only [Op.need] at hn
    obtain ⟨a', e, hl⟩ := pushSlot_okA (m := m) (a := a) (x := x) (d := d) (s := s) (by rw [h.nested, hc]) (by omega) (h.valOk h2)
    have es : stepA m a (.pushSlot s p x d) = .ok (none, a') := noRetA_ok e
    refine ⟨none, a', es, ?_⟩
    have := h.body hc es rfl (by rintro s' ⟨⟩; exact ⟨h1, h3⟩) (by omega)
    simpa only [Caller.next, hc] using this
  | pushSlotAlways s p x =>
    obtain ⟨h1, h2, t, body, hc, h3⟩ := ha
    simp only [Op.need] at hn
    obtain ⟨a', e, hl⟩ := pushSlotAlways_okA (m := m) (a := a) (x := x) (s := s) (by rw [h.nested, hc]) (by omega) (h.valOk h2)
    have es : stepA m a (.pushSlotAlways s p x) = .ok (none, a') := noRetA_ok e
    refine ⟨none, a', es, ?_⟩
    have := h.body hc es rfl (by rintro s' ⟨⟩; exact ⟨h1, h3⟩) (by omega)
    simpa only [Caller.next, hc] using this
  | startTable =>
    have hc : c.building = .nothing := ha
    have hp := h.pending
    rw [hc] at hp
    have e := startTable_okA (m := m) (a := a) (by rw [h.nested, hc])
    have es : stepA m a .startTable = .ok (some (a.data.length % 2 ^ 32), { a with nested := true }) := withRetA_ok e
    refine ⟨_, _, es, ?_⟩
    obtain ⟨hx, k1, k2, k3, k4, k5, _⟩ := h.common es rfl nofun hlen
    refine ⟨hlen, rfl, h.finished, k4, k5, k1, k2, k3, ?_⟩
    exact ⟨a, _, [], hp, h.vt.bound, e, rfl, nofun, nofun, List.nodup_nil⟩
  | startVector p n =>
    have hc : c.building = .nothing := ha
    have hp := h.pending
    rw [hc] at hp
    simp only [Op.need] at hn
    obtain ⟨a', e, hl⟩ := startVector_okA (m := m) (a := a) (p := p) (n := n) (by rw [h.nested, hc]) (by omega)
    have es : stepA m a (.startVector p n) = .ok (none, a') := noRetA_ok e
    refine ⟨none, a', es, ?_⟩
    have hff : a'.nested = true ∧ a'.finished = a.finished := by
      unfold ABuilder.startVector at e
      obtain ⟨_, _, e⟩ := Res.bind_eq_ok.mp e
      obtain ⟨_, _, e⟩ := Res.bind_eq_ok.mp e
      have := align_fl e
      exact ⟨this.2.2.1, this.2.2.2⟩
    refine h.plain es rfl rfl (by omega) hp ?_ ?_ ?_ (by simp) ?_ ?_ <;> simp only [Caller.next]
    · exact hff.1
    · rw [hff.2, h.finished]
    · nofun
    · exact Or.inr trivial
  | endVector n =>
    have hc : c.building = .vector := ha
    have hp := h.pending
    rw [hc] at hp
    simp only [Op.need] at hn
    obtain ⟨o, a', e, hl⟩ := endVector_okA (m := m) (a := a) (n := n) (by rw [h.nested, hc]) (by omega)
    have es : stepA m a (.endVector n) = .ok (some o, a') := withRetA_ok e
    refine ⟨_, a', es, ?_⟩
    have hff : a'.nested = false ∧ a'.finished = a.finished := by
      unfold ABuilder.endVector at e
      obtain ⟨_, _, e⟩ := Res.bind_eq_ok.mp e
      have := push_fl e
      exact ⟨this.2.2.1, this.2.2.2⟩
    refine h.plain es rfl rfl (by omega) hp ?_ ?_ ?_ (by simp) ?_ ?_ <;> simp only [Caller.next]
    · exact hff.1
    · rw [hff.2, h.finished]
    · nofun
    · exact Or.inl trivial
  | createString s =>
    have hc : c.building = .nothing := ha
    have hp := h.pending
    rw [hc] at hp
    simp only [Op.need] at hn
    obtain ⟨o, a', e, hl, _⟩ := createString_okA (m := m) (a := a) (s := s) (by rw [h.nested, hc]) (by omega)
    have es : stepA m a (.createString s) = .ok (some o, a') := withRetA_ok e
    have hfl := createString_fl e
    refine ⟨_, a', es, ?_⟩
    refine h.plain es rfl rfl (by omega) hp ?_ ?_ ?_ (by simp) ?_ ?_ <;> simp only [Caller.next, hc]
    · rw [hfl.2.2.1, h.nested, hc]
    · rw [hfl.2.2.2, h.finished]
    · nofun
    · exact Or.inl trivial
  | createByteString s =>
    have hc : c.building = .nothing := ha
    have hp := h.pending
    rw [hc] at hp
    simp only [Op.need] at hn
    obtain ⟨o, a', e, hl, _⟩ := createByteString_okA (m := m) (a := a) (bs := s) (by rw [h.nested, hc]) (by omega)
    have es : stepA m a (.createByteString s) = .ok (some o, a') := withRetA_ok e
    have hfl := createByteString_fl e
    refine ⟨_, a', es, ?_⟩
    refine h.plain es rfl rfl (by omega) hp ?_ ?_ ?_ (by simp) ?_ ?_ <;> simp only [Caller.next, hc]
    · rw [hfl.2.2.1, h.nested, hc]
    · rw [hfl.2.2.2, h.finished]
    · nofun
    · exact Or.inl trivial
  | createVectorDirect t xs =>
    have hc : c.building = .nothing := ha
    have hp := h.pending
    rw [hc] at hp
    simp only [Op.need] at hn
    obtain ⟨o, a', e, hl⟩ := createVectorDirect_okA (m := m) (a := a) (xs := xs) (by rw [h.nested, hc]) (by omega)
    have es : stepA m a (.createVectorDirect t xs) = .ok (some o, a') := withRetA_ok e
    have hfl := createVectorDirect_fl e
    refine ⟨_, a', es, ?_⟩
    refine h.plain es rfl rfl (by omega) hp ?_ ?_ ?_ (by simp) ?_ ?_ <;> simp only [Caller.next, hc]
    · rw [hfl.2.2.1, h.nested, hc]
    · rw [hfl.2.2.2, h.finished]
    · nofun
    · exact Or.inl trivial
  | createVector p xs =>
    obtain ⟨hc, hk⟩ := ha
    have hp := h.pending
    rw [hc] at hp
    simp only [Op.need] at hn
    obtain ⟨o, a', e, hl⟩ := createVector_okA (m := m) (a := a) (xs := xs) (by omega) (fun x hx => h.valOk (hk x hx))
    have es : stepA m a (.createVector p xs) = .ok (some o, a') := withRetA_ok e
    have hfl := createVector_fl e
    refine ⟨_, a', es, ?_⟩
    refine h.plain es rfl rfl (by omega) hp ?_ ?_ ?_ (by simp) ?_ ?_ <;> simp only [Caller.next, hc]
    · rw [hfl.2.2.1, h.nested, hc]
    · rw [hfl.2.2.2, h.finished]
    · nofun
    · exact Or.inl trivial
  | createVectorOfStrings xs =>
    have hc : c.building = .nothing := ha
    have hp := h.pending
    rw [hc] at hp
    simp only [Op.need] at hn
    obtain ⟨o, a', e, hl⟩ := createVectorOfStrings_okA (m := m) (a := a) (xs := xs) (by rw [h.nested, hc]) (by omega)
    have es : stepA m a (.createVectorOfStrings xs) = .ok (some o, a') := withRetA_ok e
    have hfl := createVectorOfStrings_fl e
    refine ⟨_, a', es, ?_⟩
    refine h.plain es rfl rfl (by omega) hp ?_ ?_ ?_ (by simp) ?_ ?_ <;> simp only [Caller.next, hc]
    · rw [hfl.2.2.1, h.nested, hc]
    · rw [hfl.2.2.2, h.finished]
    · nofun
    · exact Or.inl trivial
  | required t s =>
    obtain ⟨hc, slots, ht, hs⟩ := ha
    have hp := h.pending
    rw [hc] at hp
    obtain ⟨base, flds, k1, k2⟩ := h.tables _ _ ht
    have e := required_okA (m := m) k1 (by omega) (slot := s) (by rw [k2]; exact hs)
    have es : stepA m a (.required t s) = .ok (none, a) := by
      simp only [stepA]; rw [e]; rfl
    refine ⟨none, a, es, ?_⟩
    refine h.plain es rfl rfl hlen hp ?_ ?_ ?_ (by simp) ?_ ?_ <;> simp only [Caller.next, hc]
    · rw [h.nested, hc]
    · rw [h.finished]
    · nofun
    · exact Or.inl trivial
  | finish r i sp =>
    obtain ⟨hc, hfin, hr, hi⟩ := ha
    have hp := h.pending
    rw [hc] at hp
    simp only [Op.need] at hn
    obtain ⟨a', e, hl⟩ := finish_okA (m := m) (a := a) (root := r) (ident := i) (sp := sp) (by rw [h.nested, hc])
      (by rw [h.finished, hfin]) h.ma (h.known _ hr).2 hi (h.known _ hr).1 (by omega)
    have es : stepA m a (.finish r i sp) = .ok (none, a') := noRetA_ok e
    have hfl := finishWithOpts_fl e
    refine ⟨_, a', es, ?_⟩
    refine h.plain es rfl rfl (by omega) hp ?_ ?_ ?_ (by simp) ?_ ?_ <;> simp only [Caller.next, hc]
    · rw [hfl.2.2.1, h.nested, hc]
    · exact hfl.2.2.2
    · nofun
    · exact Or.inr trivial
  | reset =>
    have hp : a.fieldLocs = [] := by
      have := h.pending
      rcases ha with hc | hc <;> rw [hc] at this <;> exact this
    refine ⟨none, a.reset, rfl, ?_⟩
    have : a.reset = .init := by unfold ABuilder.reset; rw [hp]; rfl
    rw [this]
    exact Tracks.start m

/-- A caller that follows the protocol completes all its calls. -/
theorem abides_run {m : Mode} : ∀ {ops : List Op} {b : Builder} {a : ABuilder} {c : Caller}, R b a → Tracks m c a →
    Abides m b c ops → ∃ rets b', run m b ops = .ok (rets, b') ∧ b'.usedSpace ≤ 2 ^ 31 - 2 ^ 17
  | [], b, a, c, hr, ht, _ => ⟨[], b, rfl, by rw [hr.used]; exact ht.len⟩
  | op :: ops, b, a, c, hr, ht, ⟨h1, h2, h3⟩ => by
    obtain ⟨h2, h4⟩ := h2
    rw [hr.used] at h2
    obtain ⟨r, a', e, ht'⟩ := ht.step h1 h2 (by rintro t rfl; rw [← hr.used]; exact h4)
    obtain ⟨b', e', hr'⟩ := hr.step_small e ht'.len
    obtain ⟨rs, b'', e2, hu⟩ := abides_run hr' ht' (h3 r b' e')
    refine ⟨r :: rs, b'', ?_, hu⟩
    simp only [run]
    rw [e']
    simp only [Res.ok_bind]
    rw [e2]; rfl

end Butte
