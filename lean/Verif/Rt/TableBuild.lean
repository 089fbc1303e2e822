import Mathlib.Data.List.Forall2
import Verif.Rt.TableLayout
/-
From `end_table` to a readable table: what the builder leaves behind after a complete table.
-/
namespace Butte

theorem At.of_slice_get {d bs : Bytes} {u e : Nat} (hu : u ≤ d.length)
    (h : sliceGet d (d.length - u) e = .ok bs) : At d u bs := by
  unfold sliceGet at h
  split at h
  · rename_i hc
    cases h
    refine ⟨d.take (d.length - u), d.drop e, ?_, ?_⟩
    · have := split_at d (d.length - u) (e - (d.length - u))
      rw [show d.length - u + (e - (d.length - u)) = e by omega] at this
      exact this
    · simp; omega
  · cases h

theorem At.of_prepend {x y bs : Bytes} {rev : Nat} (h : At (x ++ y) rev bs) (hr : rev ≤ y.length) :
    At y rev bs := by
  obtain ⟨pre, post, e, hrev⟩ := h
  have hl : x.length ≤ pre.length := by
    have := congrArg List.length e
    simp at this; omega
  have hx : pre = x ++ pre.drop x.length := by
    have h1 : x = pre.take x.length := by
      have := congrArg (List.take x.length) e
      rw [List.take_left' rfl, List.take_append_of_le_length hl] at this
      exact this
    conv => lhs; rw [← List.take_append_drop x.length pre, ← h1]
  rw [hx, List.append_assoc] at e
  exact ⟨pre.drop x.length, post, List.append_cancel_left e, hrev⟩

theorem asBytes_at {m : Mode} {d vt : Bytes} {u : Nat} (h : At d u vt) (hf : VtFmt vt)
    (hl : d.length < 2 ^ 62) : VTable.asBytes m ⟨d, d.length - u⟩ = .ok vt := by
  unfold VTable.asBytes
  rw [numBytes_at h hf hl]
  simp only [Res.ok_bind]
  have := hf.lt
  rw [addU_ok (by omega)]
  simp only [Res.ok_bind]
  exact h.slice_get

theorem asBytes_at_inv {m : Mode} {d vt : Bytes} {u : Nat} (hu : u ≤ d.length)
    (h : VTable.asBytes m ⟨d, d.length - u⟩ = .ok vt) : At d u vt := by
  unfold VTable.asBytes at h
  obtain ⟨len, h1, h⟩ := Res.bind_eq_ok.mp h
  obtain ⟨e, h2, h⟩ := Res.bind_eq_ok.mp h
  exact At.of_slice_get hu h

theorem eqv_true {m : Mode} {v w : VTable} {vt : Bytes} (h : v.eqv m w = .ok true) (hv : v.asBytes m = .ok vt) :
    w.asBytes m = .ok vt := by
  unfold VTable.eqv at h
  rw [hv] at h
  cases hw : w.asBytes m <;> rw [hw] at h <;> simp at h
  rw [h]

theorem eqv_false {m : Mode} {v w : VTable} {vt : Bytes} (h : v.eqv m w = .ok false) (hv : v.asBytes m = .ok vt) :
    w.asBytes m ≠ .ok vt := by
  intro hw
  unfold VTable.eqv at h
  rw [hv, hw] at h
  simp at h

/-- The recorded vtables lie in the data, are well formed, pairwise different and at even positions. -/
structure VTInv (a : ABuilder) : Prop where
  le : ∀ r ∈ a.vtables, ∃ vt, VtFmt vt ∧ At a.data r vt
  diff : a.vtables.Pairwise fun r r' => ∀ vt, At a.data r vt → VtFmt vt → ¬ At a.data r' vt
  even : ∀ r ∈ a.vtables, r % 2 = 0

/-- `write_vtable` leaves a table whose vtable is the one computed from the pending fields; the vtable is
shared exactly when a recorded one has the same bytes. -/
theorem writeVTable_tab {m : Mode} {a a' : ABuilder} {tail obj : Nat}
    (h : a.writeVTable m tail = .ok (obj, a')) (hs : a'.data.length < 2 ^ 32)
    (hso : ∀ f ∈ a.fieldLocs, SlotOk f.id) (hvt : ∀ r ∈ a.vtables, r ≤ a.data.length) :
    ∃ vt, ABuilder.vtableBytes m a.fieldLocs obj tail = .ok vt ∧ VtFmt vt ∧ TabAt a'.data obj vt ∧
      (((∃ r ∈ a.vtables, At a.data r vt) ∧ a'.vtables = a.vtables ∧ a'.data.length = obj) ∨
       ((∀ r ∈ a.vtables, ¬ At a.data r vt) ∧ a'.vtables = a.vtables ++ [a'.data.length] ∧
         At a'.data a'.data.length vt ∧ a'.data.length = vt.length + obj)) := by
  obtain ⟨vt, u, post, hp, ho, hb, _, _, _, _, hd⟩ := writeVTable_spec h hs
  have hf := (vtableBytes_fmt hb hso).1
  have hlt := hf.lt
  have hpl : a.data.length ≤ post.length := by rw [hp]; simp
  refine ⟨vt, hb, hf, ?_⟩
  have conv : ∀ (mk : Bytes) (r : Nat), r ∈ a.vtables → At (vt ++ (mk ++ post)) r vt → At a.data r vt := by
    intro mk r hr hat
    have h1 := hvt r hr
    have h2 := (hat.of_prepend (by simp; omega)).of_prepend (by omega)
    rw [hp] at h2
    exact h2.of_prepend h1
  have big : ∀ mk : Bytes, mk.length = 4 → a'.data.length ≥ 4 + post.length →
      (vt ++ (mk ++ post)).length < 2 ^ 62 := by
    intro mk h1 h2
    simp only [List.length_append]; omega
  have needle : ∀ mk : Bytes, mk.length = 4 → a'.data.length ≥ 4 + post.length →
      VTable.asBytes m ⟨vt ++ (mk ++ post), 0⟩ = .ok vt := by
    intro mk h1 h2
    have h0 := asBytes_at (m := m) (At.head vt (mk ++ post)) hf (big mk h1 h2)
    rwa [Nat.sub_self] at h0
  rcases hd with ⟨hu, hv, hda, mk, hmk, he⟩ | ⟨hu, hv, hda, mk, hmk, he⟩
  · have hge : a'.data.length ≥ 4 + post.length := by rw [hda]; simp
    have h1 := eqv_true he (needle mk hmk hge)
    have h2 := hvt u hu
    have h3 := asBytes_at_inv (by simp only [List.length_append]; omega) h1
    have h4 := conv mk u hu h3
    refine ⟨⟨u, ?_, ?_⟩, Or.inl ⟨⟨u, hu, h4⟩, hv, ?_⟩⟩
    · rw [hda, ho]
      have := At.head (leBytes 4 (ofSigned 32 ((u : Int) - obj))) post
      simpa [ho] using this
    · rw [hda, hp]
      exact (h4.prepend _).prepend _
    · rw [hda, ho]; simp
  · have hge : a'.data.length ≥ 4 + post.length := by rw [hda]; simp
    have hat : At a'.data a'.data.length vt := by
      rw [hda]; exact At.head _ _
    refine ⟨⟨u, ?_, ?_⟩, Or.inr ⟨?_, by rw [hv, hu], hat, ?_⟩⟩
    · rw [hda]
      have := (At.head (leBytes 4 (ofSigned 32 ((u : Int) - obj))) post).prepend vt
      simpa [ho] using this
    · rw [hu]; exact hat
    · intro r hr hat'
      have h1 := he r hr
      refine eqv_false h1 (needle mk hmk hge) ?_
      apply asBytes_at _ hf (big mk hmk hge)
      have := hat'.prepend (mk ++ List.replicate (paddingBytes (a.data.length + 4) 4) 0)
      rw [hp]
      have := this.prepend vt
      simpa using this
    · rw [hda, ho]; simp

/-! ### Fields -/

/-- The bytes of the pushed value `x` stand at end-relative position `off`. -/
def PAt (m : Mode) (d : Bytes) (off : Nat) {p : PTy} (x : PVal p) : Prop :=
  p.size ≤ off ∧ ∃ bs, x.pushBytes m (off - p.size) = .ok bs ∧ At d off bs

theorem PAt.prepend {m : Mode} {d : Bytes} {off : Nat} {p : PTy} {x : PVal p} (h : PAt m d off x) (y : Bytes) :
    PAt m (y ++ d) off x := by
  obtain ⟨h1, bs, h2, h3⟩ := h
  exact ⟨h1, bs, h2, h3.prepend y⟩

theorem PAt.ext {m : Mode} {a a' : ABuilder} {off : Nat} {p : PTy} {x : PVal p} (h : PAt m a.data off x)
    (he : Ext a a') : PAt m a'.data off x := by
  obtain ⟨y, hy⟩ := he
  rw [hy]; exact h.prepend y

theorem PAt.scalar {m : Mode} {d : Bytes} {off : Nat} {t : STy} {x : PVal (.sc t)} (h : PAt m d off x)
    (hl : d.length < 2 ^ 62) : FTy.follow m (.scalar t) d (d.length - off) = .ok x := by
  obtain ⟨_, bs, h2, h3⟩ := h
  simp only [PVal.pushBytes] at h2
  cases h2
  have hi : isizeMax = 2 ^ 63 - 1 := rfl
  exact h3.read_scalar (by omega)

theorem PAt.off {m : Mode} {d : Bytes} {off : Nat} {x : PVal .off} (h : PAt m d off x)
    (hl : d.length < 2 ^ 31) (hx : x.val ≤ off) (f : FTy) :
    FTy.follow m (.fwdU f) d (d.length - off) = f.follow m d (d.length - x.val) := by
  obtain ⟨h1, bs, h2, h3⟩ := h
  have hle := h3.le
  have h4 : PTy.off.size = 4 := rfl
  simp only [PVal.pushBytes] at h2
  rw [addU_ok (by omega)] at h2
  simp only [Res.ok_bind] at h2
  rw [subU_ok (by omega)] at h2
  simp only [Res.ok_bind] at h2
  cases h2
  refine fwdU_at ?_ hx hl
  rw [Nat.mod_eq_of_lt (by omega)] at h3
  rwa [h4, show 4 + (off - 4) = off by omega] at h3

theorem push_pat {m : Mode} {a a' : ABuilder} {p : PTy} {x : PVal p} {o : Nat}
    (h : a.push m x = .ok (o, a')) (hs : a'.data.length < 2 ^ 32) :
    o = a'.data.length ∧ PAt m a'.data o x ∧ a.data.length + p.size ≤ o ∧ Ext a a' ∧
    o % p.size = 0 ∧
    a'.fieldLocs = a.fieldLocs ∧ a'.vtables = a.vtables ∧ a'.nested = a.nested ∧
    a'.finished = a.finished ∧ a'.minAlign = max a.minAlign p.size := by
  have hle := push_len_le h
  obtain ⟨bs, h1, h2, h3, h4⟩ := push_spec h (by omega)
  have ho : o = a'.data.length := by rw [h3, Nat.mod_eq_of_lt hs]
  have hlen : a'.data.length = p.size + (paddingBytes (a.data.length + p.size) p.size + a.data.length) := by
    rw [h4]; simp [h2]
  refine ⟨ho, ⟨by omega, bs, ?_, ?_⟩, by omega, push_ext h, ?_, by rw [h4], by rw [h4], by rw [h4], by rw [h4], by rw [h4]⟩
  · rw [ho, hlen, Nat.add_sub_cancel_left]; exact h1
  · rw [ho, h4]; exact At.head _ _
  · obtain ⟨k, hk, e⟩ := p.size_pow2
    have := padding_dvd (n := a.data.length + p.size) (a := p.size) (by omega) ⟨k, by omega, e⟩
    rw [ho, hlen, ← this]
    congr 1; omega

theorem body_spec {m : Mode} : ∀ {body : List Op} {a a' : ABuilder} {rets : List (Option Nat)},
    runA m a body = .ok (rets, a') → (∀ op ∈ body, op.inBody = true) → a'.data.length < 2 ^ 32 →
    ∃ locs, a'.fieldLocs = a.fieldLocs ++ locs ∧
      List.Forall₂ (fun (f : Fld) (l : FieldLoc) => l.id = f.slot ∧ PAt m a'.data l.off f.x ∧
        a.data.length < l.off ∧ l.off ≤ a'.data.length ∧ l.off % f.p.size = 0 ∧ f.p.size ≤ a'.minAlign ∧
            a.data.length + f.p.size ≤ l.off)
        (body.filterMap Op.stored) locs ∧
      Ext a a' ∧ a'.vtables = a.vtables ∧ a'.nested = a.nested ∧ a'.finished = a.finished ∧
      a.minAlign ≤ a'.minAlign ∧
      ((body.filterMap Op.stored).zip locs).Pairwise (fun p q => p.2.off + q.1.p.size ≤ q.2.off)
  | [], a, a', rets, h, _, _ => by
    cases h
    exact ⟨[], by simp, by simp, Ext.refl _, rfl, rfl, rfl, Nat.le_refl _, by simp⟩
  | op :: body, a, a', rets, h, hb, hs => by
    unfold runA at h
    obtain ⟨⟨r1, a1⟩, h1, h⟩ := Res.bind_eq_ok.mp h
    obtain ⟨⟨rs, a2⟩, h2, h⟩ := Res.bind_eq_ok.mp h
    cases h
    have hb' : ∀ op ∈ body, op.inBody = true := fun o ho => hb o (List.mem_cons_of_mem _ ho)
    obtain ⟨locs, e1, e2, e3, e4, e5, e6, e7, e8⟩ := body_spec h2 hb' hs
    have hl2 := e3.len
    have key : ∃ l0 : List FieldLoc, a1.fieldLocs = a.fieldLocs ++ l0 ∧
        List.Forall₂ (fun (f : Fld) (l : FieldLoc) => l.id = f.slot ∧ PAt m a1.data l.off f.x ∧
          a.data.length < l.off ∧ l.off ≤ a1.data.length ∧ l.off % f.p.size = 0 ∧ f.p.size ≤ a1.minAlign ∧
            a.data.length + f.p.size ≤ l.off)
          op.stored.toList l0 ∧
        Ext a a1 ∧ a1.vtables = a.vtables ∧ a1.nested = a.nested ∧ a1.finished = a.finished ∧
        a.minAlign ≤ a1.minAlign := by
      have hso : op.inBody = true := hb op (List.mem_cons_self ..)
      have always : ∀ (s : Nat) (p : PTy) (x : PVal p) (a1 : ABuilder), a1.data.length < 2 ^ 32 →
          a.pushSlotAlways m s x = .ok a1 →
          ∃ l0 : List FieldLoc, a1.fieldLocs = a.fieldLocs ++ l0 ∧
          List.Forall₂ (fun (f : Fld) (l : FieldLoc) => l.id = f.slot ∧ PAt m a1.data l.off f.x ∧
            a.data.length < l.off ∧ l.off ≤ a1.data.length ∧ l.off % f.p.size = 0 ∧ f.p.size ≤ a1.minAlign ∧
            a.data.length + f.p.size ≤ l.off)
            [⟨s, p, x⟩] l0 ∧
          Ext a a1 ∧ a1.vtables = a.vtables ∧ a1.nested = a.nested ∧ a1.finished = a.finished ∧
          a.minAlign ≤ a1.minAlign := by
        intro s p x a1 hs1 h1
        unfold ABuilder.pushSlotAlways at h1
        obtain ⟨_, _, h1⟩ := Res.bind_eq_ok.mp h1
        obtain ⟨⟨o, a3⟩, h3, h1⟩ := Res.bind_eq_ok.mp h1
        cases h1
        obtain ⟨k1, k2, k3, k4, ka, k5, k6, k7, k8, k9⟩ := push_pat h3 hs1
        have := p.size_pos
        refine ⟨[⟨s, o⟩], by simp [k5], ?_, k4, k6, k7, k8, by simp only; omega⟩
        refine List.Forall₂.cons ⟨rfl, k2, ?_, ?_, ka, ?_, ?_⟩ List.Forall₂.nil
        · simp only; omega
        · simp only; omega
        · simp only; omega
        · simp only; omega
      cases op <;> simp only [Op.inBody] at hso <;> try (cases hso)
      case push p x =>
        simp only [stepA, withRetA] at h1
        obtain ⟨⟨o, a3⟩, h3, h1⟩ := Res.bind_eq_ok.mp h1
        cases h1
        obtain ⟨_, _, _, k4, _, k5, k6, k7, k8, k9⟩ := push_pat h3 (by simp only at hl2; omega)
        exact ⟨[], by simp [k5], by simp [Op.stored], k4, k6, k7, k8, by simp only; omega⟩
      case pushSlot s p x d =>
        simp only [stepA, noRetA] at h1
        obtain ⟨a3, h3, h1⟩ := Res.bind_eq_ok.mp h1
        cases h1
        unfold ABuilder.pushSlot at h3
        obtain ⟨_, _, h3⟩ := Res.bind_eq_ok.mp h3
        by_cases he : x.eqv d = true
        · rw [if_pos he] at h3
          cases h3
          exact ⟨[], by simp, by simp [Op.stored, he], Ext.refl _, rfl, rfl, rfl, Nat.le_refl _⟩
        · rw [if_neg he] at h3
          simp only [Op.stored, he, Bool.false_eq_true, if_false, Option.toList]
          exact always s p x _ (by omega) h3
      case pushSlotAlways s p x =>
        simp only [stepA, noRetA] at h1
        obtain ⟨a3, h3, h1⟩ := Res.bind_eq_ok.mp h1
        cases h1
        exact always s p x _ (by omega) h3
    obtain ⟨l0, f1, f2, f3, f4, f5, f6, f7⟩ := key
    have hl1 := f3.len
    have hfm : (op :: body).filterMap Op.stored = op.stored.toList ++ body.filterMap Op.stored := by
      rw [List.filterMap_cons]
      cases op.stored <;> rfl
    refine ⟨l0 ++ locs, by rw [e1, f1, List.append_assoc], ?_, f3.trans e3, by rw [e4, f4], by rw [e5, f5],
      by rw [e6, f6], by omega, ?_⟩
    rotate_left
    · rw [hfm, List.zip_append f2.length_eq, List.pairwise_append]
      refine ⟨?_, e8, ?_⟩
      · cases h0 : op.stored with
        | none => simp
        | some f =>
          cases l0 with
          | nil => simp
          | cons l l0 => simp
      · intro p hp q hq
        have g1 := (List.forall₂_zip f2 hp).2.2.2.1
        have g2 := (List.forall₂_zip e2 hq).2.2.2.2.2.2
        omega
    rw [hfm]
    apply List.rel_append
    · refine f2.imp ?_
      rintro f l ⟨q1, q2, q3, q4, q5, q6⟩
      exact ⟨q1, q2.ext e3, q3, by omega, q5, by omega⟩
    · refine e2.imp ?_
      rintro f l ⟨q1, q2, q3, q4, q5, q6⟩
      exact ⟨q1, q2, by omega, q4, q5, by omega⟩

end Butte
