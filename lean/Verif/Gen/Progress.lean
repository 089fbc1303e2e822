import Verif.Gen.ReadBack
import Verif.Rt.CallerOk
/-
When the generated `create` completes, and when it panics.
-/
namespace Butte

/-- What the caller remembers after calls that returned `rets`. -/
def Caller.after : Caller → List Op → List (Option Nat) → Caller
  | c, op :: ops, r :: rets => Caller.after (c.next op r) ops rets
  | c, _, _ => c

theorem abides_tracks {m : Mode} : ∀ {ops : List Op} {b b' : Builder} {a : ABuilder} {c : Caller}
    {rets : List (Option Nat)}, R b a → Tracks m c a → Abides m b c ops → run m b ops = .ok (rets, b') →
    ∃ a', R b' a' ∧ Tracks m (c.after ops rets) a'
  | [], b, b', a, c, rets, hr, ht, _, e => by
    cases e; exact ⟨a, hr, ht⟩
  | op :: ops, b, b', a, c, rets, hr, ht, ⟨h1, h2, h3⟩, e => by
    obtain ⟨h2, h4⟩ := h2
    rw [hr.used] at h2
    obtain ⟨r, a', f, ht'⟩ := ht.step h1 h2 (by rintro t rfl; rw [← hr.used]; exact h4)
    obtain ⟨b1, e', hr'⟩ := hr.step_small f ht'.len
    simp only [run] at e
    rw [e'] at e
    simp only [Res.ok_bind] at e
    obtain ⟨⟨rs, b2⟩, e2, e⟩ := Res.bind_eq_ok.mp e
    cases e
    have := abides_tracks (c := c.next op r) hr' ht' (h3 r b1 e') e2
    simpa only [Caller.after] using this

/-- `required` on a table in the data: exact. -/
theorem required_exact {m : Mode} {b : Builder} {a : ABuilder} {obj base slot : Nat} {flds : List Fld} (hr : R b a)
    (ht : TblAt m a.data obj base flds) (hl : a.data.length < 2 ^ 31) (hle : obj ≤ a.data.length)
    (hso : SlotOk slot) :
    (slot ∈ flds.map Fld.slot → b.required m obj slot = .ok ()) ∧
    (slot ∉ flds.map Fld.slot → b.required m obj slot = .panic) := by
  obtain ⟨v, v1, v2, v3⟩ := ht.vtget hl
  have key : b.required m obj slot = (do
      let o ← (v.get m slot).expect
      match o with
      | none => .panic
      | some o => assert (o != 0)) := by
    rw [required_eq hr]
    unfold ABuilder.required
    rw [subU_ok (by omega)]
    simp only [Res.ok_bind]
    rw [v1]; rfl
  constructor
  · intro h
    obtain ⟨f, hf, rfl⟩ := List.mem_map.mp h
    obtain ⟨o, o1, o2⟩ := v2 f hf
    rw [key, o1]
    simp [Res.expect, assert, o2]
  · intro hn
    rw [key]
    rcases v3 slot hso.1 hso.2.1 hn with h1 | h1 <;> rw [h1] <;> rfl

namespace Gen

/-- A bound for the bytes one field takes, padding included. -/
def Kind.room : Kind → Nat
  | .scalar t _ => 2 * t.size
  | .enum t _ _ => 2 * t.size
  | .ref _ | .union _ => 8

/-- A bound for the bytes the fields of a table take. -/
def roomFor : List GField → Nat
  | [] => 0
  | f :: fs => f.kind.room + roomFor fs

/-- The argument is a scalar or enum equal to the field's default, so that it is not stored. -/
def Kind.Elided : (k : Kind) → (req : Bool) → k.Arg req → Prop
  | .scalar _ (some d), _, a => SVal.eqv a d = true
  | .enum _ vals (some d), _, a => (a : Fin vals.length) = d
  | _, _, _ => False

/-- A push of a value into a slot. -/
structure SlotPush (c : Caller) (op : Op) : Prop where
  inBody : op.inBody = true
  slot : ∃ s, op.slot? = some s ∧ SlotOk s
  allows : ∀ (c' : Caller) (t : Nat) (body : List Op), c'.building = .table t body → (∀ o ∈ c.known, o ∈ c'.known) →
    (∀ s, op.slot? = some s → s ∉ body.filterMap Op.slot?) → c'.allows op
  next : ∀ (c' : Caller) (t : Nat) (body : List Op), c'.building = .table t body → c'.next op none =
    { c' with building := .table t (body ++ [op]), known := c'.known }
  grows : ∀ (m : Mode) (a : ABuilder) (r : Option Nat × ABuilder), stepA m a op = .ok r → a.nested = true → a.data.length < 2 ^ 61 →
    (∀ o ∈ c.known, o ≤ a.data.length) → r.1 = none ∧ r.2.data.length < a.data.length + op.need

theorem slotPushAlways {c : Caller} {s : Fin 65536} {p : PTy} {x : PVal p} (hs : SlotOk s) (hk : c.knows x) :
    SlotPush c (.pushSlotAlways s p x) := by
  refine ⟨rfl, ⟨_, rfl, hs⟩, ?_, ?_, ?_⟩
  · intro c' t body hc hkn hn
    refine ⟨hs, ?_, t, body, hc, hn _ rfl⟩
    cases p with
    | sc _ => trivial
    | off => exact hkn _ hk
  · intro c' t body hc
    simp [Caller.next, hc]
  · intro m a r h hn hl hk'
    have hv : ValOk a x := by
      cases p with
      | sc t => trivial
      | off => exact hk' _ hk
    obtain ⟨a', e, hl'⟩ := pushSlotAlways_okA (m := m) (a := a) (x := x) (s := s) hn hl hv
    have es : stepA m a (.pushSlotAlways s p x) = .ok (none, a') := noRetA_ok e
    rw [es] at h
    cases h
    exact ⟨rfl, hl'⟩

theorem slotPush {c : Caller} {s : Fin 65536} {t : STy} {x d : PVal (.sc t)} (hs : SlotOk s) :
    SlotPush c (.pushSlot s (.sc t) x d) := by
  refine ⟨rfl, ⟨_, rfl, hs⟩, ?_, ?_, ?_⟩
  · intro c' t body hc hkn hn
    exact ⟨hs, trivial, t, body, hc, hn _ rfl⟩
  · intro c' t body hc
    simp [Caller.next, hc]
  · intro m a r h hn hl hk'
    obtain ⟨a', e, hl'⟩ := pushSlot_okA (m := m) (a := a) (x := x) (d := d) (s := s) hn hl trivial
    have es : stepA m a (.pushSlot s (.sc t) x d) = .ok (none, a') := noRetA_ok e
    rw [es] at h
    cases h
    exact ⟨rfl, hl'⟩

/-- The bytes the calls need. -/
def needs : List Op → Nat
  | [] => 0
  | op :: ops => op.need + needs ops

theorem needs_append : ∀ (xs ys : List Op), needs (xs ++ ys) = needs xs + needs ys
  | [], ys => by simp [needs]
  | x :: xs, ys => by simp only [List.cons_append, needs, needs_append xs ys]; omega

/-- Pushing slots of a table that was started. -/
theorem tracks_body {m : Mode} {c0 : Caller} : ∀ {ops body : List Op} {b : Builder} {a : ABuilder} {c : Caller} {t : Nat},
    R b a → Tracks m c a → c.building = .table t body → (∀ o ∈ c0.known, o ∈ c.known) →
    (∀ op ∈ ops, SlotPush c0 op) → ((body ++ ops).filterMap Op.slot?).Nodup →
    a.data.length + needs ops ≤ 2 ^ 31 - 2 ^ 17 →
    ∃ rets b' a', run m b ops = .ok (rets, b') ∧ R b' a' ∧
      Tracks m { c with building := .table t (body ++ ops) } a' ∧ a'.data.length ≤ a.data.length + needs ops
  | [], body, b, a, c, t, hr, ht, hc, hk, ho, hn, hl => by
    refine ⟨[], b, a, rfl, hr, ?_, by simp [needs]⟩
    rw [List.append_nil, ← hc]; exact ht
  | op :: ops, body, b, a, c, t, hr, ht, hc, hk, ho, hn, hl => by
    have hop := ho op (by simp)
    obtain ⟨s, hs1, hs2⟩ := hop.slot
    have hlen := ht.len
    simp only [needs] at hl
    have hal := hop.allows c t body hc hk (by
      intro s' hs'
      rw [List.filterMap_append, List.nodup_append] at hn
      intro hm
      exact hn.2.2 _ hm s' (by simp [hs']) rfl)
    obtain ⟨r, a', f, ht'⟩ := ht.step hal (by omega) (by rintro t' rfl; simp [Op.slot?] at hs1)
    obtain ⟨hr0, hgr⟩ := hop.grows m a _ f (by rw [ht.nested, hc]) (by omega) (fun o h => (ht.known o (hk o h)).1)
    simp only at hr0 hgr
    subst hr0
    rw [hop.next c t body hc] at ht'
    obtain ⟨b1, e', hr'⟩ := hr.step_small f ht'.len
    obtain ⟨rets, b2, a2, e2, hr2, ht2, hl2⟩ := tracks_body (ops := ops) (body := body ++ [op]) (c0 := c0) hr' ht' rfl hk
      (fun op' h => ho op' (by simp [h])) (by simpa using hn) (by omega)
    refine ⟨none :: rets, b2, a2, ?_, hr2, ?_, by simp only [needs]; omega⟩
    · simp only [run]; rw [e']; simp only [Res.ok_bind]; rw [e2]; rfl
    · simpa using ht2

theorem fieldOps_push (s : Fin 65536) (c : Caller) (hs : SlotOk s) (k : Kind) (req : Bool) (a : k.Arg req)
    (hk : ∀ o, k.offset? req a = some o → o.val ∈ c.known) :
    (∀ op ∈ fieldOps s k req a, SlotPush c op) ∧ needs (fieldOps s k req a) ≤ k.room := by
  revert hk
  revert a req k
  refine field_cases ?_ ?_ ?_ ?_ ?_ ?_ ?_ ?_ ?_ ?_
  case refine_7 => intros; exact ⟨nofun, Nat.zero_le _⟩
  case refine_10 => intros; exact ⟨nofun, Nat.zero_le _⟩
  case refine_1 =>
    intro t req a hk
    refine ⟨?_, Nat.le_refl _⟩
    intro op hop; simp only [fieldOps, List.mem_singleton] at hop; subst hop
    exact slotPushAlways hs trivial
  case refine_2 =>
    intro t d req a hk
    refine ⟨?_, Nat.le_refl _⟩
    intro op hop; simp only [fieldOps, List.mem_singleton] at hop; subst hop
    exact slotPush hs
  case refine_3 =>
    intro t vals req a hk
    refine ⟨?_, Nat.le_refl _⟩
    intro op hop; simp only [fieldOps, List.mem_singleton] at hop; subst hop
    exact slotPushAlways hs trivial
  case refine_4 =>
    intro t vals d req a hk
    refine ⟨?_, Nat.le_refl _⟩
    intro op hop; simp only [fieldOps, List.mem_singleton] at hop; subst hop
    exact slotPush hs
  all_goals
    intro f a hk
    refine ⟨?_, Nat.le_refl _⟩
    intro op hop; simp only [fieldOps, List.mem_singleton] at hop; subst hop
    exact slotPushAlways hs (hk a rfl)

theorem bodyOps_push (c : Caller) : ∀ (fs : List GField) (args : Args fs), (∀ f ∈ fs, SlotOk f.slot.val) →
    (∀ (i : Fin fs.length) o, (fs.get i).kind.offset? (fs.get i).required (args.get fs i) = some o → o.val ∈ c.known) →
    (∀ op ∈ bodyOps fs args, SlotPush c op) ∧ needs (bodyOps fs args) ≤ roomFor fs
  | [], _, _, _ => ⟨nofun, Nat.le_refl _⟩
  | f :: fs, (a, as), hs, hk => by
    obtain ⟨h1, h2⟩ := fieldOps_push f.slot c (hs f (by simp)) f.kind f.required a (fun o h => hk ⟨0, by simp⟩ o h)
    obtain ⟨h3, h4⟩ := bodyOps_push c fs as (fun g hg => hs g (by simp [hg]))
      (fun i o h => hk ⟨i.val + 1, by simp⟩ o h)
    refine ⟨?_, ?_⟩
    · intro op hop
      rcases List.mem_append.mp hop with hop | hop
      · exact h1 op hop
      · exact h3 op hop
    · simp only [bodyOps, needs_append, roomFor]; omega

theorem fieldOps_slot? (s : Fin 65536) (k : Kind) (req : Bool) (a : k.Arg req) :
    ((fieldOps s k req a).filterMap Op.slot?).Sublist [s.val] := by
  unfold fieldOps
  split <;> simp [Op.slot?]

theorem bodyOps_slot? : ∀ (fs : List GField) (args : Args fs),
    ((bodyOps fs args).filterMap Op.slot?).Sublist (fs.map (·.slot.val))
  | [], _ => by simp [bodyOps]
  | f :: fs, (a, as) => by
    simp only [bodyOps, List.filterMap_append, List.map_cons]
    exact (fieldOps_slot? f.slot f.kind f.required a).append (bodyOps_slot? fs as)

theorem ite_none_iff {α : Type} {p : Prop} [Decidable p] {x : α} : (if p then none else some x) = none ↔ p := by
  split <;> simp [*]

theorem elided_iff (s : Fin 65536) (k : Kind) (hk : k.Ok) (a : k.Arg true) :
    storedFld s k true a = none ↔ k.Elided true a := by
  have key : ∀ (k : Kind) (req : Bool) (a : k.Arg req), req = true → k.Ok →
      (storedFld s k req a = none ↔ k.Elided req a) := by
    refine field_cases ?_ ?_ ?_ ?_ ?_ ?_ ?_ ?_ ?_ ?_
    case refine_2 =>
      intro t d req a _ _
      exact ite_none_iff
    case refine_4 =>
      intro t vals d req a _ hk
      have : PVal.eqv (p := .sc t) (vals.get a) (vals.get d) = true ↔ a = d := by
        constructor
        · intro h
          have := eqv_int hk.2 h
          exact Fin.ext ((List.getElem_inj (i := a.val) (j := d.val) (h₀ := a.isLt) (h₁ := d.isLt) hk.1.1).mp this)
        · rintro rfl
          show SVal.eqv _ _ = true
          obtain ⟨h1, h2⟩ := hk.2
          cases t <;> simp_all [SVal.eqv]
      exact ite_none_iff.trans this
    all_goals intros; simp_all [storedFld, Kind.Elided]
  exact key k true a rfl hk

theorem checkRequired_exact {m : Mode} {b : Builder} {o : Nat} : ∀ {gs : List GField},
    (∀ g ∈ gs, g.required = true → b.required m o g.slot = .ok () ∨ b.required m o g.slot = .panic) →
    ((∀ g ∈ gs, g.required = true → b.required m o g.slot = .ok ()) → checkRequired m b o gs = .ok ()) ∧
    ((∃ g ∈ gs, g.required = true ∧ b.required m o g.slot = .panic) → checkRequired m b o gs = .panic)
  | [], _ => ⟨fun _ => rfl, by simp⟩
  | g :: gs, h => by
    have ih := checkRequired_exact (m := m) (b := b) (o := o) (gs := gs) (fun g hg => h g (by simp [hg]))
    constructor
    · intro h1
      have i := ih.1 (fun g hg => h1 g (by simp [hg]))
      unfold checkRequired
      split
      · rename_i hq
        rw [h1 g (by simp) hq]; exact i
      · exact i
    · rintro ⟨g', hg', h1, h2⟩
      unfold checkRequired
      split
      · rename_i hq
        rcases h g (by simp) hq with hh | hh
        · rw [hh]
          rcases List.mem_cons.mp hg' with rfl | hg'
          · rw [h2] at hh; cases hh
          · exact ih.2 ⟨g', hg', h1, h2⟩
        · rw [hh]; rfl
      · rename_i hq
        rcases List.mem_cons.mp hg' with rfl | hg'
        · exact absurd h1 hq
        · exact ih.2 ⟨g', hg', h1, h2⟩

/-- `create` called in place: it panics if a required scalar or enum is given its default, and completes otherwise.
Afterwards the caller knows the table. -/
theorem create_exact {gm m : Mode} {t : Ir.Table} {gs : List GField} (hc : compileTable gm t = some gs)
    (hn : t.fields.length ≤ 32765) {b : Builder} {a : ABuilder} {c : Caller} (hr : R b a) (ht : Tracks m c a)
    (hb : c.building = .nothing) (args : Args gs)
    (hk : ∀ (i : Fin gs.length) o, (gs.get i).kind.offset? (gs.get i).required (args.get gs i) = some o → o.val ∈ c.known)
    (hroom : b.usedSpace + roomFor gs + 65544 ≤ 2 ^ 31 - 2 ^ 17) (hfit : roomFor gs + 7 < 65536) :
    ((∃ i : Fin gs.length, (gs.get i).required = true ∧ (gs.get i).kind.Elided (gs.get i).required (args.get gs i)) →
      create m b gs args = .panic) ∧
    ((¬ ∃ i : Fin gs.length, (gs.get i).required = true ∧ (gs.get i).kind.Elided (gs.get i).required (args.get gs i)) →
      ∃ o b' a', create m b gs args = .ok (o, b') ∧ R b' a' ∧ Tracks m { c with known := o :: c.known } a' ∧
        a'.data.length ≤ a.data.length + roomFor gs + 2 * gs.length + 16 ∧ o - b.usedSpace < 65536) := by
  have hg := compile_good (compileTable_fields hc) hn
  have hkinds := compile_kinds (compileTable_fields hc)
  rw [hr.used] at hroom
  have hlen := ht.len
  -- start_table
  obtain ⟨r, a1, f1, t1⟩ := ht.step (op := .startTable) hb (by simp [Op.need]; omega) nofun
  obtain ⟨b1, e1, r1⟩ := hr.step_small f1 t1.len
  obtain ⟨st, rfl, e1'⟩ := withRet_ok.mp (show withRet (b.startTable m) = _ from e1)
  have hst := startTable_lt e1'
  have ha1 : a1.data = a.data ∧ st = a.data.length := by
    have := withRetA_some (show withRetA (a.startTable m) = _ from f1)
    obtain ⟨q1, q2⟩ := startTable_spec this
    refine ⟨by rw [q2], ?_⟩
    rw [q1]; exact Nat.mod_eq_of_lt (by omega)
  -- the fields
  obtain ⟨p1, p2⟩ := bodyOps_push c gs args hg.2 hk
  obtain ⟨rets, b2, a2, e2, r2, t2, l2⟩ := tracks_body (c0 := c) (ops := bodyOps gs args) (body := []) r1 t1 rfl
    (fun o h => h) p1 (by
      rw [List.nil_append]
      exact (bodyOps_slot? gs args).nodup hg.1) (by rw [ha1.1]; omega)
  rw [ha1.1] at l2
  -- end_table
  obtain ⟨r, a3, f3, t3⟩ := t2.step (op := .endTable ⟨st, hst⟩) ⟨_, rfl⟩ (by simp only [Op.need]; omega)
    (by rintro t' ⟨⟩; simp only; omega)
  obtain ⟨b3, e3, r3⟩ := r2.step_small f3 t3.len
  obtain ⟨o, rfl, e3'⟩ := withRet_ok.mp (show withRet (b2.endTable m st) = _ from e3)
  simp only [List.nil_append, Caller.next, Option.toList_some, List.map_cons, List.map_nil, List.cons_append] at t3
  have hl3 := t3.len
  -- how much was written
  have hgrow : a3.data.length ≤ a.data.length + roomFor gs + 2 * gs.length + 16 ∧ o - b.usedSpace < 65536 := by
    have hp := t2.pending
    simp only [List.nil_append] at hp
    obtain ⟨z0, z1, zr, z2, _, z3, z4, z5, z6, _⟩ := hp
    have hl2 := t2.len
    obtain ⟨locs, q1, q2, _⟩ := body_spec z4 z5 (by omega)
    have hz : z1.fieldLocs = [] := by rw [(startTable_spec z3).2]; exact z2
    rw [hz, List.nil_append] at q1
    have hids : ∀ l ∈ a2.fieldLocs, l.id < 4 + 2 * gs.length ∧ SlotOk l.id := by
      intro l hl
      rw [q1] at hl
      obtain ⟨i, hi, rfl⟩ := List.getElem_of_mem hl
      have hg := List.forall₂_iff_get.mp q2
      have hi' : i < ((bodyOps gs args).filterMap Op.stored).length := by rw [hg.1]; exact hi
      have h1 := (hg.2 i hi' hi).1
      have hm := List.get_mem ((bodyOps gs args).filterMap Op.stored) ⟨i, hi'⟩
      have h2 := (bodyOps_slot? gs args).subset ((stored_sublist _).subset (List.mem_map_of_mem (f := Fld.slot) hm))
      obtain ⟨g, hg1, hg2⟩ := List.mem_map.mp h2
      obtain ⟨j, hj, rfl⟩ := List.getElem_of_mem hg1
      have h3 := compileFields_slot (compileTable_fields hc) (by omega) j hj
      simp only [List.get_eq_getElem] at h1 hg2
      have h4 := hg.1
      refine ⟨by rw [h1, ← hg2, h3]; omega, ?_⟩
      rw [h1]; exact z6 _ (List.getElem_mem _)
    have f3' := withRetA_some (show withRetA (a2.endTable m st) = _ from f3)
    unfold ABuilder.endTable at f3'
    obtain ⟨_, _, f3'⟩ := Res.bind_eq_ok.mp f3'
    obtain ⟨⟨o', a4⟩, f4, f3'⟩ := Res.bind_eq_ok.mp f3'
    cases f3'
    simp only at hl3
    obtain ⟨vt, u, post, k1, k2, k3, _, _, _, _, k4⟩ := writeVTable_spec f4 (by omega)
    obtain ⟨_, k5, _⟩ := vtableBytes_fmt k3 (fun l hl => (hids l hl).2)
    have k6 : vt.length ≤ 4 + 2 * gs.length := by
      rw [k5]
      rcases vtableByteLen_mem a2.fieldLocs with ⟨_, h⟩ | ⟨l, hl, h⟩
      · omega
      · have := hids l hl
        have h6 := this.2.1
        omega
    have k7 := padding_lt (n := a2.data.length + 4) (by omega) pow2_4
    have k8 : post.length = paddingBytes (a2.data.length + 4) 4 + a2.data.length := by rw [k1]; simp
    rw [hr.used]
    refine ⟨?_, by omega⟩
    rcases k4 with ⟨_, _, k4, _⟩ | ⟨_, _, k4, _⟩ <;> simp only [k4, List.length_append, leBytes_length] <;> omega
  obtain ⟨base, flds, ht1, ht2⟩ := t3.tables o _ (List.mem_cons_self)
  have ho := t3.known o (List.mem_cons_self)
  have hreq : ∀ i : Fin gs.length,
      ((gs.get i).required = true → ¬ (gs.get i).kind.Elided (gs.get i).required (args.get gs i) →
        b3.required m o (gs.get i).slot = .ok ()) ∧
      ((gs.get i).required = true → (gs.get i).kind.Elided (gs.get i).required (args.get gs i) →
        b3.required m o (gs.get i).slot = .panic) := by
    intro i
    obtain ⟨q1, q2⟩ := required_exact (m := m) (slot := (gs.get i).slot.val) r3 ht1 (by omega) ho.1
      (hg.2 _ (List.get_mem _ _))
    rw [ht2] at q1 q2
    have el : (gs.get i).required = true → (storedFld (gs.get i).slot (gs.get i).kind (gs.get i).required (args.get gs i) = none ↔
        (gs.get i).kind.Elided (gs.get i).required (args.get gs i)) := by
      have key : ∀ (req : Bool) (x : (gs.get i).kind.Arg req), req = true →
          (storedFld (gs.get i).slot (gs.get i).kind req x = none ↔ (gs.get i).kind.Elided req x) := by
        rintro _ x rfl
        exact elided_iff _ _ (hkinds _ (List.get_mem _ _)) x
      exact key _ _
    constructor
    · intro hq hne
      apply q1
      cases hsf : storedFld (gs.get i).slot (gs.get i).kind (gs.get i).required (args.get gs i) with
      | none => exact absurd ((el hq).mp hsf) hne
      | some x =>
        have := stored_mem gs args i x hsf
        rw [← storedFld_slot hsf]
        exact List.mem_map_of_mem this
    · intro hq hel
      apply q2
      intro hm
      obtain ⟨x, hx, hx'⟩ := List.mem_map.mp hm
      exact not_stored hg args i ((el hq).mpr hel) x hx hx'
  have hce : create m b gs args = (do checkRequired m b3 o gs; return (o, b3)) := by
    unfold create
    rw [e1']
    simp only [Res.ok_bind]
    rw [addFields_run.mpr ⟨_, e2⟩]
    simp only [Res.ok_bind]
    rw [e3']
    rfl
  obtain ⟨c1, c2⟩ := checkRequired_exact (m := m) (b := b3) (o := o) (gs := gs) (by
    intro g hg' hq
    obtain ⟨i, rfl⟩ := List.get_of_mem hg'
    by_cases he : (gs.get i).kind.Elided (gs.get i).required (args.get gs i)
    · exact Or.inr ((hreq i).2 hq he)
    · exact Or.inl ((hreq i).1 hq he))
  constructor
  · rintro ⟨i, h1, h2⟩
    rw [hce, c2 ⟨_, List.get_mem _ i, h1, (hreq i).2 h1 h2⟩]; rfl
  · intro hne
    refine ⟨o, b3, a3, ?_, r3, ?_, hgrow⟩
    · rw [hce, c1 ?_]; rfl
      intro g hg' hq
      obtain ⟨i, rfl⟩ := List.get_of_mem hg'
      exact (hreq i).1 hq (fun he => hne ⟨i, hq, he⟩)
    · have hp := t3.pending
      refine ⟨t3.len, ?_, t3.finished, t3.known, fun t' s h => t3.tables t' s (List.mem_cons_of_mem _ h), t3.ma, t3.vt, t3.fl, ?_⟩
      · have := t3.nested
        simp only at this
        simp only [hb]; exact this
      · simp only [hb]; exact hp

end Gen
end Butte
