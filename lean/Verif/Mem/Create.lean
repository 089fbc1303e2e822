import Verif.Mem.Build
import Verif.Gen.Progress
/-
The accesses of the generated `create`.
-/
namespace Butte.Mem
open Gen

/-- codegen.rs 373-391 (the call in `create`) with 512-560 (the `add_` method): one field. -/
def addField (m : Mode) (b : Builder) (slot : Nat) : (k : Kind) → (req : Bool) → k.Arg req → Tr Builder
  | .scalar t none, _, a => Builder.pushSlotAlways m b slot (p := .sc t) a
  | .scalar t (some d), _, a => Builder.pushSlot m b slot (p := .sc t) a d
  | .enum t vals none, _, a => Builder.pushSlotAlways m b slot (p := .sc t) (vals.get a)
  | .enum t vals (some d), _, a => Builder.pushSlot m b slot (p := .sc t) (vals.get a) (vals.get d)
  | .ref _, true, a | .union _, true, a => Builder.pushSlotAlways m b slot (p := .off) a
  | .ref _, false, some a | .union _, false, some a => Builder.pushSlotAlways m b slot (p := .off) a
  | .ref _, false, none | .union _, false, none => return b

/-- codegen.rs 749: the `add_` calls, in field order. -/
def addFields (m : Mode) : Builder → (fs : List GField) → Args fs → Tr Builder
  | b, [], _ => return b
  | b, f :: fs, (a, as) => do
    let b ← addField m b f.slot f.kind f.required a
    addFields m b fs as

/-- codegen.rs 710-719: `fbb.required(o, VT, name)` for every required field. -/
def checkRequired (m : Mode) (b : Builder) (o : Nat) : List GField → Tr Unit
  | [] => return ()
  | f :: fs =>
    if f.required then do
      Builder.required m b o f.slot
      checkRequired m b o fs
    else checkRequired m b o fs

/-- codegen.rs 744-751 `create`, with 809-821 `new` and `finish` of the table's builder. -/
def create (m : Mode) (b : Builder) (fs : List GField) (args : Args fs) : Tr (Nat × Builder) := do
  let (start, b) ← b.startTable m
  let b ← addFields m b fs args
  let (o, b) ← Builder.endTable m b start
  checkRequired m b o fs
  return (o, b)

theorem addField_res (m : Mode) (b : Builder) (slot : Nat) (k : Kind) (req : Bool) (a : k.Arg req) :
    (addField m b slot k req a).res = Gen.addField m b slot k req a := by
  revert a req k
  refine field_cases ?_ ?_ ?_ ?_ ?_ ?_ ?_ ?_ ?_ ?_
  all_goals intros; first | rfl | exact Builder.pushSlotAlways_res .. | exact Builder.pushSlot_res ..

theorem addFields_res (m : Mode) : ∀ (fs : List GField) (b : Builder) (args : Args fs),
    (addFields m b fs args).res = Gen.addFields m b fs args
  | [], _, _ => rfl
  | f :: fs, b, (a, as) => by
    simp only [addFields, Gen.addFields, bind_res, addField_res, addFields_res m fs]

theorem checkRequired_res (m : Mode) (b : Builder) (o : Nat) : ∀ fs : List GField,
    (checkRequired m b o fs).res = Gen.checkRequired m b o fs
  | [] => rfl
  | f :: fs => by
    unfold checkRequired Gen.checkRequired
    split
    · simp only [bind_res, Builder.required_res, checkRequired_res m b o fs]
    · exact checkRequired_res m b o fs

theorem create_res (m : Mode) (b : Builder) (fs : List GField) (args : Args fs) :
    (create m b fs args).res = Gen.create m b fs args := by
  unfold create Gen.create
  simp only [bind_res, liftM_res, addFields_res, Builder.endTable_res, checkRequired_res, pure_res]
  rfl

variable {H : Prop} {addr : Nat → Nat} {m : Mode}

theorem addField_does {b : Builder} (i : I H b) (ha : H → ∀ n, addr n % 8 = 0) {s : Fin 65536} (hs : H → s.val % 2 = 0)
    (k : Kind) (req : Bool) (a : k.Arg req) : Does (BP H addr) (addField m b s k req a) (I H) := by
  obtain ⟨ab, hr⟩ := i.rep
  have always : ∀ {p : PTy} (x : PVal p), Does (BP H addr) (Builder.pushSlotAlways m b s x) (I H) := fun x =>
    (pushSlotAlways_does i ha hs x).mono fun b' e j => by
      rw [Builder.pushSlotAlways_res] at e
      obtain ⟨a', _, r'⟩ := (pushSlotAlways_sim hr s.isLt x).fwd _ e
      exact j.i ⟨_, r'⟩
  have differs : ∀ {p : PTy} (x d : PVal p), Does (BP H addr) (Builder.pushSlot m b s x d) (I H) := fun x d => by
    unfold Builder.pushSlot
    exact Does.bind (Does.liftM fun _ e => e) fun _ _ _ => Does.ite (fun _ => Does.pure i) fun _ => always x
  revert a req k
  refine field_cases ?_ ?_ ?_ ?_ ?_ ?_ ?_ ?_ ?_ ?_
  all_goals intros; first | exact Does.pure i | exact always _ | exact differs _ _

theorem addFields_does (ha : H → ∀ n, addr n % 8 = 0) : ∀ (fs : List GField) {b : Builder} (args : Args fs), I H b →
    (H → ∀ f ∈ fs, f.slot.val % 2 = 0) → Does (BP H addr) (addFields m b fs args) (I H)
  | [], _, _, i, _ => Does.pure i
  | f :: fs, b, (a, as), i, hs => by
    show Does _ (addField m b f.slot f.kind f.required a >>= fun b => addFields m b fs as) _
    refine Does.bind (addField_does i ha (fun x => hs x f (List.mem_cons_self ..)) _ _ a) fun b1 _ i1 => ?_
    exact addFields_does ha fs as i1 fun x g hg => hs x g (List.mem_cons_of_mem _ hg)

theorem checkRequired_all {b : Builder} {a : ABuilder} {o : Nat} (hr : R b a) (ha : H → ∀ n, addr n % 8 = 0)
    (hg : H → GoodLen b.buf.length) (ht : H → TabPos a.data o) (hl : H → a.data.length < 2 ^ 31) : ∀ fs : List GField,
    (H → ∀ f ∈ fs, f.slot.val % 2 = 0) → All (BP H addr) (checkRequired m b o fs)
  | [], _ => All.pure _
  | f :: fs, hs => by
    have ih := checkRequired_all hr ha hg ht hl fs fun x g hg => hs x g (List.mem_cons_of_mem _ hg)
    unfold checkRequired
    refine All.ite (fun _ => ?_) fun _ => ih
    exact All.bind (required_all hr ha hg ht hl (fun x => hs x f (List.mem_cons_self ..)) f.slot.isLt) fun _ _ => ih

/-- `create`, given where its table will be. -/
theorem create_all {b : Builder} {a : ABuilder} (hr : R b a) (hj : J H b) (ha : H → ∀ n, addr n % 8 = 0) {fs : List GField} (args : Args fs)
    (hs : H → ∀ f ∈ fs, f.slot.val % 2 = 0)
    (hpos : ∀ st b1 b2 o b3, H → b.startTable m = .ok (st, b1) → Gen.addFields m b1 fs args = .ok b2 → b2.endTable m st = .ok (o, b3) →
      TabPos b3.unfinishedData o ∧ b3.usedSpace < 2 ^ 31) :
    All (BP H addr) (create m b fs args) := by
  unfold create
  refine All.bind (All.liftM _) fun ⟨st, b1⟩ e1 => ?_
  have e1 : b.startTable m = .ok (st, b1) := e1
  obtain ⟨⟨st', a1⟩, f1, hst, r1⟩ := (startTable_sim (m := m) hr).fwd _ e1
  have i1 : I H b1 := by
    have e1' := e1
    unfold Butte.Builder.startTable at e1'
    obtain ⟨_, _, e1'⟩ := Res.bind_eq_ok.mp e1'
    cases e1'
    exact ⟨⟨_, r1⟩, hj.good, hj.ids, hj.vts⟩
  have d2 := addFields_does (m := m) ha fs args i1 hs
  refine All.bind d2.1 fun b2 e2 => ?_
  have i2 := d2.2 _ e2
  rw [addFields_res] at e2
  have d3 := endTable_does (m := m) i2 ha st
  refine All.bind d3.1 fun ⟨o, b3⟩ e3 => ?_
  have j3 := d3.2 _ e3
  rw [Builder.endTable_res] at e3
  obtain ⟨a2, r2⟩ := i2.rep
  obtain ⟨⟨o', a3⟩, f3, ho, r3⟩ := (endTable_sim (m := m) r2 st).fwd _ e3
  refine All.bind (checkRequired_all r3 ha j3.good (fun x => ?_) (fun x => ?_) fs hs) fun _ _ => All.pure _
  · have := (hpos st b1 b2 o b3 x e1 e2 e3).1
    unfold Butte.Builder.unfinishedData at this
    rw [r3.data] at this
    exact this
  · have := (hpos st b1 b2 o b3 x e1 e2 e3).2
    rw [r3.used] at this
    exact this

/-- `create` called in place. -/
theorem create_tracks {gm : Mode} {t : Ir.Table} {gs : List GField} (hc : compileTable gm t = some gs)
    (hn : t.fields.length ≤ 32765) {b : Builder} {a : ABuilder} {c : Caller} (hr : R b a) (hj : J H b) (ht : Tracks m c a)
    (ha : H → ∀ n, addr n % 8 = 0) (hb : c.building = .nothing) (args : Args gs)
    (hk : ∀ (i : Fin gs.length) o, (gs.get i).kind.offset? (gs.get i).required (args.get gs i) = some o → o.val ∈ c.known)
    (hroom : b.usedSpace + roomFor gs + 65544 ≤ 2 ^ 31 - 2 ^ 17) (hfit : roomFor gs + 7 < 65536) :
    All (BP H addr) (create m b gs args) := by
  have hg := compile_good (compileTable_fields hc) hn
  refine create_all hr hj ha args (fun _ f hf => (hg.2 f hf).1) ?_
  intro st b1 b2 o b3 _ e1 e2 e3
  rw [hr.used] at hroom
  have hlen := ht.len
  obtain ⟨r, a1, f1, t1⟩ := ht.step (op := .startTable) hb (by simp [Op.need]; omega) nofun
  obtain ⟨b1', e1', r1⟩ := hr.step_small f1 t1.len
  obtain ⟨st', rfl, q1⟩ := withRet_ok.mp (show Butte.withRet (b.startTable m) = _ from e1')
  rw [e1] at q1
  cases q1
  have hst := startTable_lt e1
  have ha1 : a1.data = a.data ∧ st = a.data.length := by
    have := withRetA_some (show withRetA (a.startTable m) = _ from f1)
    obtain ⟨q1, q2⟩ := startTable_spec this
    refine ⟨by rw [q2], ?_⟩
    rw [q1]; exact Nat.mod_eq_of_lt (by omega)
  obtain ⟨p1, p2⟩ := bodyOps_push c gs args hg.2 hk
  obtain ⟨rets, b2', a2, g2, r2, t2, l2⟩ := tracks_body (c0 := c) (ops := bodyOps gs args) (body := []) r1 t1 rfl
    (fun o h => h) p1 (by
      rw [List.nil_append]
      exact (bodyOps_slot? gs args).nodup hg.1) (by rw [ha1.1]; omega)
  rw [ha1.1] at l2
  have : b2' = b2 := by
    have h2 := addFields_run.mpr ⟨rets, g2⟩
    rw [e2] at h2
    cases h2; rfl
  subst this
  obtain ⟨r, a3, f3, t3⟩ := t2.step (op := .endTable ⟨st, hst⟩) ⟨_, rfl⟩ (by simp only [Op.need]; omega)
    (by rintro t' ⟨⟩; simp only; omega)
  obtain ⟨b3', e3', r3⟩ := r2.step_small f3 t3.len
  obtain ⟨o', rfl, q3⟩ := withRet_ok.mp (show Butte.withRet (b2'.endTable m st) = _ from e3')
  rw [e3] at q3
  cases q3
  have hl3 := t3.len
  have := endTable_pos (withRetA_some f3) t2.fl t2.vt (by omega)
  refine ⟨?_, ?_⟩
  · unfold Butte.Builder.unfinishedData
    rw [r3.data]; exact this
  · rw [r3.used]; omega

end Butte.Mem
