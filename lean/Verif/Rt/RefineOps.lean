import Verif.Rt.Refine
/-
Operation by operation: simulation of the abstract builder, and growth of the data.
-/
namespace Butte
open ABuilder (Big)

/-! ### Abstract operations only prepend -/

/-- `a'` holds the data of `a` with something prepended. -/
def Ext (a a' : ABuilder) : Prop := ∃ pre, a'.data = pre ++ a.data

theorem Ext.refl (a : ABuilder) : Ext a a := ⟨[], rfl⟩
theorem Ext.trans {a b c : ABuilder} (h1 : Ext a b) (h2 : Ext b c) : Ext a c := by
  obtain ⟨p, hp⟩ := h1; obtain ⟨q, hq⟩ := h2
  exact ⟨q ++ p, by rw [hq, hp, List.append_assoc]⟩
theorem Ext.len {a a' : ABuilder} (h : Ext a a') : a.data.length ≤ a'.data.length := by
  obtain ⟨p, hp⟩ := h; rw [hp]; simp
theorem Ext.of_data {a a' b : ABuilder} (h : Ext a b) (e : a'.data = a.data) : Ext a' b := by
  obtain ⟨p, hp⟩ := h; exact ⟨p, by rw [hp, e]⟩
theorem Ext.big {a a' : ABuilder} (h : Ext a a') (hb : a.Big) : a'.Big := by
  have := h.len; unfold Big at *; omega
theorem Big.of_len {a a' : ABuilder} (hb : a.Big) (h : a.data.length ≤ a'.data.length) : a'.Big := by
  unfold Big at *; omega

theorem ext_prepend (a : ABuilder) (bs : Bytes) : Ext a (a.prepend bs) := ⟨bs, rfl⟩

theorem align_ext {m : Mode} {a a' : ABuilder} {l al : Nat} (h : a.align m l al = .ok a') : Ext a a' := by
  unfold ABuilder.align at h
  obtain ⟨s, _, h⟩ := Res.bind_eq_ok.mp h
  cases h; exact ⟨_, rfl⟩

theorem push_ext {m : Mode} {a : ABuilder} {p : PTy} {x : PVal p} {r : Nat × ABuilder}
    (h : a.push m x = .ok r) : Ext a r.2 := by
  unfold ABuilder.push at h
  obtain ⟨a1, h1, h⟩ := Res.bind_eq_ok.mp h
  obtain ⟨bs, _, h⟩ := Res.bind_eq_ok.mp h
  cases h; exact (align_ext h1).trans (ext_prepend _ _)

theorem pushSlotAlways_ext {m : Mode} {a a' : ABuilder} {s : Nat} {p : PTy} {x : PVal p}
    (h : a.pushSlotAlways m s x = .ok a') : Ext a a' := by
  unfold ABuilder.pushSlotAlways at h
  obtain ⟨_, _, h⟩ := Res.bind_eq_ok.mp h
  obtain ⟨⟨o, a1⟩, h1, h⟩ := Res.bind_eq_ok.mp h
  cases h; exact push_ext h1

theorem pushSlot_ext {m : Mode} {a a' : ABuilder} {s : Nat} {p : PTy} {x d : PVal p}
    (h : a.pushSlot m s x d = .ok a') : Ext a a' := by
  unfold ABuilder.pushSlot at h
  obtain ⟨_, _, h⟩ := Res.bind_eq_ok.mp h
  split at h
  · cases h; exact Ext.refl _
  · exact pushSlotAlways_ext h

theorem startTable_ext {m : Mode} {a : ABuilder} {r : Nat × ABuilder}
    (h : a.startTable m = .ok r) : Ext a r.2 := by
  unfold ABuilder.startTable at h
  obtain ⟨_, _, h⟩ := Res.bind_eq_ok.mp h
  cases h; exact ⟨[], rfl⟩

theorem startVector_ext {m : Mode} {a a' : ABuilder} {p : PTy} {n : Nat}
    (h : a.startVector m p n = .ok a') : Ext a a' := by
  unfold ABuilder.startVector at h
  obtain ⟨_, _, h⟩ := Res.bind_eq_ok.mp h
  obtain ⟨_, _, h⟩ := Res.bind_eq_ok.mp h
  exact align_ext (a := { a with nested := true }) h

theorem endVector_ext {m : Mode} {a : ABuilder} {n : Nat} {r : Nat × ABuilder}
    (h : a.endVector m n = .ok r) : Ext a r.2 := by
  unfold ABuilder.endVector at h
  obtain ⟨_, _, h⟩ := Res.bind_eq_ok.mp h
  exact push_ext (a := { a with nested := false }) h

theorem createByteString_ext {m : Mode} {a : ABuilder} {bs : Bytes} {r : Nat × ABuilder}
    (h : a.createByteString m bs = .ok r) : Ext a r.2 := by
  unfold ABuilder.createByteString at h
  obtain ⟨_, _, h⟩ := Res.bind_eq_ok.mp h
  obtain ⟨_, _, h⟩ := Res.bind_eq_ok.mp h
  obtain ⟨a1, h1, h⟩ := Res.bind_eq_ok.mp h
  obtain ⟨a2, h2, h⟩ := Res.bind_eq_ok.mp h
  exact (((align_ext h1).trans (push_ext h2)).trans (ext_prepend _ _)).trans (push_ext h)

theorem createString_ext {m : Mode} {a : ABuilder} {s : String} {r : Nat × ABuilder}
    (h : a.createString m s = .ok r) : Ext a r.2 := by
  unfold ABuilder.createString at h
  obtain ⟨_, _, h⟩ := Res.bind_eq_ok.mp h
  exact createByteString_ext h

theorem createVectorDirect_ext {m : Mode} {a : ABuilder} {t : STy} {xs : List (SVal t)}
    {r : Nat × ABuilder} (h : a.createVectorDirect m xs = .ok r) : Ext a r.2 := by
  unfold ABuilder.createVectorDirect at h
  obtain ⟨_, _, h⟩ := Res.bind_eq_ok.mp h
  obtain ⟨_, _, h⟩ := Res.bind_eq_ok.mp h
  obtain ⟨a1, h1, h⟩ := Res.bind_eq_ok.mp h
  exact ((align_ext h1).trans (ext_prepend _ _)).trans (push_ext h)

theorem pushAll_ext {m : Mode} {p : PTy} : ∀ {a a' : ABuilder} {xs : List (PVal p)},
    a.pushAll m xs = .ok a' → Ext a a'
  | a, a', [], h => by cases h; exact Ext.refl _
  | a, a', x :: xs, h => by
    unfold ABuilder.pushAll at h
    obtain ⟨a1, h1, h⟩ := Res.bind_eq_ok.mp h
    exact (push_ext h1).trans (pushAll_ext h)

theorem createVector_ext {m : Mode} {a : ABuilder} {p : PTy} {xs : List (PVal p)}
    {r : Nat × ABuilder} (h : a.createVector m xs = .ok r) : Ext a r.2 := by
  unfold ABuilder.createVector at h
  obtain ⟨_, _, h⟩ := Res.bind_eq_ok.mp h
  obtain ⟨a1, h1, h⟩ := Res.bind_eq_ok.mp h
  obtain ⟨a2, h2, h⟩ := Res.bind_eq_ok.mp h
  exact ((align_ext h1).trans (pushAll_ext h2)).trans (push_ext h)

theorem createStrings_ext {m : Mode} : ∀ {a : ABuilder} {xs : List String} {acc : List (PVal .off)}
    {r : List (PVal .off) × ABuilder}, a.createStrings m xs acc = .ok r → Ext a r.2
  | a, [], acc, r, h => by cases h; exact Ext.refl _
  | a, s :: xs, acc, r, h => by
    unfold ABuilder.createStrings at h
    obtain ⟨a1, h1, h⟩ := Res.bind_eq_ok.mp h
    exact (createString_ext h1).trans (createStrings_ext h)

theorem createVectorOfStrings_ext {m : Mode} {a : ABuilder} {xs : List String}
    {r : Nat × ABuilder} (h : a.createVectorOfStrings m xs = .ok r) : Ext a r.2 := by
  unfold ABuilder.createVectorOfStrings at h
  obtain ⟨_, _, h⟩ := Res.bind_eq_ok.mp h
  obtain ⟨a1, h1, h⟩ := Res.bind_eq_ok.mp h
  exact (createStrings_ext h1).trans (createVector_ext h)

theorem pushIdent_ext {m : Mode} {a a' : ABuilder} {i : Option Bytes}
    (h : a.pushIdent m i = .ok a') : Ext a a' := by
  cases i with
  | none => cases h; exact Ext.refl _
  | some i =>
    obtain ⟨_, _, h⟩ := Res.bind_eq_ok.mp h
    cases h; exact ext_prepend _ _

theorem pushSizePrefix_ext {m : Mode} {a a' : ABuilder} {sp : Bool}
    (h : a.pushSizePrefix m sp = .ok a') : Ext a a' := by
  cases sp with
  | false => cases h; exact Ext.refl _
  | true =>
    simp only [ABuilder.pushSizePrefix, if_true] at h
    obtain ⟨⟨o, a5⟩, h5, h⟩ := Res.bind_eq_ok.mp h
    cases h; exact push_ext h5

theorem finishWithOpts_ext {m : Mode} {a a' : ABuilder} {root : Nat} {i : Option Bytes} {sp : Bool}
    (h : a.finishWithOpts m root i sp = .ok a') : Ext a a' := by
  unfold ABuilder.finishWithOpts at h
  obtain ⟨_, _, h⟩ := Res.bind_eq_ok.mp h
  obtain ⟨_, _, h⟩ := Res.bind_eq_ok.mp h
  obtain ⟨a1, h1, h⟩ := Res.bind_eq_ok.mp h
  have e1 : Ext a a1 := (align_ext h1).of_data rfl
  obtain ⟨a2, h2, h⟩ := Res.bind_eq_ok.mp h
  obtain ⟨⟨o, a3⟩, h3, h⟩ := Res.bind_eq_ok.mp h
  obtain ⟨a4, h4, h⟩ := Res.bind_eq_ok.mp h
  cases h
  have e4 : Ext a a4 := ((e1.trans (pushIdent_ext h2)).trans (push_ext h3)).trans (pushSizePrefix_ext h4)
  exact e4

/-! ### Simulation -/

theorem R.withMinAlign {b : Builder} {a : ABuilder} (h : R b a) (n : Nat) :
    R { b with minAlign := max b.minAlign n } { a with minAlign := max a.minAlign n } :=
  ⟨h.buf, h.len, h.fieldLocs, h.vtables, h.nested, h.finished, by simp [h.minAlign], h.vtOk, h.flOk⟩

theorem R.withNested {b : Builder} {a : ABuilder} (h : R b a) (n : Bool) :
    R { b with nested := n } { a with nested := n } :=
  ⟨h.buf, h.len, h.fieldLocs, h.vtables, rfl, h.finished, h.minAlign, h.vtOk, h.flOk⟩

theorem R.withFinished {b : Builder} {a : ABuilder} (h : R b a) (n : Bool) :
    R { b with finished := n } { a with finished := n } :=
  ⟨h.buf, h.len, h.fieldLocs, h.vtables, h.nested, rfl, h.minAlign, h.vtOk, h.flOk⟩

theorem R.withNoVTables {b : Builder} {a : ABuilder} (h : R b a) :
    R { b with vtables := [] } { a with vtables := [] } :=
  ⟨h.buf, h.len, h.fieldLocs, rfl, h.nested, h.finished, h.minAlign, by simp, h.flOk⟩

theorem R.withFieldLocs {b : Builder} {a : ABuilder} (h : R b a) (fl : List FieldLoc)
    (hf : ∀ f ∈ fl, f.id < 65536) : R { b with fieldLocs := fl } { a with fieldLocs := fl } :=
  ⟨h.buf, h.len, rfl, h.vtables, h.nested, h.finished, h.minAlign, h.vtOk, hf⟩

theorem align_sim {m : Mode} {b : Builder} {a : ABuilder} (h : R b a) (l al : Nat) :
    Sim0 (b.align m l al) (a.align m l al) := by
  unfold Builder.align ABuilder.align
  simp only
  have h1 := h.withMinAlign al
  rw [h1.used]
  refine Sim.same fun s _ => ?_
  exact makeSpace_sim h1 _

/-- Overwriting fresh zeros at the head. -/
theorem R.write {b : Builder} {a : ABuilder} {n : Nat} (h : R b (a.prepend (List.replicate n 0))) (bs : Bytes)
    (hl : bs.length = n) : R { b with buf := splice b.buf b.head bs } (a.prepend bs) := by
  have hb := h.buf
  simp only [ABuilder.prepend] at hb
  have hs : splice b.buf b.head bs = List.replicate b.head 0 ++ (bs ++ a.data) := by
    conv => lhs; rw [hb]
    exact splice_append' _ _ _ _ _ (by simp) (by simp [hl])
  have hbl : b.buf.length = b.head + (n + a.data.length) := by rw [hb]; simp
  refine ⟨hs, ?_, h.fieldLocs, h.vtables, h.nested, h.finished, h.minAlign, ?_, h.flOk⟩
  · rw [splice_length _ _ _ (by omega)]; exact h.len
  · intro r hr
    have := h.vtOk r hr
    simp only [ABuilder.prepend, List.length_append, List.length_replicate] at *
    omega

theorem pushBytes_sim {m : Mode} {b : Builder} {a : ABuilder} (h : R b a) (bs : Bytes) :
    Sim0 (b.pushBytesUnprefixed m bs) (.ok (a.prepend bs)) := by
  unfold Builder.pushBytesUnprefixed
  rw [show (Res.ok (a.prepend bs)) = (Res.ok (a.prepend (List.replicate bs.length 0)) >>= fun _ =>
    Res.ok (a.prepend bs)) from rfl]
  refine (makeSpace_sim h _).bind ?_ ?_
  · intro b1 c e hs
    cases e
    have hl := hs.bufLen
    simp only [ABuilder.prepend, List.length_append, List.length_replicate] at hl
    rw [if_pos (by omega)]
    exact Sim.pure (hs.write bs rfl)
  · intro c c' e hb e'
    cases e; cases e'
    exact Big.of_len hb (by simp [ABuilder.prepend])

theorem push_sim {m : Mode} {b : Builder} {a : ABuilder} (h : R b a) {p : PTy} (x : PVal p) :
    Sim1 (b.push m x) (a.push m x) := by
  unfold Builder.push ABuilder.push
  refine (align_sim h _ _).bind ?_ ?_
  · intro b1 a1 _ h1
    rw [show (x.pushBytes m a1.data.length >>= fun bs => (do
        let a := a1.prepend bs
        return (a.data.length % 2 ^ 32, a) : Res (Nat × ABuilder))) =
      (Res.ok (a1.prepend (List.replicate p.size 0)) >>= fun _ =>
        x.pushBytes m a1.data.length >>= fun bs => (do
        let a := a1.prepend bs
        return (a.data.length % 2 ^ 32, a) : Res (Nat × ABuilder))) from rfl]
    refine (makeSpace_sim h1 _).bind ?_ ?_
    · intro b2 c e h2
      cases e
      have hl := h2.bufLen
      simp only [ABuilder.prepend, List.length_append, List.length_replicate] at hl
      rw [if_pos (by omega), show b2.buf.length - b2.head - p.size = a1.data.length by omega]
      refine Sim.same fun bs hbs => Sim.pure ?_
      have h3 := h2.write bs (PVal.pushBytes_length hbs)
      refine ⟨?_, h3⟩
      simp only
      rw [h3.used]
    · intro c c' e hb e'
      cases e
      obtain ⟨bs, hbs, e'⟩ := Res.bind_eq_ok.mp e'
      cases e'
      refine Big.of_len hb ?_
      simp [ABuilder.prepend, PVal.pushBytes_length hbs]
  · intro a1 c' _ hb e
    obtain ⟨bs, hbs, e'⟩ := Res.bind_eq_ok.mp e
    cases e'
    exact (ext_prepend _ _).big hb

theorem pushSlotAlways_sim {m : Mode} {b : Builder} {a : ABuilder} (h : R b a) {s : Nat} (hs : s < 65536)
    {p : PTy} (x : PVal p) : Sim0 (b.pushSlotAlways m s x) (a.pushSlotAlways m s x) := by
  unfold Builder.pushSlotAlways ABuilder.pushSlotAlways Builder.assertNested
  rw [h.nested]
  refine Sim.same fun _ _ => (push_sim h x).bind ?_ ?_
  · rintro ⟨o, b1⟩ ⟨o', a1⟩ e ⟨ho, h1⟩
    simp only at ho h1 ⊢
    subst ho
    refine Sim.pure ?_
    unfold Builder.trackField
    rw [h1.fieldLocs]
    refine h1.withFieldLocs _ ?_
    intro f hf
    rcases List.mem_append.mp hf with hf | hf
    · exact h1.flOk f hf
    · simp at hf; subst hf; exact hs
  · intro c c' _ hb e
    cases e; exact hb

theorem pushSlot_sim {m : Mode} {b : Builder} {a : ABuilder} (h : R b a) {s : Nat} (hs : s < 65536)
    {p : PTy} (x d : PVal p) : Sim0 (b.pushSlot m s x d) (a.pushSlot m s x d) := by
  unfold Builder.pushSlot ABuilder.pushSlot Builder.assertNested
  rw [h.nested]
  refine Sim.same fun _ _ => ?_
  split
  · exact Sim.pure h
  · exact pushSlotAlways_sim h hs x

theorem startTable_sim {m : Mode} {b : Builder} {a : ABuilder} (h : R b a) :
    Sim1 (b.startTable m) (a.startTable m) := by
  unfold Builder.startTable ABuilder.startTable Builder.assertNotNested
  rw [h.nested]
  refine Sim.same fun _ _ => Sim.pure ⟨?_, h.withNested true⟩
  simp only
  rw [(h.withNested true).used]

theorem startVector_sim {m : Mode} {b : Builder} {a : ABuilder} (h : R b a) (p : PTy) (n : Nat) :
    Sim0 (b.startVector m p n) (a.startVector m p n) := by
  unfold Builder.startVector ABuilder.startVector Builder.assertNotNested
  rw [h.nested]
  exact Sim.same fun _ _ => Sim.same fun _ _ => align_sim (h.withNested true) _ _

theorem endVector_sim {m : Mode} {b : Builder} {a : ABuilder} (h : R b a) (n : Nat) :
    Sim1 (b.endVector m n) (a.endVector m n) := by
  unfold Builder.endVector ABuilder.endVector Builder.assertNested
  rw [h.nested]
  exact Sim.same fun _ _ => push_sim (h.withNested false) _

/-- After a `push` the returned offset is the used space. -/
theorem push_ret {m : Mode} {a : ABuilder} {p : PTy} {x : PVal p} {r : Nat × ABuilder}
    (h : a.push m x = .ok r) : r.1 = r.2.data.length % 2 ^ 32 := by
  unfold ABuilder.push at h
  obtain ⟨a1, h1, h⟩ := Res.bind_eq_ok.mp h
  obtain ⟨bs, _, h⟩ := Res.bind_eq_ok.mp h
  cases h; rfl

/-- `push` whose result is recomputed from the used space, as in `create_byte_string`. -/
theorem push_sim_used {m : Mode} {b : Builder} {a : ABuilder} (h : R b a) {p : PTy} (x : PVal p) :
    Sim1 (do let (_, b) ← b.push m x; return (b.usedSpace % 2 ^ 32, b)) (a.push m x) := by
  rw [show a.push m x = (a.push m x >>= fun r => Res.ok r) by cases a.push m x <;> rfl]
  refine (push_sim h x).bind ?_ ?_
  · rintro ⟨o, b1⟩ ⟨o', a1⟩ e ⟨ho, h1⟩
    refine Sim.pure ⟨?_, h1⟩
    simp only
    rw [h1.used]; exact (push_ret e).symm
  · intro c c' _ hb e
    cases e; exact hb

theorem createByteString_sim {m : Mode} {b : Builder} {a : ABuilder} (h : R b a) (bs : Bytes) :
    Sim1 (b.createByteString m bs) (a.createByteString m bs) := by
  unfold Builder.createByteString ABuilder.createByteString Builder.assertNotNested
  rw [h.nested]
  refine Sim.same fun _ _ => Sim.same fun n _ => (align_sim h _ _).bind ?_ ?_
  · intro b1 a1 _ h1
    refine (push_sim h1 _).bind ?_ ?_
    · rintro ⟨o, b2⟩ ⟨o', a2⟩ e ⟨ho, h2⟩
      simp only
      rw [show (a2.prepend bs).push m (PVal.sc (u32v bs.length)) = (Res.ok (a2.prepend bs) >>=
        fun a => a.push m (PVal.sc (u32v bs.length))) from rfl]
      refine (pushBytes_sim h2 bs).bind ?_ ?_
      · intro b3 a3 e h3
        exact push_sim_used h3 _
      · intro c c' _ hb e
        exact (push_ext e).big hb
    · intro c c' _ hb e
      exact ((ext_prepend _ _).trans (push_ext e)).big hb
  · intro c c' _ hb e
    obtain ⟨a2, h2, e⟩ := Res.bind_eq_ok.mp e
    exact (((push_ext h2).trans (ext_prepend _ _)).trans (push_ext e)).big hb

theorem createString_sim {m : Mode} {b : Builder} {a : ABuilder} (h : R b a) (s : String) :
    Sim1 (b.createString m s) (a.createString m s) := by
  unfold Builder.createString ABuilder.createString Builder.assertNotNested
  rw [h.nested]
  exact Sim.same fun _ _ => createByteString_sim h _

theorem createVectorDirect_sim {m : Mode} {b : Builder} {a : ABuilder} (h : R b a) {t : STy}
    (xs : List (SVal t)) : Sim1 (b.createVectorDirect m xs) (a.createVectorDirect m xs) := by
  unfold Builder.createVectorDirect ABuilder.createVectorDirect Builder.assertNotNested
  rw [h.nested]
  refine Sim.same fun _ _ => Sim.same fun n _ => (align_sim h _ _).bind ?_ ?_
  · intro b1 a1 _ h1
    generalize (xs.map SVal.bytes).flatten = bs
    rw [show (a1.prepend bs).push m (PVal.sc (u32v xs.length)) = (Res.ok (a1.prepend bs) >>=
        fun a => a.push m (PVal.sc (u32v xs.length))) from rfl]
    refine (pushBytes_sim h1 bs).bind ?_ ?_
    · intro b3 a3 e h3
      exact push_sim_used h3 _
    · intro c c' _ hb e
      exact (push_ext e).big hb
  · intro c c' _ hb e
    exact ((ext_prepend _ _).trans (push_ext e)).big hb

theorem pushAll_sim {m : Mode} {p : PTy} (xs : List (PVal p)) : ∀ {b : Builder} {a : ABuilder}, R b a →
    Sim0 (b.pushAll m xs) (a.pushAll m xs) := by
  induction xs with
  | nil => intro b a h; exact Sim.pure h
  | cons x xs ih =>
    intro b a h
    unfold Builder.pushAll ABuilder.pushAll
    refine (push_sim h x).bind ?_ ?_
    · rintro ⟨o, b1⟩ ⟨o', a1⟩ _ ⟨_, h1⟩
      exact ih h1
    · intro c c' _ hb e
      exact (pushAll_ext e).big hb

theorem createVector_sim {m : Mode} {b : Builder} {a : ABuilder} (h : R b a) {p : PTy}
    (xs : List (PVal p)) : Sim1 (b.createVector m xs) (a.createVector m xs) := by
  unfold Builder.createVector ABuilder.createVector
  refine Sim.same fun _ _ => (align_sim h _ _).bind ?_ ?_
  · intro b1 a1 _ h1
    refine (pushAll_sim _ h1).bind ?_ ?_
    · intro b2 a2 _ h2
      exact push_sim h2 _
    · intro c c' _ hb e
      exact (push_ext e).big hb
  · intro c c' _ hb e
    obtain ⟨a2, h2, e⟩ := Res.bind_eq_ok.mp e
    exact ((pushAll_ext h2).trans (push_ext e)).big hb

theorem createStrings_sim {m : Mode} (xs : List String) : ∀ {b : Builder} {a : ABuilder}
    (acc : List (PVal .off)), R b a → Sim1 (b.createStrings m xs acc) (a.createStrings m xs acc) := by
  induction xs with
  | nil => intro b a acc h; exact Sim.pure ⟨rfl, h⟩
  | cons s xs ih =>
    intro b a acc h
    unfold Builder.createStrings ABuilder.createStrings
    refine (createString_sim h s).bind ?_ ?_
    · rintro ⟨o, b1⟩ ⟨o', a1⟩ _ ⟨ho, h1⟩
      simp only at ho
      subst ho
      exact ih _ h1
    · intro c c' _ hb e
      exact (createStrings_ext e).big hb

theorem createVectorOfStrings_sim {m : Mode} {b : Builder} {a : ABuilder} (h : R b a)
    (xs : List String) : Sim1 (b.createVectorOfStrings m xs) (a.createVectorOfStrings m xs) := by
  unfold Builder.createVectorOfStrings ABuilder.createVectorOfStrings Builder.assertNotNested
  rw [h.nested]
  refine Sim.same fun _ _ => (createStrings_sim _ _ h).bind ?_ ?_
  · rintro ⟨o, b1⟩ ⟨o', a1⟩ _ ⟨ho, h1⟩
    simp only at ho
    subst ho
    exact createVector_sim h1 _
  · intro c c' _ hb e
    exact (createVector_ext e).big hb

theorem pushIdent_sim {m : Mode} {b : Builder} {a : ABuilder} (h : R b a) (i : Option Bytes) :
    Sim0 (b.pushIdent m i) (a.pushIdent m i) := by
  cases i with
  | none => exact Sim.pure h
  | some i => exact Sim.same fun _ _ => pushBytes_sim h i

theorem pushSizePrefix_sim {m : Mode} {b : Builder} {a : ABuilder} (h : R b a) (sp : Bool) :
    Sim0 (b.pushSizePrefix m sp) (a.pushSizePrefix m sp) := by
  unfold Builder.pushSizePrefix ABuilder.pushSizePrefix
  cases sp with
  | false => exact Sim.pure h
  | true =>
    simp only [if_true]
    rw [h.used]
    refine (push_sim h _).bind ?_ ?_
    · rintro ⟨o, b1⟩ ⟨o', a1⟩ _ ⟨ho, h1⟩
      exact Sim.pure h1
    · intro c c' _ hb e
      cases e; exact hb

theorem finishWithOpts_sim {m : Mode} {b : Builder} {a : ABuilder} (h : R b a) (root : Nat)
    (i : Option Bytes) (sp : Bool) :
    Sim0 (b.finishWithOpts m root i sp) (a.finishWithOpts m root i sp) := by
  unfold Builder.finishWithOpts ABuilder.finishWithOpts Builder.assertNotNested Builder.assertNotFinished
  rw [show (debugAssert m !b.finished) = debugAssert m !a.finished by rw [h.finished],
    show (debugAssert m !b.nested) = debugAssert m !a.nested by rw [h.nested]]
  refine Sim.same fun _ _ => Sim.same fun n _ => ?_
  simp only
  generalize ((4 + if sp = true then 4 else 0) + if i.isSome = true then 4 else 0) = ta
  rw [show ABuilder.align m { a with vtables := [] } ta a.minAlign =
    ABuilder.align m { a with vtables := [] } ta b.minAlign by rw [h.minAlign]]
  refine (align_sim h.withNoVTables _ _).bind ?_ ?_
  · intro b1 a1 _ h1
    refine (pushIdent_sim h1 i).bind ?_ ?_
    · intro b2 a2 _ h2
      refine (push_sim h2 _).bind ?_ ?_
      · rintro ⟨o, b3⟩ ⟨o', a3⟩ _ ⟨ho, h3⟩
        simp only
        refine (pushSizePrefix_sim h3 sp).bind ?_ ?_
        · intro b4 a4 _ h4
          exact Sim.pure (h4.withFinished true)
        · intro c c' _ hb e
          cases e; exact hb
      · intro c c' _ hb e
        obtain ⟨a4, h4, e⟩ := Res.bind_eq_ok.mp e
        cases e
        have := (pushSizePrefix_ext h4).big hb
        exact this
    · intro c c' _ hb e
      obtain ⟨⟨o, a3⟩, h3, e⟩ := Res.bind_eq_ok.mp e
      obtain ⟨a4, h4, e⟩ := Res.bind_eq_ok.mp e
      cases e
      have h3 := push_ext h3
      have := (h3.trans (pushSizePrefix_ext h4)).big hb
      exact this
  · intro c c' _ hb e
    obtain ⟨a2, h2, e⟩ := Res.bind_eq_ok.mp e
    obtain ⟨⟨o, a3⟩, h3, e⟩ := Res.bind_eq_ok.mp e
    obtain ⟨a4, h4, e⟩ := Res.bind_eq_ok.mp e
    cases e
    have h3 := push_ext h3
    have := (((pushIdent_ext h2).trans h3).trans (pushSizePrefix_ext h4)).big hb
    exact this

theorem reset_R {b : Builder} {a : ABuilder} (h : R b a) : R b.reset a.reset := by
  have hl := h.bufLen
  refine ⟨?_, ?_, h.fieldLocs, rfl, rfl, rfl, rfl, by simp [ABuilder.reset, ABuilder.init], h.flOk⟩
  · simp only [Builder.reset, ABuilder.reset, ABuilder.init, List.append_nil]
    rw [h.buf, List.take_left' (by simp), List.replicate_append_replicate]
    simp
  · simp only [Builder.reset]
    have := h.len
    simp; omega

end Butte
