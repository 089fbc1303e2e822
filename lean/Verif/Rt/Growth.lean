import Verif.Rt.RefineVT
/-
How the buffer of the builder grows: lemmas for C93.
-/
namespace Butte

/-- What holds of the result of a computation that ends well. -/
def After {α : Type} (x : Res α) (Q : α → Prop) : Prop := ∀ a, x = .ok a → Q a

namespace After
variable {α β : Type}

theorem bind {x : Res α} {f : α → Res β} {P : α → Prop} {Q : β → Prop} (h : After x P) (hf : ∀ a, P a → After (f a) Q) :
    After (x >>= f) Q := by
  intro c hc
  obtain ⟨a, h1, h2⟩ := Res.bind_eq_ok.mp hc
  exact hf a (h a h1) c h2

theorem skip {x : Res α} {f : α → Res β} {Q : β → Prop} (hf : ∀ a, After (f a) Q) : After (x >>= f) Q :=
  bind (P := fun _ => True) (fun _ _ => trivial) fun a _ => hf a

theorem ok {a : α} {Q : α → Prop} (h : Q a) : After (.ok a) Q := by rintro b ⟨⟩; exact h

theorem pure {a : α} {Q : α → Prop} (h : Q a) : After (Pure.pure a) Q := ok h

theorem panic {Q : α → Prop} : After .panic Q := nofun

theorem err {e} {Q : α → Prop} : After (.err e) Q := nofun

theorem mono {x : Res α} {P Q : α → Prop} (h : After x P) (hQ : ∀ a, P a → Q a) : After x Q := fun a ha => hQ a (h a ha)

end After

/-- From `b` to `b'` the buffer has grown by doubling, if at all, and no further than for the space in use and `k` bytes more. -/
structure Grown (k : Nat) (b b' : Builder) : Prop where
  fit : b'.head ≤ b'.buf.length
  used : b.usedSpace ≤ b'.usedSpace
  doubled : b'.buf.length = b.buf.length ∨ ∃ j, b'.buf.length = 2 ^ j * max 1 b.buf.length
  upper : b'.buf.length ≤ max b.buf.length (2 * (b'.usedSpace + k))
  need : b'.buf.length ≠ b.buf.length → b.buf.length < b'.usedSpace + k

/-- The same, with the pending fields unchanged. -/
def Grows (b b' : Builder) : Prop := Grown 0 b b' ∧ b'.fieldLocs = b.fieldLocs

theorem Grown.refl {k : Nat} {b b' : Builder} (h : b.head ≤ b.buf.length) (h1 : b'.head = b.head)
    (h2 : b'.buf.length = b.buf.length) : Grown k b b' := by
  refine ⟨by omega, by unfold Builder.usedSpace; omega, .inl h2, by omega, fun h => absurd h2 h⟩

theorem Grown.trans {k : Nat} {a b c : Builder} (h : Grown k a b) (g : Grown k b c) : Grown k a c := by
  have := h.used; have := g.used; have := h.upper; have := g.upper
  refine ⟨g.fit, by omega, ?_, by omega, ?_⟩
  · rcases h.doubled with h | ⟨i, h⟩
    · rw [← h]; exact g.doubled
    · rcases g.doubled with g | ⟨j, g⟩
      · exact .inr ⟨i, by rw [g, h]⟩
      · have : 1 ≤ b.buf.length := by
          rw [h]; exact Nat.mul_pos (Nat.two_pow_pos i) (by omega)
        exact .inr ⟨j + i, by rw [g, Nat.max_eq_right this, h, Nat.pow_add, Nat.mul_assoc]⟩
  · intro hne
    by_cases h1 : b.buf.length = a.buf.length
    · have := g.need (by omega); omega
    · have := h.need h1; omega

theorem Grown.mono {k k' : Nat} {a b : Builder} (h : Grown k a b) (hk : k ≤ k') : Grown k' a b :=
  ⟨h.fit, h.used, h.doubled, by have := h.upper; omega, fun hn => by have := h.need hn; omega⟩

theorem Grows.trans {a b c : Builder} (h : Grows a b) (g : Grows b c) : Grows a c := ⟨h.1.trans g.1, g.2.trans h.2⟩

theorem Grows.fit {a b : Builder} (h : Grows a b) : b.head ≤ b.buf.length := h.1.fit

theorem Grows.same {b b' : Builder} (h : b.head ≤ b.buf.length) (h1 : b'.head = b.head) (h2 : b'.buf.length = b.buf.length)
    (h3 : b'.fieldLocs = b.fieldLocs) : Grows b b' := ⟨.refl h h1 h2, h3⟩

namespace Builder

theorem grow_len {m : Mode} {b : Builder} (hb : b.head ≤ b.buf.length) :
    After (b.grow m) fun b' => b'.head ≤ b'.buf.length ∧ b'.usedSpace = b.usedSpace ∧
      b'.buf.length = max 1 (b.buf.length * 2) ∧ b'.fieldLocs = b.fieldLocs := by
  unfold grow
  dsimp only
  split
  · exact .panic
  · split
    · exact .panic
    · split
      · refine .ok ⟨?_, ?_, ?_, rfl⟩ <;> simp only [usedSpace, List.length_append, List.length_replicate] <;> omega
      · split
        · exact .panic
        · next h1 h2 =>
          simp only [List.length_take, List.length_drop, List.length_append, List.length_replicate] at h2
          refine .ok ⟨?_, ?_, ?_, rfl⟩ <;>
            simp only [List.length_take, List.length_append, List.length_replicate, usedSpace] <;> omega

theorem growLoop_len {m : Mode} (b : Builder) (want : Nat) (hb : b.head ≤ b.buf.length) :
    After (b.growLoop m want) fun b' => b'.head ≤ b'.buf.length ∧ b'.usedSpace = b.usedSpace ∧ want ≤ b'.head ∧
      b'.fieldLocs = b.fieldLocs ∧
      (b'.buf.length = b.buf.length ∨ (∃ j, b'.buf.length = 2 ^ j * max 1 b.buf.length) ∧ b.buf.length < b.usedSpace + want ∧
        b'.buf.length ≤ 2 * (b.usedSpace + want)) := by
  induction b using growLoop.induct m want with
  | case1 b hlt b1 h1 ih =>
    intro b' h
    rw [growLoop, if_pos hlt] at h
    split at h
    · next b2 h2 =>
      rw [h1] at h2; cases h2
      obtain ⟨e1, e2, e3, e4⟩ := grow_len hb b1 h1
      obtain ⟨f1, f2, f3, f4, f5⟩ := ih e1 b' h
      have hu : b.usedSpace + b.head = b.buf.length := by unfold usedSpace; omega
      refine ⟨f1, by omega, f3, f4.trans e4, .inr ?_⟩
      rcases f5 with f5 | ⟨⟨j, f5⟩, f6, f7⟩
      · refine ⟨?_, by omega, by omega⟩
        rcases Nat.eq_zero_or_pos b.buf.length with hz | hz
        · exact ⟨0, by rw [f5, e3, hz]; rfl⟩
        · exact ⟨1, by rw [f5, e3]; omega⟩
      · refine ⟨?_, by omega, by omega⟩
        rcases Nat.eq_zero_or_pos b.buf.length with hz | hz
        · exact ⟨j, by rw [f5, e3, hz]; rfl⟩
        · refine ⟨j + 1, ?_⟩
          rw [f5, e3, Nat.pow_succ, Nat.mul_assoc]
          congr 1; omega
    · cases h
    · cases h
  | case2 b hlt e h1 => intro b' h; rw [growLoop, if_pos hlt] at h; split at h <;> simp_all
  | case3 b hlt h1 => intro b' h; rw [growLoop, if_pos hlt] at h; split at h <;> simp_all
  | case4 b hlt =>
    intro b' h
    rw [growLoop, if_neg hlt] at h
    cases h
    exact ⟨hb, rfl, by omega, rfl, .inl rfl⟩

theorem makeSpace_len {m : Mode} {b : Builder} {want : Nat} (hb : b.head ≤ b.buf.length) :
    After (b.makeSpace m want) fun b' => Grows b b' ∧ b'.usedSpace = b.usedSpace + want := by
  have hu : b.usedSpace + b.head = b.buf.length := by unfold usedSpace; omega
  have h1 : After (b.ensureCapacity m want) fun b' => b'.head ≤ b'.buf.length ∧ b'.usedSpace = b.usedSpace ∧ want ≤ b'.head ∧
      b'.fieldLocs = b.fieldLocs ∧
      (b'.buf.length = b.buf.length ∨ (∃ j, b'.buf.length = 2 ^ j * max 1 b.buf.length) ∧ b.buf.length < b.usedSpace + want ∧
        b'.buf.length ≤ 2 * (b.usedSpace + want)) := by
    unfold ensureCapacity
    split
    · next h => exact .ok ⟨hb, rfl, h, rfl, .inl rfl⟩
    · exact .skip fun _ => growLoop_len b want hb
  refine .bind h1 ?_
  rintro b1 ⟨e1, e2, e3, e4, e5⟩
  intro b' h
  obtain ⟨x, hx, h⟩ := Res.bind_eq_ok.mp h
  have hx' : x = b1.head - want := by
    rw [subU_ok e3] at hx
    cases hx; rfl
  cases h
  subst hx'
  have hu1 : b1.usedSpace + b1.head = b1.buf.length := by unfold usedSpace; omega
  have hn : ({ b1 with head := b1.head - want } : Builder).usedSpace = b.usedSpace + want := by
    show b1.buf.length - (b1.head - want) = _; omega
  refine ⟨⟨⟨by show b1.head - want ≤ b1.buf.length; omega, by omega, ?_, ?_, ?_⟩, e4⟩, hn⟩
  · rcases e5 with e5 | e5
    · exact .inl e5
    · exact .inr e5.1
  · rw [hn]; show b1.buf.length ≤ _
    rcases e5 with e5 | ⟨-, -, e5⟩ <;> omega
  · rw [hn]; show b1.buf.length ≠ _ → _
    rcases e5 with e5 | ⟨-, e5, -⟩ <;> omega

theorem makeSpace_grows {m : Mode} {b : Builder} {want : Nat} (hb : b.head ≤ b.buf.length) :
    After (b.makeSpace m want) (Grows b) := (makeSpace_len hb).mono fun _ h => h.1

theorem align_grows {m : Mode} {b : Builder} {len al : Nat} (hb : b.head ≤ b.buf.length) :
    After (b.align m len al) (Grows b) :=
  .skip fun _ => (makeSpace_grows (b := { b with minAlign := max b.minAlign al }) hb).mono fun _ h =>
    (Grows.same (b' := { b with minAlign := max b.minAlign al }) hb rfl rfl rfl).trans h

theorem pushBytesUnprefixed_grows {m : Mode} {b : Builder} {x : Bytes} (hb : b.head ≤ b.buf.length) :
    After (b.pushBytesUnprefixed m x) (Grows b) := by
  refine .bind (makeSpace_grows hb) fun b1 h1 => ?_
  split
  · next h => exact .ok (h1.trans (.same h1.fit rfl (splice_length _ _ _ h) rfl))
  · exact .panic

theorem push_grows {m : Mode} {b : Builder} {p : PTy} {x : PVal p} (hb : b.head ≤ b.buf.length) :
    After (b.push m x) fun r => Grows b r.2 := by
  refine .bind (align_grows hb) fun b1 h1 => .bind (makeSpace_grows h1.fit) fun b2 h2 => ?_
  split
  · next h =>
    intro r hr
    obtain ⟨bs, hbs, hr⟩ := Res.bind_eq_ok.mp hr
    cases hr
    have := PVal.pushBytes_length hbs
    have := h2.fit
    exact (h1.trans h2).trans (.same h2.fit rfl (splice_length _ _ _ (by omega)) rfl)
  · exact .panic

theorem push_grows' {m : Mode} {b b' : Builder} {p : PTy} {x : PVal p} {o : Nat} (hb : b.head ≤ b.buf.length)
    (h : b.push m x = .ok (o, b')) : Grows b b' := push_grows hb _ h

theorem patchVTable_grows {m : Mode} {b : Builder} {vt obj : Nat} :
    After (b.patchVTable m vt obj) fun r => r.2.head = b.head ∧ r.2.buf.length = b.buf.length ∧ r.2.fieldLocs = [] := by
  refine .skip fun n => .skip fun saw => .skip fun _ => .skip fun d => ?_
  split
  · next h => exact .ok ⟨rfl, splice_length _ _ _ (by simpa using h), rfl⟩
  · exact .panic

theorem writeVTable_grown {m : Mode} {b : Builder} {tail : Nat} (hb : b.head ≤ b.buf.length) :
    After (b.writeVTable m tail) fun r => Grown (vtableByteLen b.fieldLocs) b r.2 ∧ r.2.fieldLocs = [] := by
  refine .skip fun _ => .bind (push_grows hb) ?_
  rintro ⟨obj, b1⟩ h1
  refine .bind (makeSpace_len h1.fit) ?_
  rintro b2 ⟨h2, hu⟩
  dsimp only at hu h1 h2 ⊢
  rw [h1.2] at hu ⊢
  generalize vtableByteLen b.fieldLocs = n at hu
  have hf := h2.fit
  refine .skip fun objSize => .skip fun _ => ?_
  intro r hr
  obtain ⟨sl, e1, hr⟩ := Res.bind_eq_ok.mp hr
  obtain ⟨sl2, e2, hr⟩ := Res.bind_eq_ok.mp hr
  obtain ⟨sl3, e3, hr⟩ := Res.bind_eq_ok.mp hr
  obtain ⟨sl4, e4, hr⟩ := Res.bind_eq_ok.mp hr
  obtain ⟨dup, e5, hr⟩ := Res.bind_eq_ok.mp hr
  have hlen : sl4.length = n ∧ b2.head + n ≤ b2.buf.length := by
    rw [writeFields_length e4, writeObjectInlineSize_length e3, writeVTableByteLength_length e2]
    unfold sliceIdx sliceGet at e1
    split at e1
    · next h => cases e1; simp; omega
    · cases e1
  have hs : (splice b2.buf b2.head sl4).length = b2.buf.length := splice_length _ _ _ (by omega)
  have h12 := h1.trans h2
  have hu12 : b.usedSpace ≤ b1.usedSpace := h1.1.used
  have hd := h12.1.doubled; have hup := h12.1.upper; have hne := h12.1.need
  have hu2 : b2.usedSpace + b2.head = b2.buf.length := by unfold usedSpace; omega
  cases dup with
  | some v =>
    obtain ⟨f1, f2, f3⟩ := patchVTable_grows r hr
    have f2' : r.2.buf.length = b2.buf.length := by
      rw [f2]; show (splice (splice b2.buf b2.head sl4) b2.head (List.replicate n 0)).length = _
      rw [splice_length _ _ _ (by simp; omega)]; omega
    have f1' : r.2.head = b2.head + n := f1
    have hr : r.2.usedSpace = b1.usedSpace := by
      show r.2.buf.length - r.2.head = _; omega
    refine ⟨⟨by omega, by omega, by rw [f2']; exact hd, by omega, by omega⟩, f3⟩
  | none =>
    obtain ⟨f1, f2, f3⟩ := patchVTable_grows r hr
    have f2' : r.2.buf.length = b2.buf.length := f2.trans hs
    have f1' : r.2.head = b2.head := f1
    have hr : r.2.usedSpace = b2.usedSpace := by
      show r.2.buf.length - r.2.head = _; omega
    refine ⟨⟨by omega, by omega, by rw [f2']; exact hd, by omega, by omega⟩, f3⟩

theorem pushAll_grows {m : Mode} {p : PTy} : ∀ {xs : List (PVal p)} {b : Builder}, b.head ≤ b.buf.length →
    After (b.pushAll m xs) (Grows b)
  | [], b, hb => .ok (.same hb rfl rfl rfl)
  | x :: xs, b, hb => by
    refine .bind (push_grows hb) ?_
    rintro ⟨_, b1⟩ h1
    exact (pushAll_grows h1.fit).mono fun _ h => h1.trans h

theorem createVector_grows {m : Mode} {b : Builder} {p : PTy} {xs : List (PVal p)} (hb : b.head ≤ b.buf.length) :
    After (b.createVector m xs) fun r => Grows b r.2 :=
  .skip fun _ => .bind (align_grows hb) fun _ h1 => .bind (pushAll_grows h1.fit) fun _ h2 =>
    (push_grows h2.fit).mono fun _ h => (h1.trans h2).trans h

theorem createByteString_grows {m : Mode} {b : Builder} {bs : Bytes} (hb : b.head ≤ b.buf.length) :
    After (b.createByteString m bs) fun r => Grows b r.2 := by
  refine .skip fun _ => .skip fun _ => .bind (align_grows hb) fun b1 h1 => .bind (push_grows h1.fit) ?_
  rintro ⟨_, b2⟩ h2
  refine .bind (pushBytesUnprefixed_grows h2.fit) fun b3 h3 => .bind (push_grows h3.fit) ?_
  rintro ⟨_, b4⟩ h4
  exact .ok (((h1.trans h2).trans h3).trans h4)

theorem createString_grows {m : Mode} {b : Builder} {s : String} (hb : b.head ≤ b.buf.length) :
    After (b.createString m s) fun r => Grows b r.2 := .skip fun _ => createByteString_grows hb

theorem createVectorDirect_grows {m : Mode} {b : Builder} {t : STy} {xs : List (SVal t)} (hb : b.head ≤ b.buf.length) :
    After (b.createVectorDirect m xs) fun r => Grows b r.2 := by
  refine .skip fun _ => .skip fun _ => .bind (align_grows hb) fun b1 h1 =>
    .bind (pushBytesUnprefixed_grows h1.fit) fun b2 h2 => .bind (push_grows h2.fit) ?_
  rintro ⟨_, b3⟩ h3
  exact .ok ((h1.trans h2).trans h3)

theorem createStrings_grows {m : Mode} : ∀ {xs : List String} {acc : List (PVal .off)} {b : Builder}, b.head ≤ b.buf.length →
    After (b.createStrings m xs acc) fun r => Grows b r.2
  | [], acc, b, hb => .ok (.same hb rfl rfl rfl)
  | s :: xs, acc, b, hb => by
    refine .bind (createString_grows hb) ?_
    rintro ⟨_, b1⟩ h1
    exact (createStrings_grows h1.fit).mono fun _ h => h1.trans h

theorem createVectorOfStrings_grows {m : Mode} {b : Builder} {xs : List String} (hb : b.head ≤ b.buf.length) :
    After (b.createVectorOfStrings m xs) fun r => Grows b r.2 := by
  refine .skip fun _ => .bind (createStrings_grows hb) ?_
  rintro ⟨_, b1⟩ h1
  exact (createVector_grows h1.fit).mono fun _ h => h1.trans h

theorem finishWithOpts_grows {m : Mode} {b : Builder} {root : Nat} {ident : Option Bytes} {sp : Bool}
    (hb : b.head ≤ b.buf.length) : After (b.finishWithOpts m root ident sp) (Grows b) := by
  refine .skip fun _ => .skip fun _ => ?_
  have h0 : Grows b { b with vtables := [] } := .same hb rfl rfl rfl
  refine .bind (align_grows (b := { b with vtables := [] }) hb) fun b1 h1 => ?_
  have h2 : After (pushIdent m b1 ident) (Grows b1) := by
    cases ident with
    | none => exact .ok (.same h1.fit rfl rfl rfl)
    | some i => exact .skip fun _ => pushBytesUnprefixed_grows h1.fit
  refine .bind h2 fun b2 h2 => .bind (push_grows h2.fit) ?_
  rintro ⟨_, b3⟩ h3
  have h4 : After (pushSizePrefix m b3 sp) (Grows b3) := by
    unfold pushSizePrefix
    split
    · refine .bind (push_grows h3.fit) ?_
      rintro ⟨_, b4⟩ h4
      exact .ok h4
    · exact .ok (.same h3.fit rfl rfl rfl)
  exact .bind h4 fun b4 h4 => .ok (((((h0.trans h1).trans h2).trans h3).trans h4).trans (.same h4.fit rfl rfl rfl))

/-- All pending fields are at slots up to `k`. -/
def SlotsUpTo (k : Nat) (b : Builder) : Prop := ∀ f ∈ b.fieldLocs, f.id ≤ k

theorem vtableByteLen_le {k : Nat} (hk : 2 ≤ k) {fls : List FieldLoc} (h : ∀ f ∈ fls, f.id ≤ k) : vtableByteLen fls ≤ k + 2 := by
  unfold vtableByteLen
  cases fls with
  | nil => simp; omega
  | cons f rest =>
    have key : ∀ (l : List FieldLoc) (a : Nat), a ≤ k → (∀ f ∈ l, f.id ≤ k) → l.foldl (fun acc f => max acc f.id) a ≤ k := by
      intro l
      induction l with
      | nil => intro a ha _; exact ha
      | cons x l ih => intro a ha hl; exact ih _ (by have := hl x (by simp); dsimp only; omega) fun f hf => hl f (by simp [hf])
    have := key rest f.id (h f (by simp)) fun f hf => h f (by simp [hf])
    simp only; omega

end Builder

/-- The call does not use a slot beyond `k`. -/
def Op.slotUpTo (k : Nat) : Op → Prop
  | .pushSlot s .. | .pushSlotAlways s .. => s.val ≤ k
  | _ => True

open Builder in
theorem step_grown {m : Mode} {k : Nat} (hk : 2 ≤ k) {b b' : Builder} {op : Op} {r : Option Nat} (hb : b.head ≤ b.buf.length)
    (hs : b.SlotsUpTo k) (ho : op.slotUpTo k) (hr : op.isReset = false) (h : step m b op = .ok (r, b')) :
    Grown (k + 2) b b' ∧ b'.SlotsUpTo k := by
  have wr {x : Res (Nat × Builder)} (hx : After x fun r => Grows b r.2) (h : withRet x = .ok (r, b')) :
      Grown (k + 2) b b' ∧ b'.SlotsUpTo k := by
    obtain ⟨⟨o, b1⟩, h1, h2⟩ := Res.bind_eq_ok.mp h
    cases h2
    obtain ⟨g1, g2⟩ := hx _ h1
    exact ⟨g1.mono (by omega), by unfold SlotsUpTo; rw [g2]; exact hs⟩
  have nr {x : Res Builder} (hx : After x (Grows b)) (h : noRet x = .ok (r, b')) :
      Grown (k + 2) b b' ∧ b'.SlotsUpTo k := by
    obtain ⟨b1, h1, h2⟩ := Res.bind_eq_ok.mp h
    cases h2
    obtain ⟨g1, g2⟩ := hx _ h1
    exact ⟨g1.mono (by omega), by unfold SlotsUpTo; rw [g2]; exact hs⟩
  have sl {s : Fin 65536} {p : PTy} {x : PVal p} {b1 : Builder} (hk : s.val ≤ k) (h : b.pushSlotAlways m s x = .ok b1) :
      Grown (k + 2) b b1 ∧ b1.SlotsUpTo k := by
    obtain ⟨_, -, h⟩ := Res.bind_eq_ok.mp h
    obtain ⟨⟨o, b2⟩, h1, h2⟩ := Res.bind_eq_ok.mp h
    cases h2
    obtain ⟨g1, g2⟩ := push_grows hb _ h1
    refine ⟨(g1.mono (by omega)).trans (.refl g1.fit rfl rfl), ?_⟩
    intro f hf
    rcases List.mem_append.mp hf with hf | hf
    · rw [g2] at hf; exact hs f hf
    · rw [List.mem_singleton.mp hf]; exact hk
  cases op with
  | push p x => exact wr (push_grows hb) h
  | pushSlot s p x d =>
    obtain ⟨b1, h1, h2⟩ := Res.bind_eq_ok.mp h
    cases h2
    obtain ⟨_, -, h1⟩ := Res.bind_eq_ok.mp h1
    split at h1
    · cases h1; exact ⟨.refl hb rfl rfl, hs⟩
    · exact sl ho h1
  | pushSlotAlways s p x =>
    obtain ⟨b1, h1, h2⟩ := Res.bind_eq_ok.mp h
    cases h2
    exact sl ho h1
  | startTable =>
    refine wr ?_ h
    exact .skip fun _ => .ok (.same hb rfl rfl rfl)
  | endTable t =>
    obtain ⟨⟨o, b1⟩, h1, h2⟩ := Res.bind_eq_ok.mp h
    cases h2
    obtain ⟨_, -, h1⟩ := Res.bind_eq_ok.mp h1
    obtain ⟨⟨o', b2⟩, h3, h2⟩ := Res.bind_eq_ok.mp h1
    cases h2
    obtain ⟨g1, g2⟩ := writeVTable_grown hb _ h3
    exact ⟨(g1.mono (vtableByteLen_le hk hs)).trans (.refl g1.fit rfl rfl), nofun⟩
  | startVector p n =>
    refine nr ?_ h
    exact .skip fun _ => .skip fun _ => (align_grows (b := { b with nested := true }) hb).mono fun _ h =>
      (Grows.same (b' := { b with nested := true }) hb rfl rfl rfl).trans h
  | endVector n =>
    refine wr ?_ h
    exact .skip fun _ => (push_grows (b := { b with nested := false }) hb).mono fun _ h =>
      (Grows.same (b' := { b with nested := false }) hb rfl rfl rfl).trans h
  | createString s => exact wr (createString_grows hb) h
  | createByteString bs => exact wr (createByteString_grows hb) h
  | createVectorDirect t xs => exact wr (createVectorDirect_grows hb) h
  | createVector p xs => exact wr (createVector_grows hb) h
  | createVectorOfStrings xs => exact wr (createVectorOfStrings_grows hb) h
  | required t s =>
    obtain ⟨_, -, h2⟩ := Res.bind_eq_ok.mp h
    cases h2
    exact ⟨.refl hb rfl rfl, hs⟩
  | finish root i sp => exact nr (finishWithOpts_grows hb) h
  | reset => cases hr

end Butte
