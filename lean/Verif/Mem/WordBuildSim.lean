import Verif.Mem.WordBuild
/-
The builder with pointers of `w` bits does what the one with 64 bits does, or panics because the buffer would have to be longer than
a `Vec` can be.
-/
namespace Butte.Word
open Butte.Builder (trackField)

/-- `x`, with pointers of `w` bits, is what `y` is with 64 bits and then `P` holds, or `x` panics where `y` leads to a buffer that is
too long. -/
def Sim {α : Type} (w : Nat) (P : α → Prop) (len : α → Nat) (x y : Res α) : Prop :=
  (x = y ∧ After y P) ∨ (x = .panic ∧ After y fun a => 2 ^ (w - 1) ≤ len a)

namespace Sim
variable {α β : Type} {w : Nat}

theorem same {P : α → Prop} {len : α → Nat} {y : Res α} (h : After y P) : Sim w P len y y := .inl ⟨rfl, h⟩

theorem bind {P : α → Prop} {Q : β → Prop} {la : α → Nat} {lb : β → Nat} {x y : Res α} {f g : α → Res β}
    (h : Sim w P la x y) (hf : ∀ a, P a → Sim w Q lb (f a) (g a)) (hm : ∀ a, After (g a) fun c => la a ≤ lb c) :
    Sim w Q lb (x >>= f) (y >>= g) := by
  rcases h with ⟨rfl, hP⟩ | ⟨rfl, hP⟩
  · cases x with
    | ok a => exact hf a (hP a rfl)
    | err e => exact .inl ⟨rfl, nofun⟩
    | panic => exact .inl ⟨rfl, nofun⟩
  · refine .inr ⟨rfl, ?_⟩
    exact .bind hP fun a ha => (hm a).mono fun c hc => Nat.le_trans ha hc

/-- A first step that is the same in both. -/
theorem skip {Q : β → Prop} {lb : β → Nat} {x : Res α} {f g : α → Res β} (hf : ∀ a, x = .ok a → Sim w Q lb (f a) (g a)) :
    Sim w Q lb (x >>= f) (x >>= g) := by
  cases x with
  | ok a => exact hf a rfl
  | err e => exact .inl ⟨rfl, nofun⟩
  | panic => exact .inl ⟨rfl, nofun⟩

theorem mono {P Q : α → Prop} {len : α → Nat} {x y : Res α} (h : Sim w P len x y) (hQ : ∀ a, P a → Q a) : Sim w Q len x y := by
  rcases h with ⟨rfl, hP⟩ | h
  · exact .inl ⟨rfl, hP.mono hQ⟩
  · exact .inr h

end Sim

/-! ### The length of the buffer never decreases -/

/-- The buffer is not shorter than that of `b`. -/
abbrev Longer (b : Butte.Builder) (b' : Butte.Builder) : Prop := b.buf.length ≤ b'.buf.length

section
open Butte.Builder

theorem grow_longer {m : Mode} {b : Butte.Builder} : After (b.grow m) (Longer b) := by
  unfold Butte.Builder.grow
  dsimp only
  split
  · exact .panic
  · split
    · exact .panic
    · split
      · exact .ok (by simp [Longer])
      · split
        · exact .panic
        · next h => 
          simp only [List.length_take, List.length_drop, List.length_append, List.length_replicate] at h
          refine .ok ?_
          simp only [Longer, List.length_append, List.length_replicate, List.length_take]
          omega

theorem growLoop_longer {m : Mode} (b : Butte.Builder) (want : Nat) : After (b.growLoop m want) (Longer b) := by
  induction b using growLoop.induct m want with
  | case1 b hlt b1 h1 ih =>
    intro b' h
    rw [growLoop, if_pos hlt] at h
    split at h
    · next b2 h2 =>
      rw [h1] at h2; cases h2
      exact Nat.le_trans (grow_longer b1 h1) (ih b' h)
    · cases h
    · cases h
  | case2 b hlt e h1 => intro b' h; rw [growLoop, if_pos hlt] at h; split at h <;> simp_all
  | case3 b hlt h1 => intro b' h; rw [growLoop, if_pos hlt] at h; split at h <;> simp_all
  | case4 b hlt =>
    intro b' h
    rw [growLoop, if_neg hlt] at h
    cases h
    exact Nat.le_refl _

theorem makeSpace_longer {m : Mode} {b : Butte.Builder} {n : Nat} : After (b.makeSpace m n) (Longer b) := by
  refine .bind (P := Longer b) ?_ fun b1 h1 => .skip fun _ => .ok h1
  unfold ensureCapacity
  split
  · exact .ok (Nat.le_refl _)
  · exact .skip fun _ => growLoop_longer b n

theorem align_longer {m : Mode} {b : Butte.Builder} {n a : Nat} : After (b.align m n a) (Longer b) :=
  .skip fun _ => makeSpace_longer (b := { b with minAlign := max b.minAlign a })

theorem pushBytesUnprefixed_longer {m : Mode} {b : Butte.Builder} {x : Bytes} : After (b.pushBytesUnprefixed m x) (Longer b) := by
  refine .bind makeSpace_longer fun b1 h1 => ?_
  split
  · next h => exact .ok (by unfold Longer; rw [splice_length _ _ _ h]; exact h1)
  · exact .panic

theorem pushTail_longer {m : Mode} {b : Butte.Builder} {p : PTy} {x : PVal p} :
    After (if p.size ≤ b.buf.length - b.head then do
      let bs ← x.pushBytes m (b.buf.length - b.head - p.size)
      let b := { b with buf := splice b.buf b.head bs }
      return (b.usedSpace % 2 ^ 32, b)
    else .panic : Res (Nat × Butte.Builder)) fun r => Longer b r.2 := by
  split
  · next h =>
    intro r hr
    obtain ⟨bs, hbs, hr⟩ := Res.bind_eq_ok.mp hr
    cases hr
    have := PVal.pushBytes_length hbs
    have := p.size_pos
    exact Nat.le_of_eq (splice_length _ _ _ (by omega)).symm
  · exact .panic

theorem push_longer {m : Mode} {b : Butte.Builder} {p : PTy} {x : PVal p} : After (b.push m x) fun r => Longer b r.2 := by
  refine .bind align_longer fun b1 h1 => .bind makeSpace_longer fun b2 h2 => ?_
  exact pushTail_longer.mono fun _ h => Nat.le_trans (Nat.le_trans h1 h2) h

theorem pushAll_longer {m : Mode} {p : PTy} : ∀ {xs : List (PVal p)} {b : Butte.Builder}, After (b.pushAll m xs) (Longer b)
  | [], b => .ok (Nat.le_refl _)
  | x :: xs, b => .bind push_longer fun r h => by
    obtain ⟨o, b1⟩ := r
    exact pushAll_longer.mono fun _ h' => Nat.le_trans h h'

theorem createVector_longer {m : Mode} {b : Butte.Builder} {p : PTy} {xs : List (PVal p)} :
    After (b.createVector m xs) fun r => Longer b r.2 :=
  .skip fun _ => .bind align_longer fun _ h1 => .bind pushAll_longer fun _ h2 =>
    push_longer.mono fun _ h => Nat.le_trans (Nat.le_trans h1 h2) h

theorem createByteString_longer {m : Mode} {b : Butte.Builder} {bs : Bytes} :
    After (b.createByteString m bs) fun r => Longer b r.2 := by
  refine .skip fun _ => .skip fun _ => .bind align_longer fun b1 h1 => .bind push_longer ?_
  rintro ⟨_, b2⟩ h2
  refine .bind pushBytesUnprefixed_longer fun b3 h3 => .bind push_longer ?_
  rintro ⟨_, b4⟩ h4
  exact .ok (Nat.le_trans (Nat.le_trans (Nat.le_trans h1 h2) h3) h4)

theorem createString_longer {m : Mode} {b : Butte.Builder} {s : String} :
    After (b.createString m s) fun r => Longer b r.2 := .skip fun _ => createByteString_longer

theorem createStrings_longer {m : Mode} : ∀ {xs : List String} {acc : List (PVal .off)} {b : Butte.Builder},
    After (b.createStrings m xs acc) fun r => Longer b r.2
  | [], _, b => .ok (Nat.le_refl _)
  | s :: xs, acc, b => .bind createString_longer fun r h => by
    obtain ⟨o, b1⟩ := r
    exact createStrings_longer.mono fun _ h' => Nat.le_trans h h'

theorem patchVTable_longer {m : Mode} {b : Butte.Builder} {vt obj : Nat} :
    After (b.patchVTable m vt obj) fun r => Longer b r.2 :=
  patchVTable_grows.mono fun _ h => Nat.le_of_eq h.2.1.symm

end

/-! ### Reading within the builder -/

/-- The pointer widths looked at. -/
structure Width (w : Nat) : Prop where
  lo : 32 ≤ w
  hi : w ≤ 64

theorem Width.two {w : Nat} (h : Width w) : 2 ^ w = 2 * 2 ^ (w - 1) := by
  have := h.lo
  obtain ⟨k, rfl⟩ : ∃ k, w = k + 1 := ⟨w - 1, by omega⟩
  rw [Nat.pow_succ, Nat.mul_comm]; rfl

theorem Width.big {w : Nat} (h : Width w) : 2 ^ 31 ≤ 2 ^ (w - 1) :=
  Nat.pow_le_pow_right (by decide) (by have := h.lo; omega)

theorem Width.small {w : Nat} (h : Width w) : 2 ^ (w - 1) ≤ 2 ^ 63 :=
  Nat.pow_le_pow_right (by decide) (by have := h.hi; omega)

theorem Width.le {w : Nat} (h : Width w) : 2 ^ w ≤ 2 ^ 64 :=
  Nat.pow_le_pow_right (by decide) h.hi

theorem readNatAt_same {w : Nat} (hw : Width w) {m : Mode} {t : STy} {s : Bytes} {loc : Nat} (h : loc + t.size < 2 ^ w) :
    (Word.readNatAt w m t s loc).res = Butte.readNatAt m t s loc := by
  have := hw.le
  unfold Word.readNatAt Word.readScalarAt Word.readScalarAtAs Butte.readNatAt Butte.readScalarAt
  simp only [Mem.bind_res, Mem.liftM_res, Mem.within_res, Mem.readScalarAs_res]
  rw [addW_ok h, addU_ok (by omega)]
  rfl

/-- Past the end of the bytes there is nothing to read, whatever the sum wraps to. -/
theorem readNatAt_far {w : Nat} {m : Mode} {t : STy} {s : Bytes} {loc : Nat} (h : s.length < loc) :
    (Word.readNatAt w m t s loc).res.expect = .panic := by
  unfold Word.readNatAt Word.readScalarAt Word.readScalarAtAs
  simp only [Mem.bind_res, Mem.liftM_res, Mem.within_res, Mem.readScalarAs_res]
  cases addW w m loc t.size with
  | ok e =>
    simp only [Res.ok_bind]
    unfold sliceGet
    rw [if_neg (by omega)]
    rfl
  | err e => rfl
  | panic => rfl

/-! ### The state -/

/-- From `b` to `b'`, a buffer that fits: space may have been used, and the largest alignment grown. -/
structure Moved (w : Nat) (b b' : Butte.Builder) : Prop where
  fit : b'.head ≤ b'.buf.length
  len : b'.buf.length < 2 ^ (w - 1)
  used : b.usedSpace ≤ b'.usedSpace
  vt : b'.vtables = b.vtables
  fl : b'.fieldLocs = b.fieldLocs
  ma : b'.minAlign = b.minAlign ∨ b'.minAlign ∈ [1, 2, 4, 8]

theorem Moved.trans {w : Nat} {a b c : Butte.Builder} (h : Moved w a b) (g : Moved w b c) : Moved w a c :=
  ⟨g.fit, g.len, Nat.le_trans h.used g.used, g.vt.trans h.vt, g.fl.trans h.fl, by
    rcases g.ma with e | e
    · rw [e]; exact h.ma
    · exact .inr e⟩

/-- The buffer fits. -/
structure Fit (w : Nat) (b : Butte.Builder) : Prop where
  fit : b.head ≤ b.buf.length
  len : b.buf.length < 2 ^ (w - 1)

theorem Moved.to {w : Nat} {b b' : Butte.Builder} (h : Moved w b b') : Fit w b' := ⟨h.fit, h.len⟩

theorem Fit.self {w : Nat} {b b' : Butte.Builder} (h : Fit w b) (e1 : b'.head = b.head) (e2 : b'.buf.length = b.buf.length)
    (e3 : b'.vtables = b.vtables) (e4 : b'.fieldLocs = b.fieldLocs)
    (e5 : b'.minAlign = b.minAlign ∨ b'.minAlign ∈ [1, 2, 4, 8]) : Moved w b b' :=
  ⟨by rw [e1, e2]; exact h.fit, by rw [e2]; exact h.len, by unfold Butte.Builder.usedSpace; rw [e1, e2]; exact Nat.le_refl _, e3, e4, e5⟩

section
variable {w : Nat} (hw : Width w) {m : Mode}

theorem growLoop_step (b : Butte.Builder) (n : Nat) : Butte.Builder.growLoop m b n =
    if b.head < n then (b.grow m >>= fun b' => b'.growLoop m n) else .ok b := by
  rw [Butte.Builder.growLoop]
  split
  · split
    · next h => rw [h]; rfl
    · next h => rw [h]; rfl
    · next h => rw [h]; rfl
  · rfl

theorem growLoop_stepW (b : Butte.Builder) (n : Nat) : Builder.growLoop w m b n =
    if b.head < n then (Builder.grow w m b >>= fun b' => Builder.growLoop w m b' n) else .ok b := by
  rw [Builder.growLoop]
  split
  · split
    · next h => rw [h]; rfl
    · next h => rw [h]; rfl
    · next h => rw [h]; rfl
  · rfl

include hw

theorem grow_sim {b : Butte.Builder} (hb : Fit w b) :
    Sim w (fun b' => Moved w b b' ∧ b'.usedSpace = b.usedSpace ∧ b.head < b'.head ∧ b'.minAlign = b.minAlign)
      (fun b' => b'.buf.length) (Builder.grow w m b) (b.grow m) := by
  have h1 := hw.small
  have h0 := hw.big
  have hi : isizeMax = 2 ^ 63 - 1 := rfl
  have hlen : After (b.grow m) fun b' => b'.head ≤ b'.buf.length ∧ b'.usedSpace = b.usedSpace ∧
      b'.buf.length = max 1 (b.buf.length * 2) ∧ b'.fieldLocs = b.fieldLocs := Butte.Builder.grow_len hb.fit
  by_cases h : max 1 (b.buf.length * 2) > 2 ^ (w - 1) - 1
  · refine .inr ⟨?_, hlen.mono fun b' hb' => by have := hb'.2.2.1; show _ ≤ b'.buf.length; omega⟩
    unfold Builder.grow
    dsimp only
    rw [if_pos h]
  · have e : Builder.grow w m b = b.grow m := by
      unfold Builder.grow Butte.Builder.grow
      dsimp only
      rw [if_neg h, if_neg (show ¬ max 1 (b.buf.length * 2) > isizeMax by omega)]
    refine .inl ⟨e, fun b' hb' => ?_⟩
    obtain ⟨f1, f2, f3, f4⟩ := hlen b' hb'
    have f5 := Butte.Builder.grow_head hb'
    have f6 : b'.vtables = b.vtables ∧ b'.minAlign = b.minAlign := by
      unfold Butte.Builder.grow at hb'
      dsimp only at hb'
      repeat' split at hb'
      all_goals cases hb'
      all_goals exact ⟨rfl, rfl⟩
    exact ⟨⟨f1, by rw [f3]; omega, Nat.le_of_eq f2.symm, f6.1, f4, .inl f6.2⟩, f2, f5, f6.2⟩

theorem growLoop_sim {n : Nat} (b : Butte.Builder) (hb : Fit w b) :
    Sim w (fun b' => Moved w b b' ∧ b'.usedSpace = b.usedSpace ∧ n ≤ b'.head ∧ b'.minAlign = b.minAlign)
      (fun b' => b'.buf.length) (Builder.growLoop w m b n) (b.growLoop m n) := by
  rw [growLoop_step, growLoop_stepW]
  split
  · next h =>
    refine .bind (grow_sim hw hb) ?_ (fun a => growLoop_longer a n)
    rintro b1 ⟨h1, h2, h3, h4⟩
    have := growLoop_sim (n := n) b1 h1.to
    exact this.mono fun b' hb' => ⟨h1.trans hb'.1, hb'.2.1.trans h2, hb'.2.2.1, hb'.2.2.2.trans h4⟩
  · next h =>
    exact .same (.ok ⟨hb.self rfl rfl rfl rfl (.inl rfl), rfl, by omega, rfl⟩)
termination_by n - b.head

theorem makeSpace_sim {n : Nat} {b : Butte.Builder} (hb : Fit w b) :
    Sim w (fun b' => Moved w b b' ∧ b'.usedSpace = b.usedSpace + n ∧ b'.minAlign = b.minAlign)
      (fun b' => b'.buf.length) (Builder.makeSpace w m b n) (b.makeSpace m n) := by
  have h1 : Sim w (fun b' => Moved w b b' ∧ b'.usedSpace = b.usedSpace ∧ n ≤ b'.head ∧ b'.minAlign = b.minAlign)
      (fun b' => b'.buf.length) (Builder.ensureCapacity w m b n) (b.ensureCapacity m n) := by
    unfold Builder.ensureCapacity Butte.Builder.ensureCapacity
    split
    · next h => exact .same (.ok ⟨hb.self rfl rfl rfl rfl (.inl rfl), rfl, h, rfl⟩)
    · exact .skip fun _ _ => growLoop_sim hw b hb
  refine .bind h1 ?_ fun b1 => .skip fun _ => .ok (Nat.le_refl _)
  rintro b1 ⟨h2, h3, h4, h5⟩
  rw [subW_ok h4, subU_ok h4]
  have hf := h2.fit
  have hu : ({ b1 with head := b1.head - n } : Butte.Builder).usedSpace = b.usedSpace + n := by
    rw [← h3]
    show b1.buf.length - (b1.head - n) = b1.buf.length - b1.head + n
    omega
  exact .same (.ok ⟨⟨by show b1.head - n ≤ b1.buf.length; omega, h2.len, by omega, h2.vt, h2.fl, h2.ma⟩, hu, h5⟩)

omit hw in
theorem padding_same (hw : Width w) {n k : Nat} (hn : n < 2 ^ w) (hk : k ≤ 3) :
    paddingBytes w n (2 ^ k) = Butte.paddingBytes n (2 ^ k) := by
  have hle := hw.le
  have hlo := hw.lo
  have h2k : 2 ^ k ≤ 2 ^ 3 := Nat.pow_le_pow_right (by decide) hk
  have h32 : 2 ^ 32 ≤ 2 ^ w := Nat.pow_le_pow_right (by decide) hlo
  have hpos : 0 < 2 ^ k := Nat.pow_pos (by decide)
  have hdvd : 2 ^ k ∣ 2 ^ w := Nat.pow_dvd_pow 2 (by omega)
  rw [paddingBytes_pow2 n k (by omega) (by omega)]
  unfold paddingBytes
  rw [BitVec.toNat_and]
  have e1 : (BitVec.ofNat w (2 ^ k) - 1#w).toNat = 2 ^ k - 1 := by
    rw [BitVec.toNat_sub]
    simp only [BitVec.toNat_ofNat]
    rw [Nat.mod_eq_of_lt (a := 2 ^ k) (by omega), Nat.mod_eq_of_lt (a := 1) (by omega)]
    have : 2 ^ w - 1 + 2 ^ k = 2 ^ w + (2 ^ k - 1) := by omega
    rw [this, Nat.add_mod_left, Nat.mod_eq_of_lt (by omega)]
  have e2 : (~~~ (BitVec.ofNat w n) + 1#w).toNat = (2 ^ w - n) % 2 ^ w := by
    rw [← BitVec.neg_eq_not_add, BitVec.toNat_neg, BitVec.toNat_ofNat, Nat.mod_eq_of_lt hn]
  rw [e1, e2, Nat.and_two_pow_sub_one_eq_mod, Nat.mod_mod_of_dvd _ hdvd]
  obtain ⟨q, hq⟩ := hdvd
  have hdm := Nat.div_add_mod n (2 ^ k)
  have hlt := Nat.mod_lt n hpos
  generalize n % 2 ^ k = r at *
  generalize n / 2 ^ k = d at *
  have hdq : d < q := by
    apply Nat.lt_of_mul_lt_mul_left (a := 2 ^ k)
    omega
  obtain ⟨e, rfl⟩ : ∃ e, q = d + 1 + e := ⟨q - (d + 1), by omega⟩
  have : 2 ^ w - n = 2 ^ k * e + (2 ^ k - r) := by
    rw [hq, ← hdm, Nat.mul_add, Nat.mul_add]; omega
  rw [this, Nat.mul_add_mod]

theorem align_sim {n a : Nat} {b : Butte.Builder} (hb : Fit w b) (ha : a ∈ [1, 2, 4, 8]) (hm : b.minAlign ∈ [0, 1, 2, 4, 8])
    (hn : b.usedSpace + n < 2 ^ w) :
    Sim w (fun b' => Moved w b b' ∧ b'.minAlign ∈ [1, 2, 4, 8]) (fun b' => b'.buf.length) (Builder.align w m b n a) (b.align m n a) := by
  have hle := hw.le
  unfold Builder.align Butte.Builder.align
  dsimp only
  have hn' : ({ b with minAlign := max b.minAlign a } : Butte.Builder).usedSpace + n < 2 ^ w := hn
  rw [addW_ok hn', addU_ok (by omega)]
  simp only [Res.ok_bind]
  obtain ⟨k, hk, rfl⟩ : ∃ k, k ≤ 3 ∧ a = 2 ^ k := by
    simp only [List.mem_cons, List.not_mem_nil, or_false] at ha
    rcases ha with rfl | rfl | rfl | rfl
    exacts [⟨0, by decide, rfl⟩, ⟨1, by decide, rfl⟩, ⟨2, by decide, rfl⟩, ⟨3, by decide, rfl⟩]
  rw [padding_same hw hn' hk]
  have hma : max b.minAlign (2 ^ k) ∈ [1, 2, 4, 8] := by
    generalize 2 ^ k = x at ha
    simp only [List.mem_cons, List.not_mem_nil, or_false] at ha hm ⊢
    omega
  have hb' : Moved w b { b with minAlign := max b.minAlign (2 ^ k) } := hb.self rfl rfl rfl rfl (.inr hma)
  refine (makeSpace_sim hw hb'.to).mono ?_
  rintro b1 ⟨h1, h2, h3⟩
  exact ⟨hb'.trans h1, by rw [h3]; exact hma⟩

end

end Butte.Word
