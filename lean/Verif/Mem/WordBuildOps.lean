import Verif.Mem.WordBuildSim
import Verif.Rt.RefineVT
/-
The calls of the builder with pointers of `w` bits against those with 64 bits.
-/
namespace Butte.Word

/-- The lengths of the buffers come with the builder in the second component. -/
abbrev len2 {α : Type} (r : α × Butte.Builder) : Nat := r.2.buf.length

section
variable {w : Nat} (hw : Width w) {m : Mode}

theorem Fit.used {b : Butte.Builder} (h : Fit w b) : b.usedSpace + b.head = b.buf.length := by
  have := h.fit
  unfold Butte.Builder.usedSpace; omega

include hw

theorem pushBytes_same {p : PTy} (v : PVal p) {n : Nat} (hn : 4 + n < 2 ^ w) : pushBytes w m v n = v.pushBytes m n := by
  have hle := hw.le
  have h32 : 2 ^ 32 ≤ 2 ^ w := Nat.pow_le_pow_right (by decide) hw.lo
  cases p with
  | sc t => rfl
  | off =>
    have hv : v.val < 2 ^ 32 := v.isLt
    unfold pushBytes PVal.pushBytes
    dsimp only
    rw [addW_ok hn, addU_ok (by omega)]
    simp only [Res.ok_bind]
    by_cases h : v.val ≤ 4 + n
    · rw [subW_ok h, subU_ok h]
    · unfold subU subW
      rw [if_neg h, if_neg h]
      cases m with
      | debug => rfl
      | release =>
        simp only [Res.ok_bind]
        have e1 : 2 ^ w + (4 + n) - v.val = 2 ^ w - (v.val - (4 + n)) := by omega
        have e2 : 2 ^ 64 + (4 + n) - v.val = 2 ^ 64 - (v.val - (4 + n)) := by omega
        have hd : v.val - (4 + n) ≤ 2 ^ 32 := by omega
        rw [e1, e2, Nat.mod_mod_of_dvd _ (Nat.pow_dvd_pow 2 hw.lo), Nat.mod_mod_of_dvd _ (Nat.pow_dvd_pow 2 (by decide))]
        generalize v.val - (4 + n) = d at hd
        obtain ⟨j, hj⟩ : ∃ j, 2 ^ w = 2 ^ 32 * (j + 1) := by
          obtain ⟨q, hq⟩ := Nat.pow_dvd_pow 2 hw.lo
          cases q with
          | zero => omega
          | succ q => exact ⟨q, hq⟩
        have e3 : 2 ^ w - d = 2 ^ 32 - d + 2 ^ 32 * j := by omega
        have e4 : 2 ^ 64 - d = 2 ^ 32 - d + 2 ^ 32 * (2 ^ 32 - 1) := by omega
        rw [e3, e4, Nat.add_mul_mod_self_left, Nat.add_mul_mod_self_left]

theorem pushBytesUnprefixed_sim {x : Bytes} {b : Butte.Builder} (hb : Fit w b) :
    Sim w (fun b' => Moved w b b' ∧ b'.minAlign = b.minAlign) (fun b' => b'.buf.length)
      (Builder.pushBytesUnprefixed w m b x) (b.pushBytesUnprefixed m x) := by
  refine .bind (makeSpace_sim hw hb) ?_ ?_
  · rintro b1 ⟨h1, h2, h3⟩
    refine .same ?_
    split
    · next h =>
      exact .ok ⟨h1.trans (h1.to.self rfl (splice_length _ _ _ h) rfl rfl (.inl rfl)), h3⟩
    · exact .panic
  · intro b1
    split
    · next h => exact .ok (Nat.le_of_eq (splice_length _ _ _ h).symm)
    · exact .panic

theorem push_sim {p : PTy} {x : PVal p} {b : Butte.Builder} (hb : Fit w b) (hm : b.minAlign ∈ [0, 1, 2, 4, 8]) :
    Sim w (fun r => Moved w b r.2 ∧ r.2.minAlign ∈ [1, 2, 4, 8] ∧ r.1 ≤ r.2.usedSpace) len2 (Builder.push w m b x) (b.push m x) := by
  have h2 := hw.two
  have h3 := hw.big
  have hu := hb.used
  have hl := hb.len
  have hs := p.size_le
  have hp : p.align ∈ [1, 2, 4, 8] := by
    show p.size ∈ _
    have h0 := p.size_pos
    have := p.maOk
    unfold MAOk at this
    simp only [List.mem_cons, List.not_mem_nil, or_false]
    omega
  refine .bind (align_sim hw hb hp hm (by omega)) ?_ fun b1 => .bind makeSpace_longer fun b2 h2 =>
    pushTail_longer.mono fun _ h => Nat.le_trans h2 h
  rintro b1 ⟨f1, f2⟩
  refine .bind (makeSpace_sim hw f1.to) ?_ fun b2 => pushTail_longer
  rintro b2 ⟨g1, g2, g3⟩
  have gl := g1.len
  have gf := g1.fit
  split
  · next h =>
    rw [pushBytes_same hw x (by omega)]
    refine .same ?_
    intro r hr
    obtain ⟨bs, hbs, hr'⟩ := Res.bind_eq_ok.mp hr
    cases hr'
    have := PVal.pushBytes_length hbs
    have hm2 : Moved w b2 { b2 with buf := splice b2.buf b2.head bs } :=
      g1.to.self rfl (splice_length _ _ _ (by omega)) rfl rfl (.inl rfl)
    exact ⟨(f1.trans g1).trans hm2, by show b2.minAlign ∈ _; rw [g3]; exact f2, Nat.mod_le _ _⟩
  · exact .same .panic

/-! ### Vtables -/

theorem writeFields_same {obj : Nat} : ∀ {fls : List FieldLoc} {buf : Bytes}, (∀ f ∈ fls, f.id < 65536) →
    writeFields w m obj fls buf = VTableWriter.writeFields m obj fls buf
  | [], _, _ => rfl
  | fl :: rest, buf, h => by
    have h2 := hw.two
    have h3 := hw.big
    have hid := h fl (by simp)
    have e : getFieldOffset w m buf fl.id = VTableWriter.getFieldOffset m buf fl.id := by
      unfold getFieldOffset VTableWriter.getFieldOffset
      rw [readNatAt_same hw (by show fl.id + 2 < _; omega)]
    unfold writeFields VTableWriter.writeFields
    simp only [e]
    have ih := fun b => writeFields_same (obj := obj) (fls := rest) (buf := b) fun f hf => h f (by simp [hf])
    simp only [ih]

theorem numBytes_lt {m : Mode} {s : Bytes} {l n : Nat} (h : Butte.readNatAt m .u16 s l = .ok n) : n < 65536 := by
  unfold Butte.readNatAt at h
  obtain ⟨v, -, h⟩ := Res.bind_eq_ok.mp h
  cases h
  exact v.isLt

theorem asBytes_same {v : Butte.VTable} (h : v.loc + 65536 < 2 ^ w) : (VTable.asBytes w m v).res = v.asBytes m := by
  have hle := hw.le
  unfold VTable.asBytes Butte.VTable.asBytes VTable.numBytes Butte.VTable.numBytes
  simp only [Mem.bind_res, Mem.liftM_res]
  rw [readNatAt_same hw (by show v.loc + 2 < _; omega)]
  cases hn : Butte.readNatAt m .u16 v.buf v.loc with
  | ok n =>
    have := numBytes_lt hw hn
    simp only [Res.ok_bind]
    rw [addW_ok (by omega), addU_ok (by omega)]
  | err e => rfl
  | panic => rfl

theorem eqv_same {v v' : Butte.VTable} (h : v.loc + 65536 < 2 ^ w) (h' : v'.loc + 65536 < 2 ^ w) :
    (VTable.eqv w m v v').res = v.eqv m v' := by
  unfold VTable.eqv Butte.VTable.eqv
  dsimp only
  have e1 := asBytes_same hw (m := m) h
  have e2 := asBytes_same hw (m := m) h'
  cases h1 : v.asBytes m <;> rw [h1] at e1 <;> rw [e1] <;> dsimp only <;> cases h2 : v'.asBytes m <;> rw [h2] at e2 <;> rw [e2]

theorem findDuplicate_same {b : Butte.Builder} (hb : Fit w b) {v : Butte.VTable} (hv : v.loc ≤ b.buf.length) : ∀ {rs : List Nat},
    (∀ r ∈ rs, r ≤ b.usedSpace) → Builder.findDuplicate w m b v rs = b.findDuplicate m v rs
  | [], _ => rfl
  | r :: rs, h => by
    have h2 := hw.two
    have h3 := hw.big
    have hu := hb.used
    have hl := hb.len
    have hr := h r (by simp)
    unfold Builder.findDuplicate Butte.Builder.findDuplicate
    rw [subW_ok (by omega), subU_ok (by omega)]
    simp only [Res.ok_bind]
    rw [eqv_same hw (by omega) (by show b.head + b.usedSpace - r + 65536 < _; omega)]
    have ih := findDuplicate_same hb hv (rs := rs) fun x hx => h x (by simp [hx])
    simp only [ih]

theorem findDuplicate_mem {m : Mode} {b : Butte.Builder} {v : Butte.VTable} : ∀ {rs : List Nat} {n : Nat},
    b.findDuplicate m v rs = .ok (some n) → n ∈ rs
  | [], n, h => by cases h
  | r :: rs, n, h => by
    unfold Butte.Builder.findDuplicate at h
    obtain ⟨l, -, h⟩ := Res.bind_eq_ok.mp h
    obtain ⟨s, -, h⟩ := Res.bind_eq_ok.mp h
    split at h
    · cases h; simp
    · exact List.mem_cons_of_mem _ (findDuplicate_mem h)

theorem patchVTable_same {b : Butte.Builder} (hb : Fit w b) {vt obj : Nat} (ho : obj ≤ b.usedSpace) :
    Builder.patchVTable w m b vt obj = b.patchVTable m vt obj := by
  have h2 := hw.two
  have h3 := hw.big
  have hu := hb.used
  have hl := hb.len
  unfold Builder.patchVTable Butte.Builder.patchVTable
  rw [subW_ok (by omega), subU_ok (by omega)]
  simp only [Res.ok_bind]
  rw [readNatAt_same hw (by show b.head + b.usedSpace - obj + 4 < _; omega)]

end

/-! ### Between calls -/

/-- What holds between calls. -/
structure Inv (w : Nat) (b : Butte.Builder) : Prop where
  fit : b.head ≤ b.buf.length
  len : b.buf.length < 2 ^ (w - 1)
  vts : ∀ r ∈ b.vtables, r ≤ b.usedSpace
  ids : ∀ f ∈ b.fieldLocs, f.id < 65536
  al : b.minAlign ∈ [0, 1, 2, 4, 8]
  zero : b.minAlign = 0 → b.usedSpace = 0

theorem Inv.to {w : Nat} {b : Butte.Builder} (h : Inv w b) : Fit w b := ⟨h.fit, h.len⟩

theorem al_ne {n : Nat} (h : n ∈ [1, 2, 4, 8]) : n ≠ 0 := by
  simp only [List.mem_cons, List.not_mem_nil, or_false] at h; omega

theorem al_of {n : Nat} (h : n ∈ [1, 2, 4, 8]) : n ∈ [0, 1, 2, 4, 8] := by
  simp only [List.mem_cons, List.not_mem_nil, or_false] at h ⊢; omega

theorem Moved.al {w : Nat} {b b' : Butte.Builder} (h : Moved w b b') (hb : b.minAlign ∈ [0, 1, 2, 4, 8]) :
    b'.minAlign ∈ [0, 1, 2, 4, 8] := by
  rcases h.ma with e | e
  · rw [e]; exact hb
  · exact al_of e

theorem Inv.moved {w : Nat} {b b' : Butte.Builder} (h : Inv w b) (hm : Moved w b b') (ha : b'.minAlign ∈ [1, 2, 4, 8]) : Inv w b' :=
  ⟨hm.fit, hm.len, fun r hr => by rw [hm.vt] at hr; exact Nat.le_trans (h.vts r hr) hm.used,
    fun f hf => by rw [hm.fl] at hf; exact h.ids f hf, al_of ha, fun e => absurd e (al_ne ha)⟩

/-- The same but for flags, the vtables known and the fields pending. -/
theorem Inv.self {w : Nat} {b b' : Butte.Builder} (h : Inv w b) (e1 : b'.head = b.head) (e2 : b'.buf = b.buf) (e3 : b'.minAlign = b.minAlign)
    (e4 : ∀ r ∈ b'.vtables, r ∈ b.vtables) (e5 : ∀ f ∈ b'.fieldLocs, f ∈ b.fieldLocs) : Inv w b' := by
  have eu : b'.usedSpace = b.usedSpace := by unfold Butte.Builder.usedSpace; rw [e1, e2]
  exact ⟨by rw [e1, e2]; exact h.fit, by rw [e2]; exact h.len, fun r hr => by rw [eu]; exact h.vts r (e4 r hr),
    fun f hf => h.ids f (e5 f hf), by rw [e3]; exact h.al, by rw [e3, eu]; exact h.zero⟩

theorem Inv.bump {w : Nat} (hw : Width w) {b : Butte.Builder} (h : Inv w b) (n : Nat) (hn : n < 2 ^ (w - 1)) :
    b.usedSpace + n < 2 ^ w := by
  have := hw.two
  have := h.to.used
  have := h.len
  omega

theorem sliceIdx_eq {b : Bytes} {s e : Nat} {sl : Bytes} (h : sliceIdx b s e = .ok sl) : s ≤ e ∧ e ≤ b.length ∧ sl.length = e - s := by
  unfold sliceIdx sliceGet at h
  split at h
  · next hh => cases h; simp; omega
  · cases h

/-- What comes after making space for the vtable, with 64 bits. -/
def vtTail (m : Mode) (b : Butte.Builder) (obj tail vtLen : Nat) : Res (Nat × Butte.Builder) := do
  let objSize ← subW 32 m obj tail
  debugAssert m (decide (objSize < 0x10000))
  let start := b.head
  let slice ← sliceIdx b.buf start (start + vtLen)
  let slice ← VTableWriter.writeVTableByteLength m slice (vtLen % 2 ^ 16)
  let slice ← VTableWriter.writeObjectInlineSize slice (objSize % 2 ^ 16)
  let slice ← VTableWriter.writeFields m obj b.fieldLocs slice
  let b := { b with buf := splice b.buf start slice }
  let dup ← Butte.Builder.findDuplicate m b ⟨b.buf, b.head⟩ b.vtables.reverse
  match dup with
  | some n =>
    Butte.Builder.patchVTable m { b with buf := splice b.buf start (List.replicate vtLen 0), head := b.head + vtLen } n obj
  | none =>
    let n := b.usedSpace % 2 ^ 32
    Butte.Builder.patchVTable m { b with vtables := b.vtables ++ [n] } n obj

/-- The same with `w` bits. -/
def vtTailW (w : Nat) (m : Mode) (b : Butte.Builder) (obj tail vtLen : Nat) : Res (Nat × Butte.Builder) := do
  let objSize ← subW 32 m obj tail
  debugAssert m (decide (objSize < 0x10000))
  let start := b.head
  let slice ← sliceIdx b.buf start (start + vtLen)
  let slice ← VTableWriter.writeVTableByteLength m slice (vtLen % 2 ^ 16)
  let slice ← VTableWriter.writeObjectInlineSize slice (objSize % 2 ^ 16)
  let slice ← writeFields w m obj b.fieldLocs slice
  let b := { b with buf := splice b.buf start slice }
  let dup ← Builder.findDuplicate w m b ⟨b.buf, b.head⟩ b.vtables.reverse
  match dup with
  | some n =>
    Builder.patchVTable w m { b with buf := splice b.buf start (List.replicate vtLen 0), head := b.head + vtLen } n obj
  | none =>
    let n := b.usedSpace % 2 ^ 32
    Builder.patchVTable w m { b with vtables := b.vtables ++ [n] } n obj

theorem vtTail_longer {m : Mode} {b : Butte.Builder} {obj tail n : Nat} : After (vtTail m b obj tail n) fun r => Longer b r.2 := by
  refine .skip fun objSize => .skip fun _ => ?_
  intro r hr
  obtain ⟨sl, e1, hr⟩ := Res.bind_eq_ok.mp hr
  obtain ⟨sl2, e2, hr⟩ := Res.bind_eq_ok.mp hr
  obtain ⟨sl3, e3, hr⟩ := Res.bind_eq_ok.mp hr
  obtain ⟨sl4, e4, hr⟩ := Res.bind_eq_ok.mp hr
  obtain ⟨dup, e5, hr⟩ := Res.bind_eq_ok.mp hr
  have hlen : sl4.length = n ∧ b.head + n ≤ b.buf.length := by
    have := sliceIdx_eq e1
    rw [writeFields_length e4, writeObjectInlineSize_length e3, writeVTableByteLength_length e2]
    omega
  have hs : (splice b.buf b.head sl4).length = b.buf.length := splice_length _ _ _ (by omega)
  cases dup with
  | some v =>
    refine Nat.le_trans ?_ (patchVTable_longer r hr)
    show b.buf.length ≤ (splice (splice b.buf b.head sl4) b.head (List.replicate n 0)).length
    rw [splice_length _ _ _ (by simp; omega)]; omega
  | none =>
    refine Nat.le_trans ?_ (patchVTable_longer r hr)
    exact Nat.le_of_eq hs.symm

theorem patchVTable_keeps {m : Mode} {b : Butte.Builder} {vt obj : Nat} :
    After (b.patchVTable m vt obj) fun r => r.1 = obj ∧ r.2.head = b.head ∧ r.2.buf.length = b.buf.length ∧ r.2.fieldLocs = [] ∧
      r.2.vtables = b.vtables ∧ r.2.minAlign = b.minAlign := by
  refine .skip fun n => .skip fun saw => .skip fun _ => .skip fun d => ?_
  split
  · next h => exact .ok ⟨rfl, rfl, splice_length _ _ _ (by simpa using h), rfl, rfl, rfl⟩
  · exact .panic

theorem bind_congr {α β : Type} {x : Res α} {f g : α → Res β} (h : ∀ a, x = .ok a → f a = g a) : (x >>= f) = (x >>= g) := by
  cases x with
  | ok a => exact h a rfl
  | err e => rfl
  | panic => rfl

theorem vtTail_same {w : Nat} (hw : Width w) {m : Mode} {b : Butte.Builder} {obj tail n : Nat} (hb : Fit w b)
    (hids : ∀ f ∈ b.fieldLocs, f.id < 65536) (hv : ∀ r ∈ b.vtables, r + n ≤ b.usedSpace) (ho : obj + n ≤ b.usedSpace) :
    vtTailW w m b obj tail n = vtTail m b obj tail n := by
  unfold vtTailW vtTail
  refine bind_congr fun objSize _ => bind_congr fun _ _ => bind_congr fun sl e1 => bind_congr fun sl2 e2 => bind_congr fun sl3 e3 => ?_
  rw [writeFields_same hw hids]
  refine bind_congr fun sl4 e4 => ?_
  have hlen : sl4.length = n ∧ b.head + n ≤ b.buf.length := by
    have := sliceIdx_eq e1
    rw [writeFields_length e4, writeObjectInlineSize_length e3, writeVTableByteLength_length e2]
    omega
  have hs : (splice b.buf b.head sl4).length = b.buf.length := splice_length _ _ _ (by omega)
  have hb' : Moved w b { b with buf := splice b.buf b.head sl4 } := hb.self rfl hs rfl rfl (.inl rfl)
  have hu := hb.used
  have hu' : ({ b with buf := splice b.buf b.head sl4 } : Butte.Builder).usedSpace = b.usedSpace := by
    show (splice b.buf b.head sl4).length - b.head = b.buf.length - b.head
    rw [hs]
  dsimp only
  rw [findDuplicate_same hw hb'.to (by exact hb'.fit) (fun r hr => by
    rw [hu']; have := hv r (List.mem_reverse.mp hr); omega)]
  refine bind_congr fun dup e5 => ?_
  cases dup with
  | some v =>
    have hs2 : (splice (splice b.buf b.head sl4) b.head (List.replicate n 0)).length = b.buf.length := by
      rw [splice_length _ _ _ (by simp; omega)]; exact hs
    refine patchVTable_same hw ⟨?_, ?_⟩ ?_
    · show b.head + n ≤ (splice (splice b.buf b.head sl4) b.head (List.replicate n 0)).length
      omega
    · show (splice (splice b.buf b.head sl4) b.head (List.replicate n 0)).length < _
      rw [hs2]; exact hb.len
    · show obj ≤ (splice (splice b.buf b.head sl4) b.head (List.replicate n 0)).length - (b.head + n)
      omega
  | none =>
    refine patchVTable_same hw (b := { b with buf := splice b.buf b.head sl4, vtables := b.vtables ++ [_] }) ⟨hb'.fit, hb'.len⟩ ?_
    show obj ≤ ({ b with buf := splice b.buf b.head sl4 } : Butte.Builder).usedSpace
    omega

theorem vtTail_inv {w : Nat} {m : Mode} {b : Butte.Builder} {obj tail n : Nat} (hb : Fit w b) (ha : b.minAlign ∈ [1, 2, 4, 8])
    (hv : ∀ r ∈ b.vtables, r + n ≤ b.usedSpace) : After (vtTail m b obj tail n) fun r => Inv w r.2 := by
  refine .skip fun objSize => .skip fun _ => ?_
  intro r hr
  obtain ⟨sl, e1, hr⟩ := Res.bind_eq_ok.mp hr
  obtain ⟨sl2, e2, hr⟩ := Res.bind_eq_ok.mp hr
  obtain ⟨sl3, e3, hr⟩ := Res.bind_eq_ok.mp hr
  obtain ⟨sl4, e4, hr⟩ := Res.bind_eq_ok.mp hr
  obtain ⟨dup, e5, hr⟩ := Res.bind_eq_ok.mp hr
  have hlen : sl4.length = n ∧ b.head + n ≤ b.buf.length := by
    have := sliceIdx_eq e1
    rw [writeFields_length e4, writeObjectInlineSize_length e3, writeVTableByteLength_length e2]
    omega
  have hs : (splice b.buf b.head sl4).length = b.buf.length := splice_length _ _ _ (by omega)
  have hu := hb.used
  have hl := hb.len
  have hf := hb.fit
  cases dup with
  | some v =>
    have hs2 : (splice (splice b.buf b.head sl4) b.head (List.replicate n 0)).length = b.buf.length := by
      rw [splice_length _ _ _ (by simp; omega)]; exact hs
    obtain ⟨-, g1, g2, g3, g4, g5⟩ := patchVTable_keeps r hr
    have g1 : r.2.head = b.head + n := g1
    have g2 : r.2.buf.length = b.buf.length := g2.trans hs2
    have g4 : r.2.vtables = b.vtables := g4
    have g5 : r.2.minAlign = b.minAlign := g5
    have hru : r.2.usedSpace = b.usedSpace - n := by
      show r.2.buf.length - r.2.head = b.buf.length - b.head - n; omega
    refine ⟨by omega, by omega, ?_, ?_, ?_, ?_⟩
    · intro x hx; rw [g4] at hx; have := hv x hx; omega
    · rw [g3]; nofun
    · rw [g5]; exact al_of ha
    · rw [g5]; exact fun e => absurd e (al_ne ha)
  | none =>
    obtain ⟨-, g1, g2, g3, g4, g5⟩ := patchVTable_keeps r hr
    have g1 : r.2.head = b.head := g1
    have g2 : r.2.buf.length = b.buf.length := g2.trans hs
    have g5 : r.2.minAlign = b.minAlign := g5
    have hru : r.2.usedSpace = b.usedSpace := by
      show r.2.buf.length - r.2.head = b.buf.length - b.head; omega
    have hu' : ({ b with buf := splice b.buf b.head sl4 } : Butte.Builder).usedSpace = b.usedSpace := by
      show (splice b.buf b.head sl4).length - b.head = b.buf.length - b.head
      rw [hs]
    refine ⟨by omega, by omega, ?_, ?_, ?_, ?_⟩
    · intro x hx
      rw [g4] at hx
      rw [hru]
      rcases List.mem_append.mp hx with hx | hx
      · have := hv x hx; omega
      · rw [List.mem_singleton.mp hx, hu']; exact Nat.mod_le _ _
    · rw [g3]; nofun
    · rw [g5]; exact al_of ha
    · rw [g5]; exact fun e => absurd e (al_ne ha)

section
variable {w : Nat} (hw : Width w) {m : Mode}
include hw

theorem writeVTable_sim {tail : Nat} {b : Butte.Builder} (hb : Inv w b) :
    Sim w (fun r => Inv w r.2) len2 (Builder.writeVTable w m b tail) (b.writeVTable m tail) := by
  refine .skip fun _ _ => .bind (push_sim hw hb.to hb.al) ?_ ?_
  · rintro ⟨obj, b1⟩ ⟨h1, h2, h3⟩
    refine .bind (makeSpace_sim hw h1.to) ?_ fun b2 => vtTail_longer
    rintro b2 ⟨g1, g2, g3⟩
    dsimp only at h1 h2 h3 g1 g2 g3 ⊢
    have hv : ∀ r ∈ b2.vtables, r + vtableByteLen b1.fieldLocs ≤ b2.usedSpace := by
      intro r hr
      rw [g1.vt, h1.vt] at hr
      have := hb.vts r hr
      have := h1.used
      omega
    have hi : ∀ f ∈ b2.fieldLocs, f.id < 65536 := by rw [g1.fl, h1.fl]; exact hb.ids
    have e := vtTail_same (m := m) (tail := tail) hw g1.to hi hv (by omega : obj + vtableByteLen b1.fieldLocs ≤ b2.usedSpace)
    have := vtTail_inv (m := m) (obj := obj) (tail := tail) g1.to (by rw [g3]; exact h2) hv
    exact .inl ⟨e, this⟩
  · rintro ⟨obj, b1⟩
    exact .bind makeSpace_longer fun b2 h2 => vtTail_longer.mono fun _ h => Nat.le_trans h2 h

theorem endTable_sim {tail : Nat} {b : Butte.Builder} (hb : Inv w b) :
    Sim w (fun r => Inv w r.2) len2 (Builder.endTable w m b tail) (b.endTable m tail) := by
  refine .skip fun _ _ => .bind (writeVTable_sim hw hb) ?_ ?_
  · rintro ⟨o, b1⟩ h1
    exact .same (.ok (h1.self rfl rfl rfl (fun _ h => h) nofun))
  · rintro ⟨o, b1⟩
    exact .ok (Nat.le_refl _)

end

end Butte.Word
