import Verif.Mem.Inside
import Verif.Rt.CallerOk
import Verif.Rt.TableIn
/-
The accesses of the builder.
-/
namespace Butte.Mem

/-- Inside, valid, and aligned if `H`. -/
def BP (H : Prop) (addr : Nat → Nat) (a : Access) : Prop := a.Inside ∧ a.Valid ∧ (H → a.Aligned addr)

/-- Lengths of the buffer at which positions counted from the end are as aligned as positions counted from the start. -/
def GoodLen (n : Nat) : Prop := n % 8 = 0 ∨ n = 1 ∨ n = 2 ∨ n = 4

theorem GoodLen.double {n : Nat} (h : GoodLen n) : GoodLen (max 1 (n * 2)) := by
  unfold GoodLen at *
  omega

theorem GoodLen.dvd {n : Nat} (h : GoodLen n) (t : STy) (ht : t.size ≤ n) : n % t.size = 0 := by
  unfold GoodLen at h
  cases t <;> simp only [STy.size] at * <;> omega

theorem addr_aligned {x k : Nat} (t : STy) (h : x % 8 = 0) (hk : k % t.size = 0) : (x + k) % t.size = 0 := by
  cases t <;> simp only [STy.size] at * <;> omega

/-- What a step leaves alone. -/
structure Kept (b b' : Builder) : Prop where
  ids : b'.fieldLocs = b.fieldLocs
  vts : b'.vtables = b.vtables
  good : GoodLen b.buf.length → GoodLen b'.buf.length

theorem Kept.refl (b : Builder) : Kept b b := ⟨rfl, rfl, id⟩
theorem Kept.trans {a b c : Builder} (h : Kept a b) (h' : Kept b c) : Kept a c :=
  ⟨h'.ids.trans h.ids, h'.vts.trans h.vts, fun g => h'.good (h.good g)⟩

/-- The builder between two calls. -/
structure I (H : Prop) (b : Builder) : Prop where
  rep : ∃ a, R b a
  good : H → GoodLen b.buf.length
  ids : H → ∀ f ∈ b.fieldLocs, f.id % 2 = 0
  vts : H → ∀ r ∈ b.vtables, r % 2 = 0

variable {H : Prop} {addr : Nat → Nat} {m : Mode}

theorem I.keep {b b' : Builder} (h : I H b) (k : Kept b b') (r : ∃ a, R b' a) : I H b' :=
  ⟨r, fun x => k.good (h.good x), fun x => by rw [k.ids]; exact h.ids x, fun x => by rw [k.vts]; exact h.vts x⟩

theorem BP.u8 {w : Bool} {n off : Nat} {s : Bytes} (h : off + n ≤ s.length) : BP H addr ⟨w, .u8, n, off, s⟩ := by
  refine ⟨?_, ?_, fun _ => ?_⟩
  · simpa [Access.Inside, STy.size] using h
  · rintro - ⟨⟩
  · simp only [Access.Aligned, STy.size, Nat.mod_one]

/-- A write, or a read of a type all of whose bit patterns are values, at a position counted from the end. -/
theorem BP.back {w : Bool} {t : STy} {off u : Nat} {s : Bytes} (hw : w = true ∨ t ≠ .bool) (h : off + t.size ≤ s.length)
    (ha : H → ∀ n, addr n % 8 = 0) (hg : H → GoodLen s.length) (hu : off + u = s.length) (hm : H → u % t.size = 0) :
    BP H addr ⟨w, t, 1, off, s⟩ := by
  refine ⟨?_, ?_, fun x => ?_⟩
  · simpa [Access.Inside] using h
  · intro hw' ht
    rcases hw with hw | hw
    · rw [hw] at hw'; cases hw'
    · exact absurd ht hw
  · refine addr_aligned t (ha x _) ?_
    have h1 := (hg x).dvd t (by omega)
    have h2 := hm x
    rw [← hu] at h1
    show off % t.size = 0
    rw [Nat.add_mod, h2, Nat.add_zero, Nat.mod_mod] at h1
    exact h1

/-! ### Growing -/

theorem grow_kept {b b' : Builder} (h : b.grow m = .ok b') : Kept b b' := by
  unfold Butte.Builder.grow at h
  simp only at h
  split at h
  · cases h
  split at h
  · cases h
  split at h
  · rename_i h1
    cases h
    refine ⟨rfl, rfl, fun g => ?_⟩
    have : b.buf.length = 0 := by omega
    simp only [List.length_append, List.length_replicate, this]
    unfold GoodLen; omega
  · rename_i h1
    split at h
    · cases h
    · rename_i h2
      cases h
      refine ⟨rfl, rfl, fun g => ?_⟩
      have e : max 1 (b.buf.length * 2) = b.buf.length * 2 := by omega
      have g2 := g.double
      simp only [e] at *
      simp only [List.length_append, List.length_replicate, List.length_take]
      have : b.buf.length * 2 / 2 + min (b.buf.length * 2 / 2) (b.buf.length + (b.buf.length * 2 - b.buf.length)) =
        b.buf.length * 2 := by omega
      rw [this]; exact g2

theorem grow_does (b : Builder) : Does (BP H addr) (Builder.grow m b) (Kept b) := by
  refine ⟨?_, fun b' e => grow_kept (by rw [← Builder.grow_res]; exact e)⟩
  unfold Builder.grow
  dsimp only
  refine All.ite (fun _ => All.lift _) fun h0 => All.ite (fun _ => All.lift _) fun _ => All.ite (fun _ => All.pure _) fun h1 => ?_
  refine All.ite (fun _ => All.lift _) fun _ => All.bind (All.touch (BP.u8 ?_)) fun _ _ => All.pure _
  simp only [List.length_append, List.length_take, List.length_replicate]
  omega

theorem growLoop_does (want n : Nat) : ∀ b : Builder, want - b.head ≤ n →
    Does (BP H addr) (Builder.growLoop m b want) (Kept b) := by
  induction n with
  | zero =>
    intro b hn
    unfold Builder.growLoop
    rw [if_neg (by omega)]
    exact Does.pure (Kept.refl b)
  | succ n ih =>
    intro b hn
    unfold Builder.growLoop
    by_cases hlt : b.head < want
    · rw [if_pos hlt]
      have hg := grow_does (H := H) (addr := addr) (m := m) b
      split
      · rename_i b1 e
        have hk := hg.2 _ e
        rw [Builder.grow_res] at e
        have := Butte.Builder.grow_head e
        have h1 := ih b1 (by omega)
        refine ⟨fun a ha => ?_, fun r hr => hk.trans (h1.2 r hr)⟩
        rcases List.mem_append.mp ha with ha | ha
        · exact hg.1 a ha
        · exact h1.1 a ha
      · exact ⟨hg.1, nofun⟩
      · exact ⟨hg.1, nofun⟩
    · rw [if_neg hlt]
      exact Does.pure (Kept.refl b)

theorem makeSpace_does (b : Builder) (want : Nat) : Does (BP H addr) (Builder.makeSpace m b want) (Kept b) := by
  unfold Builder.makeSpace
  refine Does.bind (Q := Kept b) ?_ fun b1 _ k => Does.bind (Does.liftM fun _ e => e) fun h _ _ => Does.pure ⟨k.ids, k.vts, k.good⟩
  unfold Builder.ensureCapacity
  refine Does.ite (fun _ => Does.pure (Kept.refl b)) fun _ => ?_
  exact Does.bind (Does.liftM fun _ e => e) fun _ _ _ => growLoop_does want _ b (Nat.le_refl _)

theorem align_does (b : Builder) (l al : Nat) : Does (BP H addr) (Builder.align m b l al) (Kept b) := by
  unfold Builder.align
  dsimp only
  refine Does.bind (Does.liftM fun _ e => e) fun s _ _ => ?_
  exact (makeSpace_does _ _).mono fun b' _ k => ⟨k.ids, k.vts, k.good⟩

theorem splice_len {s x : Bytes} {o : Nat} (h : o + x.length ≤ s.length) : (splice s o x).length = s.length :=
  splice_length _ _ _ h

theorem pushBytes_does (b : Builder) (x : Bytes) : Does (BP H addr) (Builder.pushBytesUnprefixed m b x) (Kept b) := by
  unfold Builder.pushBytesUnprefixed
  refine Does.bind (makeSpace_does _ _) fun b1 _ k => Does.ite (fun h => Does.pure ⟨k.ids, k.vts, fun g => ?_⟩) fun _ => Does.panic
  simp only [splice_len h]
  exact k.good g

theorem stored_size (p : PTy) : (Builder.stored p).size = p.size := by cases p <;> rfl

theorem PTy_size_le (p : PTy) : p.size ≤ 8 := by
  cases p with
  | off => decide
  | sc t => cases t <;> decide

theorem stored_pow (p : PTy) : ∃ k, k < 64 ∧ p.size = 2 ^ k := by
  cases p with
  | off => exact ⟨2, by decide, rfl⟩
  | sc t =>
    cases t <;> simp only [PTy.size, STy.size] <;>
      first
      | exact ⟨0, by decide, rfl⟩
      | exact ⟨1, by decide, rfl⟩
      | exact ⟨2, by decide, rfl⟩
      | exact ⟨3, by decide, rfl⟩

/-- `push` writes at a multiple of the size, counted from the end. -/
theorem push_does {b : Builder} (h : I H b) (ha : H → ∀ n, addr n % 8 = 0) {p : PTy} (x : PVal p) :
    Does (BP H addr) (Builder.push m b x) (fun r => Kept b r.2 ∧ r.2.usedSpace % p.size = 0 ∧ r.1 = r.2.usedSpace % 2 ^ 32) := by
  obtain ⟨a, hr⟩ := h.rep
  unfold Builder.push
  refine Does.bind (align_does b _ _) fun b1 e1 k1 => ?_
  rw [Builder.align_res] at e1
  obtain ⟨a1, f1, r1⟩ := (align_sim hr p.size p.align).fwd _ e1
  refine Does.bind (makeSpace_does b1 _) fun b2 e2 k2 => ?_
  rw [Builder.makeSpace_res] at e2
  have r2 := (makeSpace_spec r1 p.size).1 _ e2
  refine Does.ite (fun hc => ?_) fun _ => Does.panic
  refine Does.bind (Does.liftM fun _ e => e) fun bs _ hbs => ?_
  have hbl := PVal.pushBytes_length hbs
  have hps := PTy_size_le p
  have hlen := r2.bufLen
  have hl0 := hr.len
  have hl1 := hr.bufLen
  have hmax : isizeMax = 2 ^ 63 - 1 := rfl
  have hu : (a1.data.length + p.size) % p.size = 0 := by
    have := align_spec f1 (by omega)
    subst this
    have hd := padding_dvd (n := a.data.length + p.size) (a := p.size) (by omega) (stored_pow p)
    simp only [PTy.align, List.length_append, List.length_replicate]
    rw [show paddingBytes (a.data.length + p.size) p.size + a.data.length + p.size =
      a.data.length + p.size + paddingBytes (a.data.length + p.size) p.size by omega]
    exact hd
  simp only [ABuilder.prepend, List.length_append, List.length_replicate] at hlen
  have hsl : (splice b2.buf b2.head bs).length = b2.buf.length := splice_len (by omega)
  refine Does.bind (Does.touch (Q := fun _ => True) (BP.back (u := p.size + a1.data.length) (Or.inl rfl) ?_ ha ?_ ?_ ?_) trivial) fun _ _ _ => ?_
  · rw [stored_size]; omega
  · exact fun y => k2.good (k1.good (h.good y))
  · omega
  · intro _
    rw [stored_size, Nat.add_comm]; exact hu
  · refine Does.pure ⟨⟨k2.ids.trans k1.ids, k2.vts.trans k1.vts, fun g => ?_⟩, ?_, rfl⟩
    · simp only [hsl]; exact k2.good (k1.good g)
    · simp only [Butte.Builder.usedSpace, hsl]
      rw [show b2.buf.length - b2.head = a1.data.length + p.size by omega]
      exact hu

theorem I.push {b : Builder} (h : I H b) {p : PTy} {x : PVal p} {r : Nat × Builder} (e : (Builder.push m b x).res = .ok r)
    (k : Kept b r.2) : I H r.2 := by
  obtain ⟨a, hr⟩ := h.rep
  rw [Builder.push_res] at e
  obtain ⟨a', _, _, r'⟩ := (push_sim hr x).fwd _ e
  exact h.keep k ⟨_, r'⟩

theorem I.align {b b' : Builder} (h : I H b) {l al : Nat} (e : (Builder.align m b l al).res = .ok b') (k : Kept b b') :
    I H b' := by
  obtain ⟨a, hr⟩ := h.rep
  rw [Builder.align_res] at e
  obtain ⟨a', _, r'⟩ := (align_sim hr l al).fwd _ e
  exact h.keep k ⟨_, r'⟩

theorem I.pushBytes {b b' : Builder} (h : I H b) {x : Bytes} (e : (Builder.pushBytesUnprefixed m b x).res = .ok b')
    (k : Kept b b') : I H b' := by
  obtain ⟨a, hr⟩ := h.rep
  rw [Builder.pushBytesUnprefixed_res] at e
  obtain ⟨a', _, r'⟩ := (pushBytes_sim hr x).fwd _ e
  exact h.keep k ⟨_, r'⟩


/-! ### VTables -/

/-- The `u16` accesses of a vtable of `n` bytes, at the given positions. -/
def V (P : Access → Prop) (offs : List Nat) (n : Nat) : Prop :=
  ∀ (w : Bool) (off : Nat) (s : Bytes), s.length = n → off + 2 ≤ n → off ∈ offs → P ⟨w, .u16, 1, off, s⟩

theorem writeVTableByteLength_does {P : Access → Prop} {offs : List Nat} {buf : Bytes} {n : Nat} (h : V P offs buf.length)
    (h0 : 0 ∈ offs) : Does P (VTableWriter.writeVTableByteLength m buf n) (fun s => s.length = buf.length) := by
  unfold VTableWriter.writeVTableByteLength
  refine Does.ite (fun hc => ?_) fun _ => Does.panic
  refine Does.bind (Does.touch (Q := fun _ => True) (h _ _ _ rfl hc h0) trivial) fun _ _ _ => ?_
  refine Does.bind (Does.liftM fun _ e => e) fun _ _ _ => Does.pure ?_
  exact splice_len (by simp; omega)

theorem writeObjectInlineSize_does {P : Access → Prop} {offs : List Nat} {buf : Bytes} {n : Nat} (h : V P offs buf.length)
    (h0 : 2 ∈ offs) : Does P (VTableWriter.writeObjectInlineSize buf n) (fun s => s.length = buf.length) := by
  unfold VTableWriter.writeObjectInlineSize
  refine Does.ite (fun hc => ?_) fun _ => Does.panic
  refine Does.bind (Does.touch (Q := fun _ => True) (h _ _ _ rfl hc h0) trivial) fun _ _ _ => Does.pure ?_
  exact splice_len (by simp; omega)

theorem writeFields_does {P : Access → Prop} {offs : List Nat} {obj n : Nat} (h : V P offs n) :
    ∀ (fls : List FieldLoc) (buf : Bytes), buf.length = n → (∀ f ∈ fls, f.id ∈ offs) →
      Does P (VTableWriter.writeFields m obj fls buf) (fun s => s.length = n)
  | [], buf, hl, _ => Does.pure hl
  | f :: fls, buf, hl, hf => by
    have hfo := hf f (List.mem_cons_self ..)
    unfold VTableWriter.writeFields
    refine Does.bind (Does.liftM fun _ e => e) fun d _ _ => ?_
    have tail : Does P (do
        let buf' ← VTableWriter.writeFieldOffset buf f.id (d % 2 ^ 16)
        VTableWriter.writeFields m obj fls buf') (fun s => s.length = n) := by
      unfold VTableWriter.writeFieldOffset
      refine Does.bind (Q := fun s => s.length = n) ?_ fun s _ hs => writeFields_does h fls s hs fun g hg => hf g (List.mem_cons_of_mem _ hg)
      refine Does.ite (fun hc => ?_) fun _ => Does.panic
      refine Does.bind (Does.touch (Q := fun _ => True) (h _ _ _ hl (by omega) hfo) trivial) fun _ _ _ => Does.pure ?_
      rw [splice_len (by simp; omega)]; exact hl
    dsimp only
    split
    · refine Does.bind (Q := fun _ => True) ⟨All.onRes (readNatAt_all fun hh => h _ _ _ hl ?_ hfo), fun _ _ => trivial⟩ fun _ _ _ => ?_
      · rw [← hl]; exact hh
      · exact Does.bind (Does.liftM fun _ e => e) fun _ _ _ => tail
    · exact tail

theorem asBytes_all {P : Access → Prop} {v : VTable} (h : v.loc + 2 ≤ v.buf.length → P ⟨false, .u16, 1, v.loc, v.buf⟩) :
    All P (VTable.asBytes m v) :=
  All.bind (readNatAt_all h) fun _ _ => All.bind_liftM fun _ _ => All.liftM _

theorem findDuplicate_all {P : Access → Prop} {b : Builder} {needle : VTable}
    (hn : needle.loc + 2 ≤ needle.buf.length → P ⟨false, .u16, 1, needle.loc, needle.buf⟩) : ∀ revs : List Nat,
    (∀ r ∈ revs, ∀ l, subU m (b.head + b.usedSpace) r = .ok l → l + 2 ≤ b.buf.length → P ⟨false, .u16, 1, l, b.buf⟩) →
    Does P (Builder.findDuplicate m b needle revs) (fun o => ∀ r, o = some r → r ∈ revs)
  | [], _ => Does.pure nofun
  | r :: rest, h => by
    unfold Builder.findDuplicate
    refine Does.bind (Does.liftM fun _ e => e) fun l _ hl => ?_
    refine Does.bind (Q := fun _ => True) ⟨eqv_all (asBytes_all hn) (asBytes_all (h r (List.mem_cons_self ..) l hl)), fun _ _ => trivial⟩ fun s _ _ => ?_
    refine Does.ite (fun _ => Does.pure ?_) fun _ => ?_
    · rintro _ ⟨⟩; exact List.mem_cons_self ..
    · exact (findDuplicate_all hn rest fun r' hr' => h r' (List.mem_cons_of_mem _ hr')).mono
        fun o _ ho r' e => List.mem_cons_of_mem _ (ho r' e)

/-- What holds between two calls, without the data. -/
structure J (H : Prop) (b : Builder) : Prop where
  good : H → GoodLen b.buf.length
  ids : H → ∀ f ∈ b.fieldLocs, f.id % 2 = 0
  vts : H → ∀ r ∈ b.vtables, r % 2 = 0

theorem I.j {b : Builder} (h : I H b) : J H b := ⟨h.good, h.ids, h.vts⟩
theorem J.i {b : Builder} (h : J H b) (r : ∃ a, R b a) : I H b := ⟨r, h.good, h.ids, h.vts⟩
theorem J.keep {b b' : Builder} (h : J H b) (k : Kept b b') : J H b' :=
  ⟨fun x => k.good (h.good x), fun x => by rw [k.ids]; exact h.ids x, fun x => by rw [k.vts]; exact h.vts x⟩

theorem patchVTable_does {b : Builder} {vtUse obj : Nat} (h : J H b) (ha : H → ∀ n, addr n % 8 = 0)
    (hh : b.head ≤ b.buf.length) (ho : obj ≤ b.buf.length) (hm : H → obj % 4 = 0) :
    Does (BP H addr) (Builder.patchVTable m b vtUse obj) (fun r => J H r.2) := by
  unfold Builder.patchVTable
  have hu : b.head + b.usedSpace = b.buf.length := by unfold Butte.Builder.usedSpace; omega
  refine Does.bind (Does.liftM fun _ e => e) fun n _ hn => ?_
  rw [hu, subU_ok ho] at hn
  cases hn
  refine Does.bind (Q := fun _ => True) ⟨All.onRes (readNatAt_all fun hc => ?_), fun _ _ => trivial⟩ fun saw _ _ => ?_
  · exact BP.back (u := obj) (t := .u32) (Or.inr nofun) hc ha h.good (by omega) hm
  refine Does.bind (Does.liftM fun _ e => e) fun _ _ _ => ?_
  refine Does.bind (Does.liftM fun _ e => e) fun d _ _ => ?_
  refine Does.ite (fun hc => ?_) fun _ => Does.panic
  refine Does.bind (Does.touch (Q := fun _ => True)
    (BP.back (u := obj) (t := .i32) (Or.inl rfl) hc ha h.good (by omega) hm) trivial) fun _ _ _ => Does.pure ⟨?_, ?_, h.vts⟩
  · intro x
    show GoodLen (splice _ _ _).length
    rw [splice_len (by simp; omega)]; exact h.good x
  · intro _ f hf; cases hf

theorem foldl_max_even : ∀ (l : List FieldLoc) (a : Nat), a % 2 = 0 → (∀ f ∈ l, f.id % 2 = 0) →
    l.foldl (fun acc f => max acc f.id) a % 2 = 0
  | [], _, h, _ => h
  | f :: l, a, h, hl => by
    refine foldl_max_even l _ ?_ fun g hg => hl g (List.mem_cons_of_mem _ hg)
    have := hl f (List.mem_cons_self ..)
    show max a f.id % 2 = 0
    rcases Nat.le_total a f.id with hh | hh
    · rw [Nat.max_eq_right hh]; exact this
    · rw [Nat.max_eq_left hh]; exact h

theorem vtableByteLen_even {l : List FieldLoc} (h : ∀ f ∈ l, f.id % 2 = 0) : vtableByteLen l % 2 = 0 := by
  unfold vtableByteLen
  split
  · rfl
  · have := foldl_max_even _ _ (h _ (List.mem_cons_self ..)) fun g hg => h g (List.mem_cons_of_mem _ hg)
    omega

theorem writeVTable_does {b : Builder} (h : I H b) (ha : H → ∀ n, addr n % 8 = 0) (tail : Nat) :
    Does (BP H addr) (Builder.writeVTable m b tail) (fun r => J H r.2) := by
  unfold Builder.writeVTable
  refine Does.bind (Does.liftM fun _ e => e) fun _ _ _ => ?_
  refine Does.bind (push_does h ha _) fun ⟨obj, b1⟩ e1 ⟨k1, hmod, hobj⟩ => ?_
  have i1 := h.push e1 k1
  obtain ⟨a1, r1⟩ := i1.rep
  dsimp only at *
  refine Does.bind (makeSpace_does b1 _) fun b2 e2 k2 => ?_
  rw [Builder.makeSpace_res] at e2
  have r2 := (makeSpace_spec r1 _).1 _ e2
  have j2 := i1.j.keep k2
  have hlen := r2.bufLen
  simp only [ABuilder.prepend, List.length_append, List.length_replicate] at hlen
  have hu1 := r1.used
  have hmax : isizeMax = 2 ^ 63 - 1 := rfl
  have hl2 := r2.len
  rw [hu1] at hmod hobj
  have hmod : a1.data.length % 4 = 0 := hmod
  have hobj4 : obj % 4 = 0 := by omega
  have hoble : obj ≤ a1.data.length := by rw [hobj]; exact Nat.mod_le _ _
  have hid : b2.fieldLocs = b1.fieldLocs := k2.ids
  refine Does.bind (Does.liftM fun _ e => e) fun objSize _ _ => ?_
  refine Does.bind (Does.liftM fun _ e => e) fun _ _ _ => ?_
  refine Does.bind (Does.liftM fun _ e => e) fun s0 _ hs0 => ?_
  have hsl : s0.length = vtableByteLen b1.fieldLocs := by
    unfold sliceIdx at hs0
    cases hq : sliceGet b2.buf b2.head (b2.head + vtableByteLen b1.fieldLocs) with
    | ok z =>
      rw [hq] at hs0; cases hs0
      have := (sliceGet_len hq).2.2.2
      omega
    | err _ => rw [hq] at hs0; cases hs0
    | panic => rw [hq] at hs0; cases hs0
  have hV : ∀ n, n = vtableByteLen b1.fieldLocs →
      V (fun a => BP H addr { a with off := b2.head + a.off, mem := b2.buf }) (0 :: 2 :: b1.fieldLocs.map FieldLoc.id) n := by
    rintro n rfl w off s hs ho hoff
    refine BP.back (t := .u16) (u := vtableByteLen b1.fieldLocs - off + a1.data.length) (Or.inr nofun) ?_ ha j2.good ?_ ?_
    · show b2.head + off + 2 ≤ _
      omega
    · show b2.head + off + _ = _
      omega
    · intro x
      have h1 := vtableByteLen_even (i1.ids x)
      have h2 : off % 2 = 0 := by
        simp only [List.mem_cons, List.mem_map] at hoff
        rcases hoff with rfl | rfl | ⟨f, hf, rfl⟩
        · rfl
        · rfl
        · exact i1.ids x f hf
      show _ % 2 = 0
      omega
  have wi : ∀ {x : Tr Bytes} {Q : Bytes → Prop},
      Does (fun a => BP H addr { a with off := b2.head + a.off, mem := b2.buf }) x Q →
      Does (BP H addr) (Tr.within b2.buf b2.head x) Q := fun hx => ⟨All.within hx.1, hx.2⟩
  refine Does.bind (wi (writeVTableByteLength_does (hV _ hsl) (List.mem_cons_self ..))) fun s1 _ hs1 => ?_
  refine Does.bind (wi (writeObjectInlineSize_does (hV _ (hs1.trans hsl)) (List.mem_cons_of_mem _ (List.mem_cons_self ..)))) fun s2 _ hs2 => ?_
  refine Does.bind (wi (writeFields_does (hV _ rfl) b2.fieldLocs s2 (hs2.trans (hs1.trans hsl)) ?_)) fun s3 _ hs3 => ?_
  · intro f hf
    rw [hid] at hf
    exact List.mem_cons_of_mem _ (List.mem_cons_of_mem _ (List.mem_map_of_mem hf))
  have hsp : (splice b2.buf b2.head s3).length = b2.buf.length := splice_len (by rw [hs3]; omega)
  have hbl : b2.head + b2.usedSpace = b2.buf.length := by unfold Butte.Builder.usedSpace; omega
  have hused : ({ b2 with buf := splice b2.buf b2.head s3 } : Builder).usedSpace = vtableByteLen b1.fieldLocs + a1.data.length := by
    show (splice b2.buf b2.head s3).length - b2.head = _
    rw [hsp]; omega
  have j3 : J H { b2 with buf := splice b2.buf b2.head s3 } :=
    ⟨fun x => by show GoodLen (splice _ _ _).length; rw [hsp]; exact j2.good x, j2.ids, j2.vts⟩
  have even : H → (vtableByteLen b1.fieldLocs + a1.data.length) % 2 = 0 := fun x => by
    have := vtableByteLen_even (i1.ids x)
    omega
  refine Does.bind (findDuplicate_all (fun hc => ?_) _ fun r hr l hl hc => ?_) fun dup _ hdup => ?_
  · exact BP.back (t := .u16) (u := vtableByteLen b1.fieldLocs + a1.data.length) (Or.inr nofun) hc ha j3.good
      (by show b2.head + _ = (splice _ _ _).length; rw [hsp]; omega) even
  · have hrv : r ∈ b2.vtables := List.mem_reverse.mp hr
    have hrle : r ≤ a1.data.length := by
      have := r1.vtOk r
      rw [← r1.vtables] at this
      rw [k2.vts] at hrv
      exact this hrv
    rw [hused] at hl
    dsimp only at hl
    rw [subU_ok (by omega)] at hl
    cases hl
    exact BP.back (t := .u16) (u := r) (Or.inr nofun) hc ha j3.good
      (by show b2.head + _ - r + r = (splice _ _ _).length; rw [hsp]; omega) fun x => j2.vts x r hrv
  · cases dup with
    | some n =>
      dsimp only
      refine Does.bind (Does.touch (Q := fun _ => True) (BP.u8 ?_) trivial) fun _ _ _ => ?_
      · rw [hsp]; omega
      · have hsp2 : (splice (splice b2.buf b2.head s3) b2.head (List.replicate (vtableByteLen b1.fieldLocs) 0)).length = b2.buf.length := by
          rw [splice_len (by simp; omega), hsp]
        refine patchVTable_does ⟨?_, j2.ids, j2.vts⟩ ha ?_ ?_ fun _ => hobj4
        · intro x; show GoodLen (splice _ _ _).length; rw [hsp2]; exact j2.good x
        · show b2.head + _ ≤ (splice _ _ _).length; rw [hsp2]; omega
        · show _ ≤ (splice _ _ _).length; rw [hsp2]; omega
    | none =>
      dsimp only
      refine patchVTable_does ⟨j3.good, j2.ids, ?_⟩ ha ?_ ?_ fun _ => hobj4
      · intro x r hr
        rcases List.mem_append.mp hr with hr | hr
        · exact j2.vts x r hr
        · rw [List.mem_singleton.mp hr, hused]
          have := even x
          omega
      · show b2.head ≤ (splice _ _ _).length; rw [hsp]; omega
      · show _ ≤ (splice _ _ _).length; rw [hsp]; omega

/-! ### Calls -/

theorem Kept.nested {b : Builder} (n : Bool) : Kept b { b with nested := n } := ⟨rfl, rfl, id⟩

theorem I.withNested {b : Builder} (h : I H b) (n : Bool) : I H { b with nested := n } := by
  obtain ⟨a, hr⟩ := h.rep
  exact h.keep (Kept.nested n) ⟨_, hr.withNested n⟩

theorem pushJ {b : Builder} (h : I H b) (ha : H → ∀ n, addr n % 8 = 0) {p : PTy} (x : PVal p) :
    Does (BP H addr) (Builder.push m b x) (fun r => I H r.2) :=
  (push_does h ha x).mono fun _ e k => h.push e k.1

theorem alignI {b : Builder} (h : I H b) (l al : Nat) : Does (BP H addr) (Builder.align m b l al) (I H) :=
  (align_does b l al).mono fun _ e k => h.align e k

theorem pushBytesI {b : Builder} (h : I H b) (x : Bytes) : Does (BP H addr) (Builder.pushBytesUnprefixed m b x) (I H) :=
  (pushBytes_does b x).mono fun _ e k => h.pushBytes e k

theorem pushSlotAlways_does {b : Builder} (h : I H b) (ha : H → ∀ n, addr n % 8 = 0) {s : Nat} (hs : H → s % 2 = 0)
    {p : PTy} (x : PVal p) : Does (BP H addr) (Builder.pushSlotAlways m b s x) (J H) := by
  unfold Builder.pushSlotAlways
  refine Does.bind (Does.liftM fun _ e => e) fun _ _ _ => Does.bind (pushJ h ha x) fun ⟨o, b1⟩ _ j => Does.pure ?_
  refine ⟨j.good, fun y f hf => ?_, j.vts⟩
  rcases List.mem_append.mp hf with hf | hf
  · exact j.ids y f hf
  · rw [List.mem_singleton.mp hf]; exact hs y

theorem endTable_does {b : Builder} (h : I H b) (ha : H → ∀ n, addr n % 8 = 0) (tail : Nat) :
    Does (BP H addr) (Builder.endTable m b tail) (fun r => J H r.2) := by
  unfold Builder.endTable
  refine Does.bind (Does.liftM fun _ e => e) fun _ _ _ => Does.bind (writeVTable_does h ha tail) fun ⟨o, b1⟩ _ j => Does.pure ?_
  exact ⟨j.good, (fun _ _ hf => nomatch hf), j.vts⟩

theorem startVector_does {b : Builder} (h : I H b) (p : PTy) (n : Nat) :
    Does (BP H addr) (Builder.startVector m b p n) (I H) := by
  unfold Builder.startVector
  refine Does.bind (Does.liftM fun _ e => e) fun _ _ _ => ?_
  exact Does.bind (Does.liftM fun _ e => e) fun _ _ _ => alignI (h.withNested true) _ _

theorem endVector_does {b : Builder} (h : I H b) (ha : H → ∀ n, addr n % 8 = 0) (n : Nat) :
    Does (BP H addr) (Builder.endVector m b n) (fun r => I H r.2) := by
  unfold Builder.endVector
  exact Does.bind (Does.liftM fun _ e => e) fun _ _ _ => pushJ (h.withNested false) ha _

theorem createByteString_does {b : Builder} (h : I H b) (ha : H → ∀ n, addr n % 8 = 0) (bs : Bytes) :
    Does (BP H addr) (Builder.createByteString m b bs) (fun r => I H r.2) := by
  unfold Builder.createByteString
  refine Does.bind (Does.liftM fun _ e => e) fun _ _ _ => Does.bind (Does.liftM fun _ e => e) fun n _ _ => ?_
  refine Does.bind (alignI h _ _) fun b1 _ h1 => Does.bind (pushJ h1 ha _) fun ⟨_, b2⟩ _ h2 => ?_
  refine Does.bind (pushBytesI h2 _) fun b3 _ h3 => Does.bind (pushJ h3 ha _) fun ⟨_, b4⟩ _ h4 => Does.pure h4

theorem createString_does {b : Builder} (h : I H b) (ha : H → ∀ n, addr n % 8 = 0) (s : String) :
    Does (BP H addr) (Builder.createString m b s) (fun r => I H r.2) := by
  unfold Builder.createString
  exact Does.bind (Does.liftM fun _ e => e) fun _ _ _ => createByteString_does h ha _

theorem flatten_bytes {t : STy} : ∀ xs : List (SVal t), (xs.map SVal.bytes).flatten.length = xs.length * t.size
  | [] => by simp
  | x :: xs => by
    have := flatten_bytes xs
    simp only [List.map_cons, List.flatten_cons, List.length_append, List.length_cons, this, SVal.bytes_length, Nat.add_mul]
    omega

theorem createVectorDirect_does {b : Builder} (h : I H b) (ha : H → ∀ n, addr n % 8 = 0) {t : STy} (xs : List (SVal t)) :
    Does (BP H addr) (Builder.createVectorDirect m b xs) (fun r => I H r.2) := by
  unfold Builder.createVectorDirect
  refine Does.bind (Does.liftM fun _ e => e) fun _ _ _ => Does.bind (Does.liftM fun _ e => e) fun n _ _ => ?_
  refine Does.bind (alignI h _ _) fun b1 _ h1 => ?_
  refine Does.bind (Does.touch (Q := fun _ => True) (BP.u8 ?_) trivial) fun _ _ _ => ?_
  · rw [flatten_bytes]; omega
  refine Does.bind (pushBytesI h1 _) fun b3 _ h3 => Does.bind (pushJ h3 ha _) fun ⟨_, b4⟩ _ h4 => Does.pure h4

theorem pushAll_does (ha : H → ∀ n, addr n % 8 = 0) {p : PTy} : ∀ (xs : List (PVal p)) {b : Builder}, I H b →
    Does (BP H addr) (Builder.pushAll m b xs) (I H)
  | [], _, h => Does.pure h
  | x :: xs, _, h => by
    unfold Builder.pushAll
    exact Does.bind (pushJ h ha x) fun ⟨_, b1⟩ _ h1 => pushAll_does ha xs h1

theorem createVector_does {b : Builder} (h : I H b) (ha : H → ∀ n, addr n % 8 = 0) {p : PTy} (xs : List (PVal p)) :
    Does (BP H addr) (Builder.createVector m b xs) (fun r => I H r.2) := by
  unfold Builder.createVector
  refine Does.bind (Does.liftM fun _ e => e) fun n _ _ => Does.bind (alignI h _ _) fun b1 _ h1 => ?_
  exact Does.bind (pushAll_does ha _ h1) fun b2 _ h2 => pushJ h2 ha _

theorem createStrings_does (ha : H → ∀ n, addr n % 8 = 0) : ∀ (xs : List String) {b : Builder} (acc : List (PVal .off)), I H b →
    Does (BP H addr) (Builder.createStrings m b xs acc) (fun r => I H r.2)
  | [], _, _, h => Does.pure h
  | x :: xs, _, _, h => by
    unfold Builder.createStrings
    exact Does.bind (createString_does h ha x) fun ⟨_, b1⟩ _ h1 => createStrings_does ha xs _ h1

theorem createVectorOfStrings_does {b : Builder} (h : I H b) (ha : H → ∀ n, addr n % 8 = 0) (xs : List String) :
    Does (BP H addr) (Builder.createVectorOfStrings m b xs) (fun r => I H r.2) := by
  unfold Builder.createVectorOfStrings
  refine Does.bind (Does.liftM fun _ e => e) fun _ _ _ => ?_
  exact Does.bind (createStrings_does ha _ _ h) fun ⟨_, b1⟩ _ h1 => createVector_does h1 ha _

theorem finish_does {b : Builder} (h : I H b) (ha : H → ∀ n, addr n % 8 = 0) (root : Nat) (i : Option Bytes) (sp : Bool) :
    Does (BP H addr) (Builder.finishWithOpts m b root i sp) (J H) := by
  obtain ⟨a, hr⟩ := h.rep
  unfold Builder.finishWithOpts
  refine Does.bind (Does.liftM fun _ e => e) fun _ _ _ => Does.bind (Does.liftM fun _ e => e) fun _ _ _ => ?_
  have h0 : I H { b with vtables := [] } :=
    ⟨⟨{ a with vtables := [] }, hr.buf, hr.len, hr.fieldLocs, rfl, hr.nested, hr.finished, hr.minAlign, by simp, hr.flOk⟩, h.good, h.ids,
      by simp⟩
  refine Does.bind (alignI h0 _ _) fun b1 _ h1 => ?_
  refine Does.bind (Q := I H) ?_ fun b2 _ h2 => ?_
  · cases i with
    | none => exact Does.pure h1
    | some i => exact Does.bind (Does.liftM fun _ e => e) fun _ _ _ => pushBytesI h1 i
  refine Does.bind (pushJ h2 ha _) fun ⟨_, b3⟩ _ h3 => ?_
  refine Does.bind (Q := I H) ?_ fun b4 _ h4 => Does.pure ⟨h4.good, h4.ids, h4.vts⟩
  unfold Builder.pushSizePrefix
  refine Does.ite (fun _ => ?_) fun _ => Does.pure h3
  exact Does.bind (pushJ h3 ha _) fun ⟨_, b5⟩ _ h5 => Does.pure h5

theorem reset_does {b : Builder} (h : I H b) : Does (BP H addr) (Builder.reset b) (J H) := by
  obtain ⟨a, hr⟩ := h.rep
  have hl := hr.bufLen
  unfold Builder.reset
  refine Does.bind (Does.touch (Q := fun _ => True) (BP.u8 (by omega)) trivial) fun _ _ _ => Does.pure ⟨?_, h.ids, ?_⟩
  · intro x
    show GoodLen (List.take b.head b.buf ++ List.replicate (b.buf.length - b.head) 0).length
    simp only [List.length_append, List.length_take, List.length_replicate]
    rw [show min b.head b.buf.length + (b.buf.length - b.head) = b.buf.length by omega]
    exact h.good x
  · intro _ r hr; cases hr

/-- A table of the data, at a position that is a multiple of 4 from the end; its vtable at an even one. -/
def TabPos (d : Bytes) (t : Nat) : Prop :=
  t % 4 = 0 ∧ ∃ u vt, u % 2 = 0 ∧ At d u vt ∧ At d t (leBytes 4 (ofSigned 32 ((u : Int) - t)))

theorem TabPos.prepend {d : Bytes} {t : Nat} (h : TabPos d t) (y : Bytes) : TabPos (y ++ d) t := by
  obtain ⟨h1, u, vt, h2, h3, h4⟩ := h
  exact ⟨h1, u, vt, h2, h3.prepend y, h4.prepend y⟩

theorem BP.read {t : STy} {off : Nat} {s : Bytes} (ht : t ≠ .bool) (h : off + t.size ≤ s.length)
    (ha : H → ∀ n, addr n % 8 = 0) (hg : H → GoodLen s.length) (hm : H → ∃ u, off + u = s.length ∧ u % t.size = 0) :
    BP H addr ⟨false, t, 1, off, s⟩ := by
  refine ⟨by simpa [Access.Inside] using h, fun _ e => absurd e ht, fun x => ?_⟩
  obtain ⟨u, h1, h2⟩ := hm x
  exact (BP.back (Or.inr ht) h ha hg h1 fun _ => h2).2.2 x

theorem required_all {b : Builder} {a : ABuilder} (hr : R b a) (ha : H → ∀ n, addr n % 8 = 0) (hg : H → GoodLen b.buf.length)
    {t s : Nat} (ht : H → TabPos a.data t) (hl : H → a.data.length < 2 ^ 31) (hs : H → s % 2 = 0) (hs' : s < 65536) :
    All (BP H addr) (Builder.required m b t s) := by
  have hlen := hr.bufLen
  have hll := hr.len
  have hmax : isizeMax = 2 ^ 63 - 1 := rfl
  unfold Builder.required
  refine All.bind_liftM fun idx hidx => ?_
  rw [hr.used] at hidx
  dsimp only
  rw [hr.data]
  have hidx' : H → idx = a.data.length - t ∧ t ≤ a.data.length := fun x => by
    obtain ⟨_, u, vt, _, _, h4⟩ := ht x
    have hle := h4.le
    rw [subU_ok hle] at hidx
    cases hidx
    exact ⟨rfl, hle⟩
  refine All.bind (All.onRes (All.within ?_)) fun vt hvt => ?_
  · unfold Table.vtable
    refine slice_does (m := m) (t := .i32) rfl (fun hc => ?_) fun v _ _ => ?_
    · refine BP.read (t := .i32) nofun ?_ ha hg fun x => ⟨t, ?_, (ht x).1⟩
      · show b.head + idx + 4 ≤ _
        have : idx + 4 ≤ a.data.length := hc
        omega
      · show b.head + idx + t = _
        have := hidx' x
        omega
    · exact All.bind_liftM fun _ _ => All.pure _
  · have hvt' : Butte.Table.vtable m ⟨a.data, idx⟩ = .ok vt := by
      rw [onRes_res, within_res, Table.vtable_res] at hvt
      cases hq : Butte.Table.vtable m ⟨a.data, idx⟩ with
      | ok z => rw [hq] at hvt; cases hvt; rfl
      | err _ => rw [hq] at hvt; cases hvt
      | panic => rw [hq] at hvt; cases hvt
    have hbuf : vt.buf = a.data := by
      unfold Butte.Table.vtable at hvt'
      simp only [FTy.follow] at hvt'
      obtain ⟨_, _, hvt'⟩ := Res.bind_eq_ok.mp hvt'
      obtain ⟨_, _, hvt'⟩ := Res.bind_eq_ok.mp hvt'
      obtain ⟨_, _, hvt'⟩ := Res.bind_eq_ok.mp hvt'
      obtain ⟨_, _, hvt'⟩ := Res.bind_eq_ok.mp hvt'
      cases hvt'; rfl
    have hloc : H → ∃ u, u % 2 = 0 ∧ vt.loc = a.data.length - u ∧ u ≤ a.data.length := fun x => by
      obtain ⟨_, u, w, h2, h3, h4⟩ := ht x
      have hq := vtable_at (m := m) h4 h3 (hl x)
      rw [← (hidx' x).1, hvt'] at hq
      cases hq
      exact ⟨u, h2, rfl, h3.le⟩
    obtain ⟨vb, vl⟩ := vt
    dsimp only at hbuf hloc
    subst hbuf
    refine All.bind (All.onRes (All.within ?_)) fun o _ => ?_
    · unfold VTable.get VTable.numBytes
      refine All.bind (readNatAt_all fun hc => ?_) fun n _ => All.ite (fun _ => All.pure _) fun _ => ?_
      · refine BP.read (t := .u16) nofun ?_ ha hg fun x => ?_
        · show b.head + vl + 2 ≤ _
          have : vl + 2 ≤ a.data.length := hc
          omega
        · obtain ⟨u, h1, h2, h3⟩ := hloc x
          refine ⟨u, ?_, h1⟩
          show b.head + vl + u = _
          omega
      · refine All.bind_liftM fun l hq => All.bind (readNatAt_all fun hc => ?_) fun _ _ => All.pure _
        have hc : l + 2 ≤ a.data.length := hc
        refine BP.read (t := .u16) nofun ?_ ha hg fun x => ?_
        · show b.head + l + 2 ≤ _
          omega
        · obtain ⟨u, h1, h2, h3⟩ := hloc x
          have hlx := hl x
          have hsx := hs x
          dsimp only at hq
          rw [addU_ok (by omega)] at hq
          cases hq
          refine ⟨u - s, ?_, ?_⟩
          · show b.head + (vl + s) + (u - s) = _
            omega
          · show (u - s) % 2 = 0
            omega
    · split
      · exact All.lift _
      · exact All.liftM _

theorem withRet_does {x : Tr (Nat × Builder)} (h : Does (BP H addr) x (fun r => J H r.2)) :
    Does (BP H addr) (withRet x) (fun r => J H r.2) :=
  Does.bind h fun ⟨_, _⟩ _ j => Does.pure j

theorem noRet_does {x : Tr Builder} (h : Does (BP H addr) x (J H)) : Does (BP H addr) (noRet x) (fun r => J H r.2) :=
  Does.bind h fun _ _ j => Does.pure j

theorem toJ {x : Tr (Nat × Builder)} (h : Does (BP H addr) x (fun r => I H r.2)) : Does (BP H addr) x (fun r => J H r.2) :=
  h.mono fun _ _ i => i.j

/-- What is asked of a call so that its accesses are aligned. -/
def Fine (d : Bytes) (op : Op) : Prop :=
  (∀ s, op.slot? = some s → s % 2 = 0) ∧
  match op with
  | .required t s => TabPos d t ∧ d.length < 2 ^ 31 ∧ s.val % 2 = 0
  | _ => True

theorem step_does {b : Builder} {a : ABuilder} (hr : R b a) (h : J H b) (ha : H → ∀ n, addr n % 8 = 0) {op : Op}
    (hf : H → Fine a.data op) : Does (BP H addr) (step m b op) (fun r => J H r.2) := by
  have i := h.i ⟨a, hr⟩
  cases op with
  | push p x => exact withRet_does (toJ (pushJ i ha x))
  | pushSlot s p x d =>
    refine noRet_does ?_
    unfold Builder.pushSlot
    refine Does.bind (Does.liftM fun _ e => e) fun _ _ _ => Does.ite (fun _ => Does.pure h) fun _ => ?_
    exact pushSlotAlways_does i ha (fun y => (hf y).1 _ rfl) x
  | pushSlotAlways s p x => exact noRet_does (pushSlotAlways_does i ha (fun y => (hf y).1 _ rfl) x)
  | startTable =>
    refine withRet_does (Does.lift fun r e => ?_)
    unfold Butte.Builder.startTable at e
    obtain ⟨_, _, e⟩ := Res.bind_eq_ok.mp e
    cases e
    exact ⟨h.good, h.ids, h.vts⟩
  | endTable t => exact withRet_does (endTable_does i ha t)
  | startVector p n => exact noRet_does ((startVector_does i p n).mono fun _ _ i => i.j)
  | endVector n => exact withRet_does (toJ (endVector_does i ha n))
  | createString s => exact withRet_does (toJ (createString_does i ha s))
  | createByteString bs => exact withRet_does (toJ (createByteString_does i ha bs))
  | createVectorDirect t xs => exact withRet_does (toJ (createVectorDirect_does i ha xs))
  | createVector p xs => exact withRet_does (toJ (createVector_does i ha xs))
  | createVectorOfStrings xs => exact withRet_does (toJ (createVectorOfStrings_does i ha xs))
  | required t s =>
    exact Does.bind (Q := fun _ => True) ⟨required_all hr ha h.good (fun x => (hf x).2.1) (fun x => (hf x).2.2.1)
      (fun x => (hf x).2.2.2) s.isLt, fun _ _ => trivial⟩ fun _ _ _ => Does.pure h
  | finish r i' sp => exact noRet_does (finish_does i ha r i' sp)
  | reset => exact noRet_does (reset_does i)

/-- Every call of the list is fine when it is made. -/
def AllFine (m : Mode) : ABuilder → List Op → Prop
  | _, [] => True
  | a, op :: ops => Fine a.data op ∧ ∀ r a', stepA m a op = .ok (r, a') → AllFine m a' ops

theorem run_does : ∀ (ops : List Op) {b : Builder} {a : ABuilder}, R b a → J H b → (H → ∀ n, addr n % 8 = 0) →
    (H → AllFine m a ops) → Does (BP H addr) (run m b ops) (fun r => J H r.2)
  | [], _, _, _, h, _, _ => Does.pure h
  | op :: ops, b, a, hr, h, ha, hf => by
    unfold run
    have hs := step_does (m := m) hr h ha fun x => (hf x).1
    refine Does.bind hs fun ⟨r, b1⟩ e j1 => ?_
    rw [step_res] at e
    obtain ⟨⟨r', a1⟩, e1, hr1, hR1⟩ := (step_sim hr op).fwd _ e
    exact Does.bind (run_does ops hR1 j1 ha fun x => (hf x).2 _ _ e1) fun _ _ h => Does.pure h

/-- A builder right after `new_with_capacity`. -/
theorem new_J {cap : Nat} {b : Builder} (h : Butte.Builder.newWithCapacity cap = .ok b) (hg : H → GoodLen cap) : J H b := by
  unfold Butte.Builder.newWithCapacity at h
  obtain ⟨_, _, h⟩ := Res.bind_eq_ok.mp h
  cases h
  exact ⟨fun x => by simpa using hg x, by simp, by simp⟩

/-- Without calls of `required`, even slots are enough. -/
theorem allFine_of_even {m : Mode} : ∀ (ops : List Op), (∀ op ∈ ops, ∀ s, op.slot? = some s → s % 2 = 0) →
    (∀ op ∈ ops, ∀ t s, op ≠ .required t s) → ∀ a, AllFine m a ops
  | [], _, _, _ => trivial
  | op :: ops, h, h', a => by
    refine ⟨⟨h op (List.mem_cons_self ..), ?_⟩, fun _ a' _ => allFine_of_even ops (fun o ho => h o (List.mem_cons_of_mem _ ho))
      (fun o ho => h' o (List.mem_cons_of_mem _ ho)) a'⟩
    cases op with
    | required t s => exact absurd rfl (h' _ (List.mem_cons_self ..) t s)
    | _ => trivial

/-! ### Callers that follow the protocol -/

theorem endTable_pos {a a' : ABuilder} {tail obj : Nat} (h : a.endTable m tail = .ok (obj, a')) (hfl : FLOk a) (hvt : VTInv a)
    (hl : a'.data.length < 2 ^ 31) : TabPos a'.data obj := by
  unfold ABuilder.endTable at h
  obtain ⟨_, _, h⟩ := Res.bind_eq_ok.mp h
  obtain ⟨⟨o, a1⟩, h1, h⟩ := Res.bind_eq_ok.mp h
  cases h
  obtain ⟨vt, u, w1, w2, w3, _, w5⟩ := writeVTable_use h1 (by simp only at hl; omega) hfl fun r hr => by
    obtain ⟨vt, _, hat⟩ := hvt.le r hr
    exact hat.le
  have h4 := writeVTable_obj4 h1 (by simp only at hl; omega)
  refine ⟨h4, u, vt, ?_, w3, w2⟩
  rcases w5 with w5 | w5
  · exact hvt.even u w5
  · obtain ⟨f1, _⟩ := vtableBytes_fmt w1 hfl
    have := f1.even
    omega

theorem next_tables {c : Caller} {op : Op} {r : Option Nat} {t : Nat} {slots : List Nat} (h : (t, slots) ∈ (c.next op r).tables) :
    (op.isReset = false ∧ (t, slots) ∈ c.tables) ∨ ∃ tail, op = .endTable tail ∧ r = some t := by
  cases op <;> simp only [Caller.next] at h <;> try (cases hb : c.building <;> simp only [hb] at h <;> exact Or.inl ⟨rfl, h⟩)
  case endTable tail =>
    cases hb : c.building <;> simp only [hb] at h
    case table _ body =>
      rcases List.mem_append.mp h with h | h
      · obtain ⟨o, ho, e⟩ := List.mem_map.mp h
        cases e
        refine Or.inr ⟨tail, rfl, ?_⟩
        cases r with
        | none => cases ho
        | some _ => rw [List.mem_singleton.mp ho]
      · exact Or.inl ⟨rfl, h⟩
    all_goals exact Or.inl ⟨rfl, h⟩
  case startTable => exact Or.inl ⟨rfl, h⟩
  case startVector => exact Or.inl ⟨rfl, h⟩
  case endVector => exact Or.inl ⟨rfl, h⟩
  case finish => exact Or.inl ⟨rfl, h⟩
  case reset => cases h

theorem abides_does (ha : H → ∀ n, addr n % 8 = 0) : ∀ {ops : List Op} {b : Builder} {a : ABuilder} {c : Caller}, R b a →
    Tracks m c a → J H b → (∀ t slots, (t, slots) ∈ c.tables → TabPos a.data t) → Abides m b c ops →
    Does (BP H addr) (run m b ops) (fun r => J H r.2)
  | [], _, _, _, _, _, hj, _, _ => Does.pure hj
  | op :: ops, b, a, c, hr, ht, hj, htab, ⟨h1, h2, h3⟩ => by
    obtain ⟨h2, h4⟩ := h2
    rw [hr.used] at h2
    obtain ⟨r, a', e, ht'⟩ := ht.step h1 h2 (by rintro t rfl; rw [← hr.used]; exact h4)
    have hlen := ht.len
    have hlen' := ht'.len
    have fine : Fine a.data op := by
      refine ⟨fun s hs => ?_, ?_⟩
      · cases op <;> simp only [Op.slot?, reduceCtorEq, Option.some.injEq] at hs
        all_goals (subst hs; exact h1.1.1)
      · cases op with
        | required t s =>
          obtain ⟨_, slots, hm, hs⟩ := h1
          obtain ⟨base, flds, hat, rfl⟩ := ht.tables _ _ hm
          obtain ⟨f, hf, hfs⟩ := List.mem_map.mp hs
          obtain ⟨vt, _, _, hall, _⟩ := hat
          refine ⟨htab _ _ hm, by omega, ?_⟩
          rw [← hfs]; exact (hall f hf).1
        | _ => trivial
    unfold run
    have hs := step_does (m := m) (H := H) (addr := addr) hr hj ha fun _ => fine
    refine Does.bind hs fun ⟨r1, b1⟩ e1 j1 => ?_
    rw [step_res] at e1
    obtain ⟨⟨r', a1⟩, e2, hr1, hR1⟩ := (step_sim hr op).fwd _ e1
    rw [e] at e2
    cases e2
    simp only at hr1 hR1
    subst hr1
    refine Does.bind (abides_does ha hR1 ht' j1 ?_ (h3 _ _ e1)) fun _ _ h => Does.pure h
    intro t slots hm
    rcases next_tables hm with ⟨hn, hm⟩ | ⟨tail, rfl, hrt⟩
    · obtain ⟨y, hy⟩ := stepA_ext e hn (by simp only; omega)
      simp only at hy
      rw [hy]
      exact (htab t slots hm).prepend y
    · subst hrt
      exact endTable_pos (withRetA_some e) ht.fl ht.vt (by omega)

end Butte.Mem
